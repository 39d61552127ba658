import Verif.Single.Model
import Verif.Tour.Spec
import Verif.Line.Spec

/-!
# Matching a single trip (specification)
-/

namespace Verif.Single
open Verif.Trie (Trie Op history Spells)
open Verif.Router (Ecm getECM)
open Verif.Line (Pos LHop LineOf Edges)
open Verif.Build (Mode Forward)
open Verif.Full (Net Limits Plan Driven Small)
open Verif.HopCache (Cache)
open Verif.Whole (Kept Shows Place mapSegs)
open Verif.Tour (Town FindOk EdgesOk MapOk Leg)

variable {C Pt P A S T D P' : Type}

/-- The trip, put into a trie without any other trip. -/
def op (m : Mode Nat C Pt Unit (Option Cache) P A) (k : Nat) : Op Nat A := ⟨k, m.c.rAttrs k, m.c.timeEx, false⟩

/-- What is assumed of the trip. `tr`: the trie with this trip only. -/
structure TripOk (m : Mode Nat C Pt Unit (Option Cache) P A) (net : Trie Nat P A → Ecm Nat C (Pos Pt) → Net C (Pos Pt × Int)) (k : Nat) : Prop where
  stops : 2 ≤ (m.c.stops k).length
  /-- costs fit into 32 bits (C67) -/
  small : ∀ tr log, history m.c.toEnv [op m k] = some (tr, log) → ∀ ecm, getECM (m.gen tr) tr.nds = some ecm → ∃ K, Small (net tr ecm) K
  /-- average times fit into 31 bits (C49) -/
  times : ∀ tr log, history m.c.toEnv [op m k] = some (tr, log) → getECM (m.gen tr) tr.nds ≠ none
  /-- C53 -/
  forward : ∀ tr log, history m.c.toEnv [op m k] = some (tr, log) → ∀ ecm, getECM (m.gen tr) tr.nds = some ecm → ∀ o nid, (o, nid) ∈ log →
    ∀ hops, (net tr ecm).route tr.nds none nid = some hops → ∀ h ∈ hops, Forward h

/-- These hops are a cheapest journey through the stops of the trip, for the attributes of this trip and without regard to any other trip: one hop for
each two consecutive stops, and each hop starts where the one before it ends. They are those of a plan that no other plan undercuts. -/
def Alone (m : Mode Nat C Pt Unit (Option Cache) P A) (net : Trie Nat P A → Ecm Nat C (Pos Pt) → Net C (Pos Pt × Int))
    (turn : A → Nat → Nat → Option Nat) (leg : A → (Nat → Bool) → LHop Nat Pt → Prop) (k : Nat) (hops : List (LHop Nat Pt)) : Prop :=
  hops.length + 1 = (m.c.stops k).length ∧ Router.Meet hops ∧
  ∃ (tr : Trie Nat P A) (nid : Nat) (ecm : Ecm Nat C (Pos Pt)),
    history m.c.toEnv [op m k] = some (tr, [(op m k, nid)]) ∧ Spells m.c.toEnv tr.nds (op m k) nid ∧ getECM (m.gen tr) tr.nds = some ecm ∧
    (∀ (i : Nat) nd, i ≠ 0 → tr.nds[i]? = some nd → nd.attrs = m.c.rAttrs k) ∧
    ∃ (top : Nat → UInt32) (lost : Nat → Bool) (ids : List Nat) (cost : C),
      Limits (turn (m.c.rAttrs k)) (net tr ecm) tr.nds top lost ∧ Plan (turn (m.c.rAttrs k)) (net tr ecm) tr.nds top lost nid ids cost ∧
      Driven (turn (m.c.rAttrs k)) (net tr ecm) tr.nds lost nid ids hops ∧
      (∀ ids' c, Plan (turn (m.c.rAttrs k)) (net tr ecm) tr.nds top lost nid ids' c → (net tr ecm).ops.lt c cost = false) ∧
      ∀ h ∈ hops, leg (m.c.rAttrs k) lost h

/-- The lines are those of the hops, in the order of travel (the hops are in reverse order). -/
def Drawn (pt : List Pt → Rat → Pt) (g : Edges Nat Pt) (hops : List (LHop Nat Pt)) (lines : List (List Pt)) : Prop :=
  lines.length = hops.length ∧ ∀ (i : Nat) h l, hops.reverse[i]? = some h → lines[i]? = some l → LineOf pt g h l

/-- What is assumed of a mode configuration with its OSM file, and of the trip. -/
structure OneOk [DecidableEq P] (q : Town P S T D C P' A) (k : Nat) : Prop extends MapOk q where
  find : FindOk q.mode0 q.net (fun a => Journey.turn q.graph (q.fare a))
  trip : TripOk q.mode0 q.net k

/-- These hops are a cheapest journey through the stops of the trip on the map of the file. -/
def Tour [DecidableEq P] (q : Town P S T D C P' A) (k : Nat) (hops : List (LHop Nat P)) : Prop :=
  ∃ (ways : List Osm.Way) (at_ : Nat → Option Place), Kept q.p q.d ways ∧ (∀ u v x, at_ u = some x → at_ v = some x → u = v) ∧
    Shows q.p q.d (mapSegs q.p q.d ways) at_ q.graph ∧
    Alone q.m q.net (fun a => Journey.turn q.graph (q.fare a)) (Leg q ways at_) k hops

end Verif.Single
