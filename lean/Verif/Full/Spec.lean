import Verif.Full.Model
import Verif.Router.Spec
import Verif.Hops.Spec

/-!
# Routing with the costs between candidates put in (specification)

`turn a b` is the cost of leaving edge `a` for the next edge `b`, as in `Verif.Hops.Spec`. A plan chooses one candidate per node; it may ride
from one candidate to another if there is a way in the graph for less than the limit `top` of the node, and it pays the cost of a cheapest
way. If this is not possible for any candidates (`lost`), it may jump.
-/

namespace Verif.Full

open Verif.Trie (Nd)
open Verif.Router (Stays)
open Verif.HopCache (Cache)
open Verif.Hops (Way IsDist Travel GraphOk SearchOk FoundOk CacheOk HEnv)

variable {C X P A : Type}

/-- The edges of a way, last one first. -/
inductive Trail (turn : Nat → Nat → Option Nat) : Nat → Nat → List Nat → Nat → Prop
  | one (a : Nat) : Trail turn a a [a] 0
  | more {a b c x y : Nat} {es : List Nat} : Trail turn a b es x → turn b c = some y → Trail turn a c (c :: es) (x + y)

/-- What is assumed of the search for the edges of a hop: below the bound it returns a cheapest way, and there is none if it does not. -/
structure WalkOk (turn : Nat → Nat → Option Nat) (walk : Nat → Nat → UInt32 → UInt32 × List Nat) : Prop where
  found : ∀ (a b : Nat) (m : UInt32), (walk a b m).1 < m →
    IsDist turn a b (walk a b m).1.toNat ∧ Trail turn a b (walk a b m).2 (walk a b m).1.toNat
  lost : ∀ (a b : Nat) (m : UInt32), m ≤ (walk a b m).1 → ∀ y : Nat, Way turn a b y → m.toNat ≤ y

/-- One can ride from candidate `fr` of the parent of `t` to candidate `to` of `nid` for the cost `x`. -/
def Ride (turn : Nat → Nat → Option Nat) (n : Net C X) (nid : Nat) (t : Nd P A) (fr to : Nat) (x : UInt32) : Prop :=
  ∃ a b : Router.Cand Nat C X, (n.ecm t.parent)[fr]? = some a ∧ (n.ecm nid)[to]? = some b ∧
    Travel turn n.h.cost ⟨a.e, n.progr a.x⟩ ⟨b.e, n.progr b.x⟩ x.toNat

/-- One more candidate: the cost of the plan grows from `c` to the last argument. -/
inductive Move (turn : Nat → Nat → Option Nat) (n : Net C X) (nid : Nat) (f t : Nd P A) (top : UInt32) (lost : Bool) (fr to : Nat) (c : C) :
    C → Prop where
  /-- within a stop: to a candidate that lists `fr` as predecessor -/
  | stay (cand : Router.Cand Nat C X) : Stays f t → (n.ecm nid)[to]? = some cand → fr ∈ cand.depPrede →
      Move turn n nid f t top lost fr to c (n.ops.add c cand.pen)
  /-- ride to another stop -/
  | ride (cand : Router.Cand Nat C X) (x : UInt32) : ¬ Stays f t → Ride turn n nid t fr to x → x < top → (n.ecm nid)[to]? = some cand →
      Move turn n nid f t top lost fr to c (n.ops.add (n.ops.add c cand.pen) (n.weight nid fr to x))
  /-- jump to a leading candidate without edge -/
  | null : ¬ Stays f t → lost = true → fr < (n.ecm t.parent).length →
      (∀ j, j ≤ to → ∃ cand, (n.ecm nid)[j]? = some cand ∧ cand.e = none) →
      Move turn n nid f t top lost fr to c (n.ops.add c (n.ops.ofU32 (top * 100)))
  /-- jump to another candidate -/
  | jump (cand : Router.Cand Nat C X) (j : Nat) (d : Router.Cand Nat C X) : ¬ Stays f t → lost = true →
      fr < (n.ecm t.parent).length → (n.ecm nid)[to]? = some cand → 1 ≤ j → j ≤ to →
      (n.ecm nid)[j]? = some d → d.e ≠ none →
      Move turn n nid f t top lost fr to c (n.ops.add c cand.pen)

/-- The cost of a plan along the path to `nid` (last candidate first). -/
inductive Plan (turn : Nat → Nat → Option Nat) (n : Net C X) (nds : List (Nd P A)) (top : Nat → UInt32) (lost : Nat → Bool) :
    Nat → List Nat → C → Prop where
  | first (nid id : Nat) (t : Nd P A) (cand : Router.Cand Nat C X) : nds[nid]? = some t → t.parent = 0 →
      (n.ecm nid)[id]? = some cand → Plan turn n nds top lost nid [id] cand.pen
  | next (nid fr to : Nat) (f t : Nd P A) (ids : List Nat) (c c' : C) : nds[nid]? = some t → t.parent ≠ 0 →
      nds[t.parent]? = some f → Plan turn n nds top lost t.parent (fr :: ids) c →
      Move turn n nid f t (top nid) (lost nid) fr to c c' → Plan turn n nds top lost nid (to :: fr :: ids) c'

/-- Some plan with finite cost reaches `nid` by a ride cheaper than `m`. -/
def Opens (turn : Nat → Nat → Option Nat) (n : Net C X) (nds : List (Nd P A)) (top : Nat → UInt32) (lost : Nat → Bool) (nid : Nat) (t : Nd P A)
    (m : Nat) : Prop :=
  ∃ (fr to : Nat) (ids : List Nat) (c : C) (x : UInt32) (cand : Router.Cand Nat C X),
    Plan turn n nds top lost t.parent (fr :: ids) c ∧ Ride turn n nid t fr to x ∧ x.toNat < m ∧ (n.ecm nid)[to]? = some cand ∧
    n.ops.lt (n.ops.add (n.ops.add c cand.pen) (n.weight nid fr to x)) n.ops.inf = true

/-- The limits: the first one of four, each twice the one before, with which some plan reaches the node; the last one if none does. -/
def Limits (turn : Nat → Nat → Option Nat) (n : Net C X) (nds : List (Nd P A)) (top : Nat → UInt32) (lost : Nat → Bool) : Prop :=
  ∀ (nid : Nat) (t f : Nd P A), nid ≠ 0 → nds[nid]? = some t → t.parent ≠ 0 → nds[t.parent]? = some f → ¬ Stays f t →
    ∃ k : Nat, k < 4 ∧ (top nid).toNat = (n.maxCost0 nid).toNat * 2 ^ k ∧
      (∀ k' : Nat, k' < k → ¬ Opens turn n nds top lost nid t ((n.maxCost0 nid).toNat * 2 ^ k')) ∧
      (lost nid = false → Opens turn n nds top lost nid t (top nid).toNat) ∧
      (lost nid = true → k = 3 ∧ ¬ Opens turn n nds top lost nid t (top nid).toNat)

/-- A hop from candidate `a` to candidate `b`: it ends there, and its edges are those of a cheapest way; after a jump there may be none. -/
structure Joined (turn : Nat → Nat → Option Nat) (lost : Bool) (a b : Router.Cand Nat C X) (h : Router.Hop Nat X) : Prop where
  frEdge : ∀ e, a.e = some e → h.fr = .onEdge e a.x
  frFree : a.e = none → h.fr = .free a.x
  toEdge : ∀ e, b.e = some e → h.to = .onEdge e b.x
  toFree : b.e = none → h.to = .free b.x
  none : a.e = none ∨ b.e = none → lost = true ∧ h.edges = []
  way : ∀ e e' : Nat, a.e = some e → b.e = some e' →
    (∃ x : Nat, IsDist turn e e' x ∧ Trail turn e e' h.edges x) ∨ (lost = true ∧ h.edges = [])

/-- The hops of a plan (last one first), one for each move between stops. -/
inductive Driven (turn : Nat → Nat → Option Nat) (n : Net C X) (nds : List (Nd P A)) (lost : Nat → Bool) :
    Nat → List Nat → List (Router.Hop Nat X) → Prop where
  | first (nid id : Nat) (t : Nd P A) : nds[nid]? = some t → t.parent = 0 → Driven turn n nds lost nid [id] []
  | stay (nid fr to : Nat) (f t : Nd P A) (ids : List Nat) (hs : List (Router.Hop Nat X)) : nds[nid]? = some t →
      t.parent ≠ 0 → nds[t.parent]? = some f → Stays f t → Driven turn n nds lost t.parent (fr :: ids) hs →
      Driven turn n nds lost nid (to :: fr :: ids) hs
  | hop (nid fr to : Nat) (f t : Nd P A) (ids : List Nat) (hs : List (Router.Hop Nat X)) (a b : Router.Cand Nat C X)
      (h : Router.Hop Nat X) : nds[nid]? = some t → t.parent ≠ 0 → nds[t.parent]? = some f → ¬ Stays f t →
      (n.ecm t.parent)[fr]? = some a → (n.ecm nid)[to]? = some b → Joined turn (lost nid) a b h →
      Driven turn n nds lost t.parent (fr :: ids) hs → Driven turn n nds lost nid (to :: fr :: ids) (h :: hs)

/-- Positions lie on the edges, and costs are so small that sums of them fit into 32 bits. -/
structure Small (n : Net C X) (K : Nat) : Prop where
  zero : ∀ nid, ∀ c ∈ n.ecm nid, 0 ≤ n.progr c.x
  one : ∀ nid, ∀ c ∈ n.ecm nid, n.progr c.x ≤ 1
  cost : ∀ nid, ∀ c ∈ n.ecm nid, ∀ e : Nat, c.e = some e → ((n.h.cost e).toNat : Rat) * n.progr c.x ≤ (K : Rat)
  room : ∀ nid, 8 * (n.maxCost0 nid).toNat + 2 * K < 4294967295
  two : ∀ nid, 2 ≤ (n.maxCost0 nid).toNat

/-- What is assumed of the search behind the costs between candidates, and of the content of the cache at the start. -/
def Trust (turn : Nat → Nat → Option Nat) (n : Net C X) (s : Option Cache) : Prop :=
  if n.slow then SearchOk turn n.h ∧ ∀ x, s = some x → CacheOk turn x else FoundOk turn n.h

end Verif.Full
