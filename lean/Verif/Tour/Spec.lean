import Verif.Tour.Model
import Verif.Build.Spec
import Verif.Journey.Spec

/-!
# Matching all trips of a feed on the map of an OSM file (specification)

`turn a i j` is the cost of leaving edge `i` for the next edge `j`, for trips with the routing attributes `a`.
-/

namespace Verif.Tour
open Verif.Trie (Trie Op history Spells StrictWeak)
open Verif.Router (Ecm getECM route Laws Finite Placeholder)
open Verif.Line (Pos LHop GeomOk)
open Verif.Build (Mode cluster Offers Forward After)
open Verif.Full (Net Limits Plan Driven WalkOk Small)
open Verif.Hops (GraphOk SearchOk)
open Verif.HopCache (Cache)
open Verif.Whole (Kept Tidy Shows Place mapSegs)

variable {C Pt P A S T D P' : Type}

/-- What is assumed of the router with the network `net`, whatever the candidates are. -/
structure DriveOk (m : Mode Nat C Pt Unit (Option Cache) P A) (net : Trie Nat P A → Ecm Nat C (Pos Pt) → Net C (Pos Pt × Int))
    (turn : A → Nat → Nat → Option Nat) : Prop where
  near : ∀ p, m.c.near p p = true
  /-- costs (C14) -/
  ecm : ∀ tr ecm, (net tr ecm).ecm = ecm
  laws : ∀ tr ecm, Laws (net tr ecm).ops
  finite : ∀ tr ecm, Finite (net tr ecm).ops
  /-- the standard variant of the hop calculation, with searches for cheapest ways (C67, C68) -/
  slow : ∀ tr ecm, (net tr ecm).slow = true
  search : ∀ tr ecm, SearchOk (turn (key m.c tr)) (net tr ecm).h
  walk : ∀ tr ecm, WalkOk (turn (key m.c tr)) (net tr ecm).walk

/-- What is assumed of the router with the network `net`. -/
structure FindOk (m : Mode Nat C Pt Unit (Option Cache) P A) (net : Trie Nat P A → Ecm Nat C (Pos Pt) → Net C (Pos Pt × Int))
    (turn : A → Nat → Nat → Option Nat) : Prop extends DriveOk m net turn where
  /-- candidates (C14) -/
  cands : ∀ tr ecm, Placeholder (net tr ecm).ops (m.gen tr)
  progr : ∀ tr i c, c ∈ (m.gen tr).cands i → c.e ≠ none → 0 ≤ c.x.progr ∧ c.x.progr ≤ 1

/-- What is assumed of clustering, times and costs in a run with the network `net`. -/
structure PlanOk (m : Mode Nat C Pt Unit (Option Cache) P A) (net : Trie Nat P A → Ecm Nat C (Pos Pt) → Net C (Pos Pt × Int)) (n : Nat) : Prop where
  lt : StrictWeak m.c.lt
  thr : 0 < m.thr
  /-- all threads of the clustering have returned -/
  done : ∀ s, Trie.cinit m.c m.thr (List.range n) = some s → Trie.Complete s m.csched
  /-- merging the attributes of a trip with themselves does not change them (C27) -/
  merge : ∀ t, m.c.merge (m.c.rAttrs t) (m.c.rAttrs t) = m.c.rAttrs t
  small : ∀ fs, cluster m n = some fs → ∀ f ∈ fs, ∀ tr ∈ f, ∀ ecm, getECM (m.gen tr) tr.nds = some ecm → ∃ K, Small (net tr ecm) K
  /-- there is no hop cache, or it is empty -/
  cache : m.cache = none ∨ m.cache = some HopCache.empty
  /-- average times fit into 31 bits (C49) -/
  times : ∀ fs, cluster m n = some fs → ∀ f ∈ fs, ∀ tr ∈ f, getECM (m.gen tr) tr.nds ≠ none
  forward : ∀ fs, cluster m n = some fs → ∀ pre tr post, pre ++ tr :: post ∈ fs → ∀ ecm, getECM (m.gen tr) tr.nds = some ecm → ∀ s,
    After (onNet m net) pre s → ∀ nid hops, nid < tr.nds.length → tr.ndTrips nid ≠ [] → (net tr ecm).route tr.nds s nid = some hops → ∀ h ∈ hops, Forward h

/-- What is assumed of a run with the network `net`. -/
structure RunOk (m : Mode Nat C Pt Unit (Option Cache) P A) (net : Trie Nat P A → Ecm Nat C (Pos Pt) → Net C (Pos Pt × Int))
    (turn : A → Nat → Nat → Option Nat) (n : Nat) : Prop extends FindOk m net turn, PlanOk m net n

/-- What is assumed of the edges, if they are not those of an OSM file. -/
structure EdgesOk (m : Mode Nat C Pt Unit (Option Cache) P A) (net : Trie Nat P A → Ecm Nat C (Pos Pt) → Net C (Pos Pt × Int))
    (turn : A → Nat → Nat → Option Nat) : Prop where
  /-- edges lead from node to node -/
  geom : GeomOk m.map
  /-- candidates are on edges with lines -/
  offers : ∀ tr e, Offers (m.gen tr) e → m.map.geom e ≠ none
  /-- one leaves an edge for one that starts at its end -/
  join : ∀ a i j x, turn a i j = some x → m.map.to_ i = m.map.from_ j ∧ m.map.geom j ≠ none
  /-- component numbers and costs of edges (C67) -/
  graph : ∀ tr ecm, GraphOk (turn (key m.c tr)) (net tr ecm).h

/-- What is assumed of a run with the network `net`, if its edges are not those of an OSM file. -/
structure NetOk (m : Mode Nat C Pt Unit (Option Cache) P A) (net : Trie Nat P A → Ecm Nat C (Pos Pt) → Net C (Pos Pt × Int))
    (turn : A → Nat → Nat → Option Nat) (n : Nat) : Prop extends RunOk m net turn n, EdgesOk m net turn

/-- These hops are a cheapest journey through the stops of the trip: one hop for each two consecutive stops, and each hop starts where the one before
it ends. They are those of a plan that no other plan undercuts, where plans ride along ways in the graph and pay the cost of a cheapest way, as for
a trip `j` with equivalent attributes. `nid` is a node of a trie that spells the stops of the trip. `leg` says more about the hops; `lost` are the
nodes for which no ride was found. -/
def Rides (m : Mode Nat C Pt Unit (Option Cache) P A) (net : Trie Nat P A → Ecm Nat C (Pos Pt) → Net C (Pos Pt × Int))
    (turn : A → Nat → Nat → Option Nat) (leg : A → (Nat → Bool) → LHop Nat Pt → Prop) (n k : Nat) (hops : List (LHop Nat Pt)) : Prop :=
  hops.length + 1 = (m.c.stops k).length ∧ Router.Meet hops ∧
  ∃ (tr : Trie Nat P A) (ops : List (Op Nat A)) (log : List (Op Nat A × Nat)) (op : Op Nat A) (nid : Nat) (ecm : Ecm Nat C (Pos Pt)) (j : Nat),
    history m.c.toEnv ops = some (tr, log) ∧ (op, nid) ∈ log ∧ op.t = k ∧ Spells m.c.toEnv tr.nds op nid ∧ getECM (m.gen tr) tr.nds = some ecm ∧
    j < n ∧ m.c.lt (m.c.rAttrs j) (m.c.rAttrs k) = false ∧ m.c.lt (m.c.rAttrs k) (m.c.rAttrs j) = false ∧
    (∀ (i : Nat) nd, i ≠ 0 → tr.nds[i]? = some nd → nd.attrs = m.c.rAttrs j) ∧
    ∃ (top : Nat → UInt32) (lost : Nat → Bool) (ids : List Nat) (cost : C),
      Limits (turn (m.c.rAttrs j)) (net tr ecm) tr.nds top lost ∧ Plan (turn (m.c.rAttrs j)) (net tr ecm) tr.nds top lost nid ids cost ∧
      Driven (turn (m.c.rAttrs j)) (net tr ecm) tr.nds lost nid ids hops ∧
      (∀ ids' c, Plan (turn (m.c.rAttrs j)) (net tr ecm) tr.nds top lost nid ids' c → (net tr ecm).ops.lt c cost = false) ∧
      ∀ h ∈ hops, leg (m.c.rAttrs j) lost h

/-! ## On the map of an OSM file -/

/-- What is assumed of the map of a mode configuration, whatever the candidates are. -/
structure FileOk [DecidableEq P] (q : Town P S T D C P' A) : Prop where
  /-- the file and how it is read (C76) -/
  filter : q.p.f.Ok
  opts : Osm.FlaggedOpts q.p.o
  order : ∀ x l, (q.p.cfg.snap.order x l).Perm l
  nodes : ∀ n u, u ∈ q.p.cfg.nds n ↔ u < n
  simplify : ∀ l, (q.p.cfg.simplify l).head? = l.head? ∧ (q.p.cfg.simplify l).getLast? = l.getLast?
  doc : q.d.Ok
  tidy : ∀ ways, Kept q.p q.d ways → Tidy q.p q.d (mapSegs q.p q.d ways)
  /-- an edge from a node to itself starts and ends there (it does not always, C35) -/
  loops : ∀ e ∈ q.graph.es, e.src = e.dst → ∃ l, e.geom = some l ∧ l.head? = some (q.graph.pos e.src) ∧ l.getLast? = some (q.graph.pos e.src)
  fare : ∀ a, Journey.FareOk (q.fare a)

/-- What is assumed of the map of a mode configuration. -/
structure MapOk [DecidableEq P] (q : Town P S T D C P' A) : Prop extends FileOk q where
  /-- candidates are on edges of the graph -/
  offers : ∀ tr e, Offers (q.m.gen tr) e → e < q.graph.es.length

/-- What is assumed of a mode configuration with its OSM file. -/
structure TownOk [DecidableEq P] (q : Town P S T D C P' A) (n : Nat) : Prop extends MapOk q where
  run : RunOk q.mode0 q.net (fun a => Journey.turn q.graph (q.fare a)) n

/-- The hop is a jump, for lack of a ride, or a cheapest drive along edges of the graph, which are lines of ways of the file, as permitted there. -/
def Leg [DecidableEq P] (q : Town P S T D C P' A) (ways : List Osm.Way) (at_ : Nat → Option Place) (a : A) (lost : Nat → Bool)
    (h : LHop Nat P) : Prop :=
  (h.edges = [] ∧ ∃ i, lost i = true) ∨ ∃ l x, Journey.Drives q.graph.es h l ∧ Journey.Cheapest q.graph (q.fare a) l x ∧
    Journey.OnMap q.p (mapSegs q.p q.d ways) at_ q.graph l

/-- These hops are a cheapest journey through the stops of the trip on the map of the file. `ways` are the ways of the file that are used, `at_` says
what the nodes of the graph stand for. -/
def Tours [DecidableEq P] (q : Town P S T D C P' A) (n k : Nat) (hops : List (LHop Nat P)) : Prop :=
  ∃ (ways : List Osm.Way) (at_ : Nat → Option Place), Kept q.p q.d ways ∧ (∀ u v x, at_ u = some x → at_ v = some x → u = v) ∧
    Shows q.p q.d (mapSegs q.p q.d ways) at_ q.graph ∧
    Rides q.m q.net (fun a => Journey.turn q.graph (q.fare a)) (Leg q ways at_) n k hops

end Verif.Tour
