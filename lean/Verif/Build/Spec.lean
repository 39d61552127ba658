import Verif.Build.Model
import Verif.Dists.Spec
import Verif.Trie.ClusterProps
import Verif.Router.Props

/-!
# Matching all trips of a feed (specification)
-/

namespace Verif.Build
open Verif.Trie (CEnv Trie Op history Spells StrictWeak needsShape)
open Verif.Router (Gen Ecm getECM search route Laws Finite Placeholder Meet SeqCost HopsOf)
open Verif.Line (Pos LHop Edges Geo GeomOk Chain ShpPt)
open Verif.Content (TripRow)
open Verif.Out (StRow)
open Verif.Result (rowsOf)
open Verif.Dists (Along)

variable {E C Pt D S P A : Type}

/-- `s` is the hop cache after these tries, which were routed one after the other. -/
inductive After (m : Mode E C Pt D S P A) : List (Trie Nat P A) → S → Prop
  | start : After m [] m.cache
  | next {f : List (Trie Nat P A)} {s : S} {tr : Trie Nat P A} {ecm : Ecm E C (Pos Pt)} : After m f s → getECM (m.gen tr) tr.nds = some ecm →
      After m (f ++ [tr]) (search (m.env tr ecm s) tr.nds s).s

/-- These hops are a cheapest way (over sequences of candidates, C14) through the stops of the trip: one hop for each two consecutive stops, and each
hop starts where the one before it ends. `tr` is a trie with the trip in one of the forests, and `nid` its node, which spells the stops of the trip.
`s` is the hop cache before the trie was routed. -/
def Serves (m : Mode E C Pt D S P A) (n k : Nat) (hops : List (LHop E Pt)) : Prop :=
  hops.length + 1 = (m.c.stops k).length ∧ Meet hops ∧
  ∃ (fs : List (List (Trie Nat P A))) (pre post : List (Trie Nat P A)) (tr : Trie Nat P A) (ops : List (Op Nat A)) (log : List (Op Nat A × Nat))
    (op : Op Nat A) (nid : Nat) (ecm : Ecm E C (Pos Pt)) (s : S),
    cluster m n = some fs ∧ pre ++ tr :: post ∈ fs ∧ After m pre s ∧
    history m.c.toEnv ops = some (tr, log) ∧ (op, nid) ∈ log ∧ op.t = k ∧ Spells m.c.toEnv tr.nds op nid ∧ getECM (m.gen tr) tr.nds = some ecm ∧
    route (m.env tr ecm s) tr.nds s nid = some hops ∧
    ∃ ids cost, SeqCost (m.env tr ecm s) tr.nds (search (m.env tr ecm s) tr.nds s).ents (search (m.env tr ecm s) tr.nds s).fb nid ids cost ∧
      HopsOf (m.env tr ecm s) tr.nds nid ids hops ∧
      ∀ ids' c, SeqCost (m.env tr ecm s) tr.nds (search (m.env tr ecm s) tr.nds s).ents (search (m.env tr ecm s) tr.nds s).fb nid ids' c →
        (m.env tr ecm s).ops.lt c cost = false

/-- The path leads from the edge `e` to the edge `e'` (the last edge is first), and its edges have geometries. -/
structure Leads (g : Edges E Pt) (e e' : E) (path : List E) : Prop where
  start : path.getLast? = some e
  stop : path.head? = some e'
  chain : Chain g path.reverse
  geom : ∀ x ∈ path, g.geom x ≠ none

/-- The edge is one of the candidates of a stop. -/
def Offers {X : Type} (g : Gen E C X) (e : E) : Prop := ∃ i, ∃ c ∈ g.cands i, c.e = some e

/-- A hop within one edge goes forward (C53). -/
def Forward (h : LHop E Pt) : Prop :=
  ∀ e x e' y, h.fr = .onEdge e x → h.to = .onEdge e' y → h.edges.length = 1 → x.1.progr ≤ y.1.progr

/-- What is assumed of the router. -/
structure RouteOk (m : Mode E C Pt D S P A) : Prop where
  near : ∀ p, m.c.near p p = true
  /-- the router uses the candidates of the trie -/
  ecm : ∀ tr ecm s, (m.env tr ecm s).ecm = ecm
  /-- costs and candidates (C14) -/
  laws : ∀ tr ecm s, Laws (m.env tr ecm s).ops
  finite : ∀ tr ecm s, Finite (m.env tr ecm s).ops
  cands : ∀ tr ecm s, Placeholder (m.env tr ecm s).ops (m.gen tr)
  progr : ∀ tr i c, c ∈ (m.gen tr).cands i → c.e ≠ none → 0 ≤ c.x.progr ∧ c.x.progr ≤ 1
  /-- the edges lead from node to node, and paths from edge to edge -/
  geom : GeomOk m.map
  paths : ∀ tr ecm s nid e e', Offers (m.gen tr) e → Offers (m.gen tr) e' → (m.env tr ecm s).path nid e e' ≠ [] → Leads m.map e e' ((m.env tr ecm s).path nid e e')

/-- What is assumed of a mode configuration. -/
structure ModeOk (m : Mode E C Pt D S P A) (n : Nat) : Prop extends RouteOk m where
  lt : StrictWeak m.c.lt
  thr : 0 < m.thr
  /-- all threads of the clustering have returned -/
  done : ∀ s, Trie.cinit m.c m.thr (List.range n) = some s → Trie.Complete s m.csched
  /-- average times fit into 31 bits (C49) -/
  times : ∀ fs, cluster m n = some fs → ∀ f ∈ fs, ∀ tr ∈ f, getECM (m.gen tr) tr.nds ≠ none
  forward : ∀ fs, cluster m n = some fs → ∀ pre tr post, pre ++ tr :: post ∈ fs → ∀ ecm, getECM (m.gen tr) tr.nds = some ecm → ∀ s, After m pre s →
    ∀ nid hops, nid < tr.nds.length → tr.ndTrips nid ≠ [] → route (m.env tr ecm s) tr.nds s nid = some hops → ∀ h ∈ hops, Forward h

/-- The trips and stop times that the clustering sees are those of the feed: trips have as many stops as rows in stop_times.txt. -/
def StopsOk {X S' : Type} (ms : List (Mode E C Pt D S P A)) (trips : List (TripRow X)) (rows : List (StRow (List Nat) S')) : Prop :=
  ∀ m ∈ ms, ∀ (k : Nat) t, trips[k]? = some t → (m.c.stops k).length = (rows.filter fun r => r.trip = t.id).length

/-- The threads of each run together have the colours and trips of all leafs. -/
def Spread [DecidableEq E] (geo : Geo Pt) (noColor : Nat) (n : Nat) (ms : List (Mode E C Pt D S P A)) : Prop :=
  ∀ m ∈ ms, ∀ its, items geo m n = some its → m.threads.flatten.Perm (its.flatten.map fun it => (it.shp.color.getD noColor, it.trips))

/-- Bytes of points: each coordinate and distance has its width. Shapes have fewer than 2^64 points. -/
structure EncOk [DecidableEq E] (geo : Geo Pt) (enc : ShpPt Pt → Shapes.Point) (encD : Rat → List Nat) (w : Shapes.Widths) (n : Nat)
    (ms : List (Mode E C Pt D S P A)) : Prop where
  dist : ∀ q, (enc q).dist = encD q.d
  width : ∀ q, (enc q).lat.length = w.lat ∧ (enc q).lng.length = w.lng ∧ (enc q).dist.length = w.dist
  small : ∀ m ∈ ms, ∀ its, items geo m n = some its → ∀ it ∈ its.flatten, it.shp.pts.length < 256 ^ 8

/-- No vehicle type belongs to two mode configurations, and they see the same types. -/
def Apart (ms : List (Mode E C Pt D S P A)) : Prop :=
  ms.Pairwise fun m m' => m.c.mot = m'.c.mot ∧ ∀ x ∈ m.c.cfgMots, x ∉ m'.c.cfgMots

/-- Each configuration sees which trips have a shape when it is begun. -/
def Follows (limit : Nat) (atomicDec : Bool) (n : Nat) : List (Mode E C Pt D S P A) → List (Dists.MRun (List Nat)) → Result.St → Prop
  | m :: ms, r :: rs, s => (∀ k, k < n → (m.c.shapeEmpty k = true ↔ s.shape k = [])) ∧
    Follows limit atomicDec n ms rs (Result.after limit atomicDec n r.run s)
  | _, _, _ => True

/-- What the output has. `trips`, `src`, `rows`: trips.txt, shapes.txt and stop_times.txt of the input; `trips'`, `out`, `rows'`: of the output. `way` says
what the hops of a trip are. -/
structure Matched {X S' : Type} (pt : List Pt → Rat → Pt) (encD : Rat → List Nat) (isAt : Shapes.Row → Pt → Prop)
    (way : Mode E C Pt D S P A → Nat → List (LHop E Pt) → Prop) (ms : List (Mode E C Pt D S P A)) (trips : List (TripRow X)) (src : List Shapes.Row) (rows : List (StRow (List Nat) S'))
    (trips' : List (TripRow X)) (out : List Shapes.Row) (rows' : List (StRow (List Nat) S')) : Prop where
  /-- a trip that needs a shape has one along its hops, and its stops have distances along this shape -/
  new : ∀ m ∈ ms, ∀ (k : Nat) t, trips[k]? = some t → needsShape m.c k → ∃ hops, way m k hops ∧ ∀ t' ∈ trips', t'.id = t.id →
    Along pt m.map encD isAt hops (rowsOf out t'.shape) (rows'.filter fun q => q.trip = t.id)
  /-- any other trip has the shape and the stop times of the input -/
  old : ∀ (k : Nat) t, trips[k]? = some t → (∀ m ∈ ms, ¬ needsShape m.c k) →
    (∀ t' ∈ trips', t'.id = t.id → t'.shape = t.shape ∧ rowsOf out t.shape = rowsOf src t.shape) ∧
    ∀ (i : Nat) r r', rows[i]? = some r → rows'[i]? = some r' → r.trip = t.id → r' = r

end Verif.Build
