import Verif.Dists.Model
import Verif.Line.Model
import Verif.Router.Ecm
import Verif.Trie.Cluster

/-!
# Matching all trips of a feed (model)

`ShapeBuilder::shapeify(netgraph::Graph*)` and `shapeWorker` (`src/pfaedle/router/ShapeBuilder.cpp:381-447, 1160-1226`): the trips are clustered
(`Verif.Trie`), each trie is routed (`Verif.Router`), the hops of each leaf become a line and distances (`Verif.Line`), and these are stored
for each trip of the leaf (`Verif.Shapes.Workers`, `Verif.Dists`). Trips are numbered by their places in trips.txt.
-/

namespace Verif.Build
open Verif.Trie (CEnv Trie cinit crun groupTrips)
open Verif.Router (Gen Ecm getECM search route)
open Verif.Line (Pos LHop Edges Geo Shp ShpPt getGtfsShape)
open Verif.Shapes.Workers (Leaf)
open Verif.Dists (MRun)

variable {E C Pt D S P A : Type}

/-- One mode configuration (`src/pfaedle/PfaedleMain.cpp:256-355`). -/
structure Mode (E C Pt D S P A : Type) where
  /-- what clustering reads; `shapeEmpty` is about the shapes that trips have when this configuration is begun -/
  c : CEnv Nat P A
  /-- threads and schedule of the clustering (ShapeBuilder.cpp:881-898) -/
  thr : Nat
  csched : List Nat
  /-- the candidates of the stops of a trie -/
  gen : Trie Nat P A → Gen E C (Pos Pt)
  /-- the router for a trie, its candidates and the hop cache before -/
  env : Trie Nat P A → Ecm E C (Pos Pt) → S → Router.Env E C (Pos Pt × Int) D S
  /-- an empty hop cache (ShapeBuilder.cpp:1180-1183) -/
  cache : S
  /-- the edges of the graph; `cols` is not used -/
  map : Edges E Pt
  /-- `getColorMatch` (ShapeBuilder.cpp:1237-1246), for routing attributes -/
  cols : A → E → List Nat
  /-- the route type of a trip -/
  routeTy : Nat → Nat
  /-- threads and schedule of the matching (ShapeBuilder.cpp:432-447) -/
  W : Nat
  sched : List Nat
  /-- what is needed for the colours of the routes; which thread has taken which forest -/
  keep : Nat → Bool
  threads : List (List (Nat × List Nat))

/-- The edges, as `getGtfsShape` sees them for these routing attributes (ShapeBuilder.cpp:1191, 1197). -/
def Mode.edges (m : Mode E C Pt D S P A) (a : A) : Edges E Pt := { m.map with cols := m.cols a }

/-- What is done for one leaf: its trips, the hops that were found, and what was made of them. `ty`: the route type in the id of the shape. -/
structure Item (E Pt : Type) where
  ty : Nat
  trips : List Nat
  hops : List (LHop E Pt)
  shp : Shp Pt

/-- ShapeBuilder.cpp:1189-1197: one leaf. `s`: the hop cache before this trie. -/
def leafItem [DecidableEq E] (geo : Geo Pt) (m : Mode E C Pt D S P A) (tr : Trie Nat P A) (ecm : Ecm E C (Pos Pt)) (s : S) (nid : Nat) :
    Option (Item E Pt) :=
  match tr.nds[nid]?, tr.ndTrips nid with
  | some nd, t :: ts =>
    match route (m.env tr ecm s) tr.nds s nid with
    | none => none
    | some hops =>
      match getGtfsShape geo (m.edges nd.attrs) hops with
      | none => none
      | some shp => some ⟨m.routeTy t, t :: ts, hops, shp⟩
  | _, _ => none

/-- TripTrie.h:51: the nodes with trips, in ascending order. -/
def leafs (tr : Trie Nat P A) : List Nat := (List.range tr.nds.length).filter fun i => !(tr.ndTrips i).isEmpty

/-- ShapeBuilder.cpp:345-364, 1186-1197: one trie. The hop cache is kept for the next one. -/
def trieItems [DecidableEq E] (geo : Geo Pt) (m : Mode E C Pt D S P A) (tr : Trie Nat P A) (s : S) : Option (List (Item E Pt) × S) :=
  match getECM (m.gen tr) tr.nds with
  | none => none
  | some ecm =>
    match Content.collect (leafItem geo m tr ecm s) (leafs tr) with
    | none => none
    | some l => some (l, (search (m.env tr ecm s) tr.nds s).s)

/-- ShapeBuilder.cpp:1177-1187: one forest. -/
def forestItems [DecidableEq E] (geo : Geo Pt) (m : Mode E C Pt D S P A) : List (Trie Nat P A) → S → Option (List (Item E Pt))
  | [], _ => some []
  | tr :: f, s =>
    match trieItems geo m tr s with
    | none => none
    | some (l, s') => (forestItems geo m f s').map (l ++ ·)

/-- ShapeBuilder.cpp:387, 854-901: the forests for a feed of `n` trips. -/
def cluster (m : Mode E C Pt D S P A) (n : Nat) : Option (List (List (Trie Nat P A))) :=
  match cinit m.c m.thr (List.range n) with
  | none => none
  | some s => (crun m.c (groupTrips m.c (List.range n)) m.csched s).map (·.forests)

/-- ShapeBuilder.cpp:381-447: all forests. The items of a forest do not depend on the thread that takes it, nor on other forests. -/
def items [DecidableEq E] (geo : Geo Pt) (m : Mode E C Pt D S P A) (n : Nat) : Option (List (List (Item E Pt))) :=
  match cluster m n with
  | none => none
  | some fs => Content.collect (fun f => forestItems geo m f m.cache) fs

/-- ShapeBuilder.cpp:1203-1222: what a worker does with an item. `enc`: the bytes of a point. -/
def Item.leaf (enc : ShpPt Pt → Shapes.Point) (it : Item E Pt) : Leaf := ⟨it.ty, it.trips, it.shp.pts.map enc⟩

/-- ShapeBuilder.cpp:1204-1212: the colour that was found for the trips of an item. -/
def Item.color (noColor : Nat) (it : Item E Pt) : Nat × List Nat := (it.shp.color.getD noColor, it.trips)

/-- ShapeBuilder.cpp:1221: the distances that `setShape` gets for the trip `k`. -/
def distsOf (encD : Rat → List Nat) (its : List (List (Item E Pt))) (k : Nat) : List (List Nat) :=
  match its.flatten.find? fun it => k ∈ it.trips with
  | none => []
  | some it => it.shp.dists.map encD

/-- What the workers do for a mode configuration (ShapeBuilder.cpp:432-447). -/
def mrun (enc : ShpPt Pt → Shapes.Point) (encD : Rat → List Nat) (m : Mode E C Pt D S P A) (its : List (List (Item E Pt))) : MRun (List Nat) where
  run := ⟨its.map fun f => f.map (Item.leaf enc), m.W, m.sched, m.keep, m.threads⟩
  dists := distsOf encD its

/-- `src/pfaedle/PfaedleMain.cpp:256-355`: all mode configurations, for a feed of `n` trips. -/
def mruns [DecidableEq E] (geo : Geo Pt) (enc : ShpPt Pt → Shapes.Point) (encD : Rat → List Nat) (n : Nat) (ms : List (Mode E C Pt D S P A)) :
    Option (List (MRun (List Nat))) :=
  Content.collect (fun m => (items geo m n).map (mrun enc encD m)) ms

end Verif.Build
