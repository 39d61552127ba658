import Verif.Finish.Model

/-!
# The transit network graph (model)

Model of what `--write-trgraph` writes: `ShapeBuilder::writeTransitGraph` and `buildNetGraph`
(`src/pfaedle/router/ShapeBuilder.cpp:935-968`), the worker threads that fill one map each (433-447, 1159-1226), the merge of the maps
(468-481), and the payload of the edges (`src/pfaedle/netgraph/EdgePL.h:29-45`).

`trgraph::Graph` is a `DirGraph` (`src/pfaedle/trgraph/Graph.h:26`), `netgraph::Graph` an `UndirGraph`
(`src/pfaedle/netgraph/Graph.h:26`). Both come from the submodule `util`, which is not there: `addEdg` hands out the edge between two
nodes if there is one and adds one otherwise, and in an `UndirGraph` an edge is between its two nodes in either order.

Pointers to edges and nodes are values of `E` and `N`; the iteration order of the hash maps is the parameter `order`.
-/

namespace Verif.Net
open Verif.Collapse (Edg)

variable {E N P G T : Type}

/-- Names are strings of bytes. -/
abbrev Name := List Nat

/-- What is used of the routing graph. -/
structure Gr (E N P G : Type) where
  es : List E
  src : E → N
  dst : E → N
  /-- `pl().isRev()` -/
  rev : E → Bool
  /-- `pl().getGeom()`, `none` is the null pointer -/
  geom : E → Option G
  /-- `*nd->pl().getGeom()` -/
  pos : N → P

/-- What is used of a trip. -/
structure Feed (T : Type) where
  /-- `t->getRoute()->getShortName()` -/
  route : T → Name
  /-- `t->getShortname()` -/
  name : T → Name

/-- A leaf of a trie (ShapeBuilder.cpp:1190): the edges of its hops (`hops.at(leaf.first)`) and its trips. -/
structure Leaf (E T : Type) where
  hops : List (List E)
  trips : List T

/-- `TrGraphEdgs` (ShapeBuilder.h:41-43); the key `none` is the null pointer. -/
abbrev Map (E T : Type) := List (Option E × List T)

/-- `DirGraph::getEdg`. -/
def getEdg [DecidableEq N] (g : Gr E N P G) (a b : N) : Option E := g.es.find? fun e => decide (g.src e = a) && decide (g.dst e = b)

/-- `m[k].insert(m[k].begin(), ts.begin(), ts.end())`. -/
def insertAt [DecidableEq E] (m : Map E T) (k : Option E) (ts : List T) : Map E T :=
  match m with
  | [] => [(k, ts)]
  | (k', us) :: m => if k' = k then (k', ts ++ us) :: m else (k', us) :: insertAt m k ts

/-- ShapeBuilder.cpp:940: the key for an edge of a hop. -/
def keyOf [DecidableEq N] (g : Gr E N P G) (e : E) : Option E := if g.rev e then getEdg g (g.dst e) (g.src e) else some e

/-- ShapeBuilder.cpp:935-944. -/
def writeTransitGraph [DecidableEq E] [DecidableEq N] (g : Gr E N P G) (l : Leaf E T) (m : Map E T) : Map E T :=
  l.hops.foldl (fun m hop => hop.foldl (fun m e => insertAt m (keyOf g e) l.trips) m) m

/-! ### the worker threads -/

/-- A worker: the leaves of its forest that are still to do, its map, and whether it has returned. -/
structure Thr (E T : Type) where
  todo : List (Leaf E T)
  map : Map E T
  stopped : Bool

/-- The counter `at` and the workers. -/
structure Sys (E T : Type) where
  next : Nat
  thr : Nat → Thr E T

/-- ShapeBuilder.cpp:434-445. -/
def init : Sys E T := ⟨0, fun _ => ⟨[], [], false⟩⟩

/-- Function update. -/
def setThr (s : Sys E T) (w : Nat) (t : Thr E T) : Sys E T := { s with thr := fun x => if x = w then t else s.thr x }

/-- One turn of worker `w` (ShapeBuilder.cpp:1165-1226): it fetches a forest, returns, or does the next leaf of its forest. All it writes
for the network graph is its own map. -/
def step [DecidableEq E] [DecidableEq N] (g : Gr E N P G) (forests : List (List (Leaf E T))) (s : Sys E T) (w : Nat) : Sys E T :=
  let t := s.thr w
  if t.stopped then s
  else
    match t.todo with
    | l :: ls => setThr s w { t with todo := ls, map := writeTransitGraph g l t.map }
    | [] =>
      match forests[s.next]? with
      | some f => { setThr s w { t with todo := f } with next := s.next + 1 }
      | none => { setThr s w { t with stopped := true } with next := s.next + 1 }

/-- A run: the list says which worker acts next. -/
def run [DecidableEq E] [DecidableEq N] (g : Gr E N P G) (forests : List (List (Leaf E T))) (sched : List Nat) : Sys E T :=
  sched.foldl (step g forests) init

/-! ### the merged map and the network graph -/

/-- ShapeBuilder.cpp:472-479. -/
def merge [DecidableEq E] (order : Map E T → Map E T) (ms : List (Map E T)) : Map E T :=
  ms.foldl (fun r m => (order m).foldl (fun r p => insertAt r p.1 p.2) r) []

/-- `std::set<std::string>::insert`. -/
def insName (x : Name) : List Name → List Name
  | [] => [x]
  | y :: l => if x < y then x :: y :: l else if y < x then y :: insName x l else y :: l

/-- An edge of the network graph: the positions of its nodes in the list of nodes, and its attributes (EdgePL.h:37-45). -/
structure NEdge (G : Type) where
  a : Nat
  b : Nat
  geom : G
  numTrips : Nat
  routeShortNames : List Name
  tripShortNames : List Name
deriving DecidableEq

/-- EdgePL.h:29-35 and 36-45. -/
def payload (f : Feed T) (a b : Nat) (geo : G) (ts : List T) : NEdge G :=
  { a := a, b := b, geom := geo, numTrips := ts.length
    routeShortNames := ts.foldl (fun s t => insName (f.route t) s) []
    tripShortNames := ts.foldl (fun s t => insName (f.name t) s) [] }

/-- The network graph under construction: nodes, edges and the map `nodes` (ShapeBuilder.cpp:949). -/
structure Ng (N P G : Type) where
  nds : List P
  es : List (NEdge G)
  nodes : List (N × Nat)

/-- ShapeBuilder.cpp:955-964: the node for a node of the routing graph. -/
def nodeFor [DecidableEq N] (g : Gr E N P G) (ng : Ng N P G) (n : N) : Ng N P G × Nat :=
  match ng.nodes.lookup n with
  | some i => (ng, i)
  | none => ({ ng with nds := ng.nds ++ [g.pos n], nodes := (n, ng.nds.length) :: ng.nodes }, ng.nds.length)

/-- `UndirGraph::addEdg`. -/
def addEdg (es : List (NEdge G)) (e : NEdge G) : List (NEdge G) :=
  if es.any fun x => (x.a == e.a && x.b == e.b) || (x.a == e.b && x.b == e.a) then es else es ++ [e]

/-- ShapeBuilder.cpp:951-967, one entry of the map. `none`: a null pointer is dereferenced. -/
def addEntry [DecidableEq N] (g : Gr E N P G) (f : Feed T) (ng : Ng N P G) (p : Option E × List T) : Option (Ng N P G) :=
  match p.1 with
  | none => none
  | some e =>
    let x := nodeFor g ng (g.src e)
    let y := nodeFor g x.1 (g.dst e)
    match g.geom e with
    | none => none
    | some geo => some { y.1 with es := addEdg y.1.es (payload f x.2 y.2 geo p.2) }

/-- ShapeBuilder.cpp:947-968. -/
def buildNetGraph [DecidableEq N] (g : Gr E N P G) (f : Feed T) : Map E T → Ng N P G → Option (Ng N P G)
  | [], ng => some ng
  | p :: m, ng => (addEntry g f ng p).bind (buildNetGraph g f m)

/-- ShapeBuilder.cpp:433-481: the network graph after a run of `W` workers. -/
def transitGraph [DecidableEq E] [DecidableEq N] (g : Gr E N P G) (f : Feed T) (order : Map E T → Map E T) (forests : List (List (Leaf E T)))
    (W : Nat) (sched : List Nat) : Option (Ng N P G) :=
  buildNetGraph g f (order (merge order ((List.range W).map fun w => ((run g forests sched).thr w).map))) ⟨[], [], []⟩

/-- The routing graph of `Verif.Finish`. -/
def grOf {S W : Type} (g : Finish.Fin P S W) : Gr (Edg Nat P) Nat P (List P) :=
  { es := g.es, src := (·.src), dst := (·.dst), rev := (·.a.rev), geom := (·.geom), pos := g.pos }

end Verif.Net
