import Verif.Payload.Edge

/-!
# Collapsing edges and writing reverse edges (model)

Model of `OsmBuilder::edgesSim`, `mergeEdgePL`, `collapseEdges`, `writeODirEdgs`,
`src/pfaedle/osm/OsmBuilder.cpp:1564-1672, 1743-1752`. The graph (`util/graph/DirGraph.h`, not in
the repository) is a list of edges in the order of their insertion; `addEdg` and `getEdg` know
one edge per ordered pair of nodes ("we don't have a multigraph", 1654), `delEdg` removes it.
Payload objects and their sharing are modelled in `Verif.Payload`; here a payload is a value.
-/

namespace Verif.Collapse
open Verif.Payload (Attrs)

structure Edg (N P : Type) where
  src : N
  dst : N
  a : Attrs
  lines : List Nat
  geom : Option (List P)
deriving DecidableEq

/-- Constant data of the nodes. -/
structure Nodes (N P : Type) where
  nds : List N
  pos : N → P
  /-- `getSI()` or `isTurnCycle()` -/
  special : N → Bool

variable {N P : Type} [DecidableEq N]

/-- `e->getOtherNd(n)`. -/
def Edg.oth (e : Edg N P) (n : N) : N := if e.src = n then e.dst else e.src

def outs (es : List (Edg N P)) (n : N) : List (Edg N P) := es.filter fun e => e.src = n
def ins (es : List (Edg N P)) (n : N) : List (Edg N P) := es.filter fun e => e.dst = n
def getEdg (es : List (Edg N P)) (u v : N) : Option (Edg N P) := es.find? fun e => e.src = u && e.dst = v
def delEdg (es : List (Edg N P)) (u v : N) : List (Edg N P) := es.filter fun e => !(e.src = u && e.dst = v)
def addEdg (es : List (Edg N P)) (e : Edg N P) : List (Edg N P) :=
  match getEdg es e.src e.dst with
  | some _ => es
  | none => es ++ [e]

/-- 1564-1576. -/
def edgesSim (a b : Edg N P) : Bool :=
  if (a.a.oneWay != 0) != (b.a.oneWay != 0) then false
  else if a.a.lvl ≠ b.a.lvl then false
  else if a.lines.length ≠ b.lines.length then false
  else if a.a.oneWay ≠ 0 ∧ b.a.oneWay ≠ 0 ∧ a.src ≠ b.dst ∧ a.dst ≠ b.src then false
  else if a.a.restr || b.a.restr then false
  else if a.lines ≠ b.lines then false
  else true

/-- 1580-1586. -/
def joint (a b : Edg N P) : N :=
  if a.src = b.src then a.src else if a.src = b.dst then a.src else a.dst

/-- 1579-1634: geometry of the merged payload; the other attributes are those of `a`. -/
def mergeGeom (pos : N → P) (a b : Edg N P) : List P :=
  let n := joint a b
  let ga := a.geom.getD [pos a.src, pos a.dst]
  if a.dst = n ∧ b.dst = n then
    match b.geom with
    | some gb => ga ++ gb.reverse
    | none => ga ++ [pos b.src]
  else if a.dst = n ∧ b.src = n then
    match b.geom with
    | some gb => ga ++ gb
    | none => ga ++ [pos b.dst]
  else if a.src = n ∧ b.dst = n then
    match b.geom with
    | some gb => ga.reverse ++ gb.reverse
    | none => ga.reverse ++ [pos b.src]
  else
    match b.geom with
    | some gb => ga.reverse ++ gb
    | none => ga.reverse ++ [pos b.dst]

/-- The edge added at 1661 or 1663 for the pair `a`, `b` meeting in `n`. -/
def merged (pos : N → P) (n : N) (a b : Edg N P) : Edg N P :=
  { src := a.oth n, dst := b.oth n, a := a.a, lines := a.lines, geom := some (mergeGeom pos a b) }

/-- 1639-1651: the two edges of a node. -/
def pair (g : Nodes N P) (es : List (Edg N P)) (n : N) : Option (Edg N P × Edg N P) :=
  if (outs es n).length + (ins es n).length ≠ 2 ∨ g.special n then none
  else if (outs es n).length = 2 then
    match (outs es n).head?, (outs es n).getLast? with
    | some a, some b => some (a, b)
    | _, _ => none
  else if (ins es n).length = 2 then
    match (ins es n).head?, (ins es n).getLast? with
    | some a, some b => some (a, b)
    | _, _ => none
  else
    match (outs es n).head?, (ins es n).head? with
    | some a, some b => some (a, b)
    | _, _ => none

/-- 1660-1664: which of the two comes first. -/
def order (n : N) (a b : Edg N P) : Edg N P × Edg N P :=
  if a.a.oneWay ≠ 0 ∧ a.oth n ≠ a.src then (b, a) else (a, b)

/-- 1654-1657: an edge between the outer nodes exists already. -/
def bridged (es : List (Edg N P)) (u v : N) : Bool := (getEdg es u v).isSome || (getEdg es v u).isSome

/-- 1638-1670: one node. -/
def collapseAt (g : Nodes N P) (es : List (Edg N P)) (n : N) : List (Edg N P) :=
  match pair g es n with
  | none => es
  | some (a, b) =>
    if bridged es (a.oth n) (b.oth n) then es
    else if edgesSim a b then
      let o := order n a b
      delEdg (delEdg (addEdg es (merged g.pos n o.1 o.2)) a.src a.dst) b.src b.dst
    else es

/-- 1637-1672. -/
def collapse (g : Nodes N P) (es : List (Edg N P)) : List (Edg N P) := g.nds.foldl (collapseAt g) es

/-! ### reverse edges -/

/-- EdgePL.cpp:67-75. -/
def Edg.rev (e : Edg N P) : Edg N P := { e with src := e.dst, dst := e.src, a := e.a.reversed }

/-- 1746-1747; the restrictor is told about the new edge (1749, C20). -/
def oDirEdge (es : List (Edg N P)) (e : Edg N P) : List (Edg N P) :=
  match getEdg es e.dst e.src with
  | some _ => es
  | none => addEdg es e.rev

/-- 1743-1752; the adjacency list of `n` does not change while it is traversed: a new edge starts
at another node. -/
def writeODir (g : Nodes N P) (es : List (Edg N P)) : List (Edg N P) :=
  g.nds.foldl (fun es n => (outs es n).foldl oDirEdge es) es

end Verif.Collapse
