import Verif.Osm.Stream

/-!
# Reading the graph from OSM data (model)

Model of `OsmBuilder::read` up to the nodes (`src/pfaedle/osm/OsmBuilder.cpp:84-121`), `readEdges`
(685-736) and `readNodes` (841-888). Graph nodes are numbered in the order of creation, edges are
the calls of `addEdg` in order. Not modelled here: lines, tracks, turn rules of an edge, and the
station attributes (`getLines`, `getAttrByFirstMatch`, `processRestr`, `getStatInfo`). `addEdg` is
assumed to return an edge (719-720).
-/

namespace Verif.Osm
open Verif.Names (Str)

variable {P : Type}

/-- An edge as added, with the way it belongs to (its level and direction are functions of the
way's attributes, 726-730). -/
structure GEdge where
  src : Nat
  dst : Nat
  way : Way
deriving DecidableEq

structure GSt (P : Type) where
  next : Nat
  nodes : FMap Nat Nat
  multi : FMap Nat (List Nat)
  edges : List GEdge
  geom : FMap Nat P
  orphans : List Nat

def GSt.init : GSt P := ⟨0, [], [], [], [], []⟩

/-- 706-716: the graph node for a reference; `none` if the node is skipped. -/
def ndFor (nohup box : Nat → Bool) (s : GSt P) (nid : Nat) : Option Nat × GSt P :=
  if nohup nid then
    (some s.next, { s with next := s.next + 1, multi := pushTo s.multi nid s.next })
  else match s.nodes.get nid with
    | none =>
      if box nid then (some s.next, { s with next := s.next + 1, nodes := s.nodes.put nid s.next })
      else (none, s)
    | some n => (some n, s)

/-- 705-734. -/
def edgesGo (nohup box : Nat → Bool) (w : Way) : List Nat → GSt P → Option Nat → GSt P
  | [], s, _ => s
  | nid :: nids, s, last =>
    match ndFor nohup box s nid with
    | (none, s') => edgesGo nohup box w nids s' last
    | (some n, s') =>
      match last with
      | none => edgesGo nohup box w nids s' (some n)
      | some l => edgesGo nohup box w nids { s' with edges := s'.edges ++ [⟨l, n, w⟩] } (some n)

/-- 694-735. -/
def addWay (nohup box : Nat → Bool) (s : GSt P) (w : Way) : GSt P := edgesGo nohup box w w.nodes s none

/-- 851-886; `stat` tells a station whose attributes are not empty, `isSt` a station. -/
def addNode (isSt stat : Nod P → Bool) (s : GSt P) (nd : Nod P) : GSt P :=
  match s.nodes.get nd.id with
  | some n => { s with geom := s.geom.put n nd.pos }
  | none =>
    match s.multi.get nd.id with
    | some ns => { s with geom := ns.foldl (fun g n => g.put n nd.pos) s.geom }
    | none =>
      if isSt nd then
        { s with
          next := s.next + 1
          geom := s.geom.put s.next nd.pos
          orphans := if stat nd then s.orphans ++ [s.next] else s.orphans }
      else s

/-- 84-120; `box`, `hup` are the id sets filled by the first pass, `nohup` is the filter's rule. -/
def readGraph (p0 : P) (f : Flt) (keysN keysW keysR : List Str) (box hup : List BoxOp → Nat → Bool) (bbox : P → Bool)
    (nohup : Str → Str → Bool) (isSt stat : Nod P → Bool) (file : List (Ev P)) : GSt P :=
  let nodeBeg := skipUntil .node file
  let b := bboxGo bbox nohup nodeBeg false 0
  let rels := readRels keysR f (skipUntil .relation b.2)
  let ws := (readAll (nextWay keysW (keepWay f rels.wayRels rels.flat (box b.1))) b.2).1
  let s := ws.foldl (addWay (hup b.1) (box b.1)) GSt.init
  let nds := (readAll (nextNode p0 keysN (keepNode f (fun i => (s.nodes.get i).isSome) (fun i => (s.multi.get i).isSome)
    rels.nodeRels rels.flat (box b.1))) nodeBeg).1
  nds.foldl (addNode isSt stat) s

end Verif.Osm
