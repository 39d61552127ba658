import Verif.Osm.Stream

/-!
# OSM documents (specification)

An OSM file seen as a document: elements with what is inside them, and how it is written as a
sequence of tags. Nothing here is used by the model.
-/

namespace Verif.Osm
open Verif.Names (Str)

variable {P : Type}

/-- An element: its opening tag and what is inside. -/
structure El (P : Type) where
  head : Tag P
  kids : List (Ev P)

def El.evs (x : El P) : List (Ev P) := ⟨2, x.head⟩ :: x.kids

def flat (xs : List (El P)) : List (Ev P) := xs.flatMap El.evs

def El.Nested (x : El P) : Prop := ∀ e ∈ x.kids, 3 ≤ e.level

/-- The nodes a way refers to. -/
def kidRefs (kids : List (Ev P)) : List Nat :=
  kids.filterMap fun e => match e.level, e.tag with
    | 3, .nd r => some r
    | _, _ => none

/-- The members of a relation of one type. -/
def kidMembers (t : MemType) (kids : List (Ev P)) : List (Nat × Str) :=
  kids.filterMap fun e => match e.level, e.tag with
    | 3, .member t' r role => if t' = t then some (r, role) else none
    | _, _ => none

/-- The values given for a key. -/
def kidVals (k : Str) (kids : List (Ev P)) : List Str :=
  kids.filterMap fun e => match e.level, e.tag with
    | 3, .tag k' v => if k' = k then some v else none
    | _, _ => none

/-- The value of a key: the last one given, for the keys that are kept. -/
def kidVal (keys : List Str) (kids : List (Ev P)) (k : Str) : Option Str :=
  if k ∈ keys then (kidVals k kids).getLast? else none

/-- A node, way, relation of a document. -/
structure DNode (P : Type) where
  id : Nat
  pos : P
  kids : List (Ev P)

structure DElem (P : Type) where
  id : Nat
  kids : List (Ev P)

def DNode.el (n : DNode P) : El P := ⟨.node n.id n.pos, n.kids⟩
def DElem.way (w : DElem P) : El P := ⟨.way w.id, w.kids⟩
def DElem.rel (r : DElem P) : El P := ⟨.rel r.id, r.kids⟩

/-- The elements' ids are proper and different, what is inside is deeper than the element. -/
structure Proper (ids : List Nat) (kids : List (List (Ev P))) : Prop where
  nz : ∀ i ∈ ids, i ≠ 0
  nodup : ids.Nodup
  nested : ∀ k ∈ kids, ∀ e ∈ k, 3 ≤ e.level

/-- A file: header, nodes, ways, relations, as OSM files are ordered. -/
structure Doc (P : Type) where
  header : List (Ev P)
  nodes : List (DNode P)
  ways : List (DElem P)
  rels : List (DElem P)

def Doc.tags (d : Doc P) : List (Ev P) :=
  d.header ++ (flat (d.nodes.map DNode.el) ++ (flat (d.ways.map DElem.way) ++ flat (d.rels.map DElem.rel)))

/-- What a node, way, relation read from the file has to be. -/
structure ReadsNode (keys : List Str) (x : DNode P) (n : Nod P) : Prop where
  id : n.id = x.id
  pos : n.pos = x.pos
  wf : FMap.WF n.attrs
  attrs : ∀ k, FMap.get n.attrs k = kidVal keys x.kids k

structure ReadsWay (keys : List Str) (x : DElem P) (w : Way) : Prop where
  id : w.id = x.id
  nodes : w.nodes = kidRefs x.kids
  wf : FMap.WF w.attrs
  attrs : ∀ k, FMap.get w.attrs k = kidVal keys x.kids k

structure ReadsRel (keys : List Str) (x : DElem P) (r : Rel) : Prop where
  id : r.id = x.id
  nodes : r.nodes = kidMembers .node x.kids
  ways : r.ways = kidMembers .way x.kids
  wf : FMap.WF r.attrs
  attrs : ∀ k, FMap.get r.attrs k = kidVal keys x.kids k

end Verif.Osm
