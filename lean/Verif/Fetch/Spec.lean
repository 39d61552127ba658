import Verif.Fetch.Model
import Verif.BBoxIdx.Props
import Verif.Extract.Spec

/-!
# Queries for map data (specification)
-/

namespace Verif.Fetch
open Verif.Names (Str)
open Verif.Osm Verif.Whole
open Verif.Attrs (Has Met Wanted)
open Verif.BBoxIdx (Pt InBox)

variable {P S T D : Type}

/-! ### what is needed of a map -/

/-- The node is in the area. -/
def Inside (bbox : P → Bool) (d : Doc P) (i : Nat) : Prop := ∃ x ∈ d.nodes, x.id = i ∧ bbox x.pos = true

/-- The element is a member of the relation. -/
def Holds (t : MemType) (y : DElem P) (i : Nat) : Prop := ∃ role, (i, role) ∈ kidMembers t y.kids

/-- A way that may be used: with two nodes, one of them in the area, and a rule that keeps it or a relation it belongs to. -/
structure NeedWay (p : Par P S T D) (d : Doc P) (x : DElem P) : Prop where
  mem : x ∈ d.ways
  two : 2 ≤ (kidRefs x.kids).length
  inside : ∃ i ∈ kidRefs x.kids, Inside p.bbox d i
  why : Met p.f.keep WAY x.kids ∨ ∃ y ∈ d.rels, Wanted p.f y ∧ Holds .way y x.id

/-- A node of such a way. -/
def OnWay (p : Par P S T D) (d : Doc P) (i : Nat) : Prop := ∃ x, NeedWay p d x ∧ i ∈ kidRefs x.kids

/-- A node in the area that may be used: with a rule that keeps it or a relation it belongs to. -/
structure NeedOwn (p : Par P S T D) (d : Doc P) (x : DNode P) : Prop where
  mem : x ∈ d.nodes
  inside : p.bbox x.pos = true
  why : Met p.f.keep NODE x.kids ∨ ∃ y ∈ d.rels, Wanted p.f y ∧ Holds .node y x.id

def NeedNode (p : Par P S T D) (d : Doc P) (i : Nat) : Prop := OnWay p d i ∨ ∃ x, NeedOwn p d x ∧ x.id = i

/-- A relation that may be used: it is wanted and has a way that may be used, or a node in the area. -/
structure NeedRel (p : Par P S T D) (d : Doc P) (y : DElem P) : Prop where
  mem : y ∈ d.rels
  wanted : Wanted p.f y
  why : (∃ x, NeedWay p d x ∧ Holds .way y x.id) ∨ ∃ i, NeedNode p d i ∧ Inside p.bbox d i ∧ Holds .node y i

/-- Tags with other keys are left out. -/
def strip (s : Str → Bool) (kids : List (Ev P)) : List (Ev P) :=
  kids.filter fun e => match e.tag with | .tag k _ => s k | _ => true

/-- A part of a map: some of its nodes, ways and relations, with some of their tags. -/
def part (d : Doc P) (header : List (Ev P)) (a : DNode P → Bool) (b c : DElem P → Bool) (s : Str → Bool) : Doc P where
  header := header
  nodes := (d.nodes.filter a).map fun x => ⟨x.id, x.pos, strip s x.kids⟩
  ways := (d.ways.filter b).map fun x => ⟨x.id, strip s x.kids⟩
  rels := (d.rels.filter c).map fun x => ⟨x.id, strip s x.kids⟩

/-- The part has all that is needed. -/
structure Enough (p : Par P S T D) (d : Doc P) (a : DNode P → Bool) (b c : DElem P → Bool) (s : Str → Bool) : Prop where
  nodes : ∀ x ∈ d.nodes, NeedNode p d x.id → a x = true
  ways : ∀ x, NeedWay p d x → b x = true
  rels : ∀ x, NeedRel p d x → c x = true
  tags : ∀ k, k ∈ p.keysN ∨ k ∈ p.keysW ∨ k ∈ p.keysR → s k = true

/-- The map is read with the rules of one configuration. -/
structure Reader (p : Par P S T D) : Prop where
  own : FlaggedOpts p.o
  keep : p.f.keep = p.o.keep
  drop : p.f.drop = p.o.drop
  keysN : p.keysN = keptNode p.o
  keysW : p.keysW = keptWay p.o
  keysR : p.keysR = keptRel p.o
  order : ∀ a x, x ∈ p.f.ord a ↔ x ∈ a

/-! ### what a server delivers -/

/-- A tag of the element has the key, and the value if there is one. -/
def Tagged (kids : List (Ev P)) (k : Str) (v : Option Str) : Prop := ∃ t, Has kids k t ∧ ∀ u, v = some u → t = u

/-- The node is in the box. -/
def At (d : Doc Pt) (b : BBoxIdx.Box) (i : Nat) : Prop := ∃ x ∈ d.nodes, x.id = i ∧ InBox x.pos b

/-- A node of the way is in the box. -/
def Touches (d : Doc Pt) (b : BBoxIdx.Box) (i : Nat) : Prop := ∃ x ∈ d.ways, x.id = i ∧ ∃ j ∈ kidRefs x.kids, At d b j

/-- What the Overpass API has to deliver for the script: elements with the tag in the box, where ways have a node in the box and relations a member,
then the members of relations and the nodes of ways (`recurse` with type `down`). -/
inductive Got (qs : List Query) (d : Doc Pt) : Kind → Nat → Prop
  | node {q : Query} {x : DNode Pt} : q ∈ qs → q.kind = .node → x ∈ d.nodes → Tagged x.kids q.key q.val → At d q.box x.id → Got qs d .node x.id
  | way {q : Query} {x : DElem Pt} : q ∈ qs → q.kind = .way → x ∈ d.ways → Tagged x.kids q.key q.val → Touches d q.box x.id → Got qs d .way x.id
  | rel {q : Query} {y : DElem Pt} : q ∈ qs → q.kind = .relation → y ∈ d.rels → Tagged y.kids q.key q.val →
      ((∃ i, Holds .node y i ∧ At d q.box i) ∨ ∃ i, Holds .way y i ∧ Touches d q.box i) → Got qs d .relation y.id
  | wayNode {x : DElem Pt} {i : Nat} : x ∈ d.ways → Got qs d .way x.id → i ∈ kidRefs x.kids → Got qs d .node i
  | relNode {y : DElem Pt} {i : Nat} : y ∈ d.rels → Got qs d .relation y.id → Holds .node y i → Got qs d .node i
  | relWay {y : DElem Pt} {i : Nat} : y ∈ d.rels → Got qs d .relation y.id → Holds .way y i → Got qs d .way i

/-- What osmfilter keeps: elements with the tag, members of relations and nodes of ways. -/
inductive Left (keep : List (Str × Option Str)) (d : Doc P) : Kind → Nat → Prop
  | node {kv : Str × Option Str} {x : DNode P} : kv ∈ keep → x ∈ d.nodes → Tagged x.kids kv.1 kv.2 → Left keep d .node x.id
  | way {kv : Str × Option Str} {x : DElem P} : kv ∈ keep → x ∈ d.ways → Tagged x.kids kv.1 kv.2 → Left keep d .way x.id
  | rel {kv : Str × Option Str} {y : DElem P} : kv ∈ keep → y ∈ d.rels → Tagged y.kids kv.1 kv.2 → Left keep d .relation y.id
  | wayNode {x : DElem P} {i : Nat} : x ∈ d.ways → Left keep d .way x.id → i ∈ kidRefs x.kids → Left keep d .node i
  | relNode {y : DElem P} {i : Nat} : y ∈ d.rels → Left keep d .relation y.id → Holds .node y i → Left keep d .node i
  | relWay {y : DElem P} {i : Nat} : y ∈ d.rels → Left keep d .relation y.id → Holds .way y i → Left keep d .way i

/-- The part has at least the elements that are delivered. -/
structure Delivers (G : Kind → Nat → Prop) (d : Doc P) (a : DNode P → Bool) (b c : DElem P → Bool) : Prop where
  nodes : ∀ x ∈ d.nodes, G .node x.id → a x = true
  ways : ∀ x ∈ d.ways, G .way x.id → b x = true
  rels : ∀ x ∈ d.rels, G .relation x.id → c x = true

/-- The data are asked for with the configurations `os`, then read with one of them. -/
structure Chosen (os : List Opts) (p : Par P S T D) : Prop where
  mem : p.o ∈ os
  wf : ∀ o ∈ os, WFR o.keep

/-- Configurations with the same rule have the same flags for it (C30). -/
def Agree (os : List Opts) : Prop := ∀ o ∈ os, ∀ o' ∈ os, ∀ k v f f', look o.keep k v = some f → look o'.keep k v = some f' → f = f'

/-- No node of the file is lost by writing the boxes. -/
def Rounds (dig : Int → Int) (boxes : List (Option BBoxIdx.Box)) (d : Doc Pt) : Prop :=
  ∀ b, some b ∈ boxes → ∀ x ∈ d.nodes, InBox x.pos b → InBox x.pos ⟨dig b.x1, dig b.y1, dig b.x2, dig b.y2⟩

/-- No rule for elements to keep looks for a value in a list of values (`mult_val_match`). -/
def NoLists (os : List Opts) : Prop := ∀ o ∈ os, ∀ k v f, look o.keep k v = some f → f &&& 32 = 0

end Verif.Fetch
