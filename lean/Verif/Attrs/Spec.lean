import Verif.Attrs.Model
import Verif.Osm.GraphReadProps

/-!
# What the rules find in the file (specification)

In terms of the document: tags of elements, and relations with their members, in the order of the file.
-/

namespace Verif.Attrs
open Verif.Names (Str)
open Verif.Osm

variable {P D : Type}

/-- The tag `k` of an element has the value `v`; if it is given several times the last one counts. -/
def Has (kids : List (Ev P)) (k v : Str) : Prop := (kidVals k kids).getLast? = some v

/-- A rule of the list is met by a tag of the element. -/
def Met (rules : Rules) (kind : Nat) (kids : List (Ev P)) : Prop := ∃ k v, Has kids k v ∧ RuleHit rules kind (k, v)

/-- The relation is wanted. -/
def Wanted (f : Flt) (y : DElem P) : Prop := Met f.keep REL y.kids ∧ ¬ Met f.drop REL y.kids

/-- The relation has something to say about the attribute of its member `i`. -/
structure Speaks (f : Flt) (t : MemType) (i : Nat) (r : Rule) (y : DElem P) : Prop where
  wanted : Wanted f y
  member : ∃ role, (i, role) ∈ kidMembers t y.kids
  fits : ∃ v, Has y.kids r.key v ∧ (r.val = [42] ∨ v = r.val)
  has : ∃ v, Has y.kids r.attr v

/-- The value a rule finds for an element: that of its own tag, or, if the rule is about relations, that of the first relation which has one. -/
inductive Value (f : Flt) (rels : List (DElem P)) (t : MemType) (i : Nat) (kids : List (Ev P)) (r : Rule) : Str → Prop
  | own {v : Str} : r.key = [] → Has kids r.attr v → Value f rels t i kids r v
  | noOwn : r.key = [] → (∀ v, ¬ Has kids r.attr v) → Value f rels t i kids r []
  | rel {a b : List (DElem P)} {y : DElem P} {v : Str} : r.key ≠ [] → rels = a ++ y :: b → Speaks f t i r y → (∀ z ∈ a, ¬ Speaks f t i r z) →
      Has y.kids r.attr v → Value f rels t i kids r v
  | noRel : r.key ≠ [] → (∀ y ∈ rels, ¬ Speaks f t i r y) → Value f rels t i kids r []

/-- The first one that is not empty. -/
def First (l : List Str) (s : Str) : Prop := (∃ a b, l = a ++ s :: b ∧ s ≠ [] ∧ ∀ x ∈ a, x = []) ∨ (s = [] ∧ ∀ x ∈ l, x = [])

/-- What the rules find, in their order. -/
def Values (f : Flt) (rels : List (DElem P)) (t : MemType) (i : Nat) (kids : List (Ev P)) (rules : List Rule) (vals : List Str) : Prop :=
  Match (Value f rels t i kids) rules vals

/-- All names of a node, in the order of the rules. -/
def Names (n : Naming) (f : Flt) (rels : List (DElem P)) (x : DNode P) (l : List Str) : Prop :=
  ∃ vals, Values f rels .node x.id x.kids n.names vals ∧ l = (vals.map fun v => n.statNorm (n.decode v)).filter (· ≠ [])

/-- The platform of a node. -/
def Platform (n : Naming) (f : Flt) (rels : List (DElem P)) (x : DNode P) (s : Str) : Prop :=
  ∃ vals, Values f rels .node x.id x.kids n.platforms vals ∧ First (vals.map fun v => n.trackNorm (n.decode v)) s

/-- The track of a way. -/
def Track (n : Naming) (f : Flt) (rels : List (DElem P)) (x : DElem P) (s : Str) : Prop :=
  ∃ vals, Values f rels .way x.id x.kids n.edges vals ∧ First (vals.map fun v => n.trackNorm (n.decode v)) s

/-- The value of the first key in the list that has one which is not empty. -/
inductive FirstTag (norm : Str → Str) (kids : List (Ev P)) : List Str → Str → Prop
  | none : FirstTag norm kids [] []
  | here {k v : Str} {ks : List Str} : Has kids k v → norm v ≠ [] → FirstTag norm kids (k :: ks) (norm v)
  | next {k s : Str} {ks : List Str} : (∀ v, Has kids k v → norm v = []) → FirstTag norm kids ks s → FirstTag norm kids (k :: ks) s

/-- Short name, origin and destination of the line of a relation. -/
structure LineNames (n : Naming) (y : DElem P) (l : Str × Str × Str) : Prop where
  short : FirstTag (fun v => n.lineNorm (n.decode v)) y.kids n.sName l.1
  from_ : FirstTag (fun v => n.statNorm (n.decode v)) y.kids n.fromName l.2.1
  to_ : FirstTag (fun v => n.statNorm (n.decode v)) y.kids n.toName l.2.2

/-- The way `i` is on the line: a wanted relation with this name, and with a name at all, contains it. -/
def OnLine (n : Naming) (f : Flt) (rels : List (DElem P)) (i : Nat) (l : Str × Str × Str) : Prop :=
  ∃ y ∈ rels, Wanted f y ∧ (∃ role, (i, role) ∈ kidMembers .way y.kids) ∧ LineNames n y l ∧ (l.1 ≠ [] ∨ l.2.1 ≠ [] ∨ l.2.2 ≠ [])

/-- Tags that are needed are kept while reading. -/
structure KeepsTags (n : Naming) (f : Flt) (keysN keysW keysR : List Str) : Prop where
  keep : ∀ k ∈ f.keep.keys, k ∈ keysR
  drop : ∀ k ∈ f.drop.keys, k ∈ keysR
  node : ∀ r ∈ n.names ++ n.platforms, r.key = [] → r.attr ∈ keysN
  way : ∀ r ∈ n.edges, r.key = [] → r.attr ∈ keysW
  rel : ∀ r ∈ n.names ++ n.platforms ++ n.edges, r.key ≠ [] → r.key ∈ keysR ∧ r.attr ∈ keysR
  line : ∀ k ∈ n.sName ++ n.fromName ++ n.toName ++ n.color, k ∈ keysR

end Verif.Attrs
