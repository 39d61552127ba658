import Verif.Osm.GraphReadProps

/-!
# What the map allows (specification)

Independent of the graph: the kept ways of the file, as lists of references, and travel along them. Ways meet in nodes they have in
common, except in nodes where no turn is possible: these belong to one way, at one position in it.
-/

namespace Verif.Whole
open Verif.Osm

/-- Where a vehicle can be: in a node of the map, or, for a node without turns, in the node as part of the way number `way`, where it is
reference number `at`. -/
inductive Place where
  | shared (node : Nat)
  | alone (node way at_ : Nat)
deriving DecidableEq

/-- The node of the map. -/
def Place.node : Place → Nat
  | .shared i => i
  | .alone i _ _ => i

/-- The places of the way number `k`, from its reference number `j` on. -/
def places (noTurn : Nat → Bool) (k : Nat) : Nat → List Nat → List Place
  | _, [] => []
  | j, i :: l => (if noTurn i then .alone i k j else .shared i) :: places noTurn k (j + 1) l

/-- A piece of a way. -/
structure Seg where
  a : Place
  b : Place
  way : Way
deriving DecidableEq

/-- The pieces between neighbours. -/
def pieces (w : Way) : List Place → List Seg
  | p :: q :: l => ⟨p, q, w⟩ :: pieces w (q :: l)
  | _ => []

/-- The pieces of the ways, numbered from `k` on; references outside the area are left out. -/
def segs (noTurn area : Nat → Bool) : Nat → List Way → List Seg
  | _, [] => []
  | k, w :: ws => pieces w (places noTurn k 0 (w.nodes.filter area)) ++ segs noTurn area (k + 1) ws

/-- The way is drawn against the direction of travel, resp. in the direction of travel; both may be travelled otherwise. -/
def Against (o : Opts) (w : Way) : Prop := Hits o.onewayrev WAY w.attrs ∧ ¬ Hits o.twoway WAY w.attrs
def Along (o : Opts) (w : Way) : Prop := Hits o.oneway WAY w.attrs ∧ ¬ Hits o.twoway WAY w.attrs ∧ ¬ Against o w

/-- Travel along the pieces of ways. -/
inductive Travel (o : Opts) (ss : List Seg) : Place → Place → Prop
  | refl (p) : Travel o ss p p
  | ahead {p : Place} {s : Seg} : Travel o ss p s.a → s ∈ ss → ¬ Against o s.way → Travel o ss p s.b
  | back {p : Place} {s : Seg} : Travel o ss p s.b → s ∈ ss → ¬ Along o s.way → Travel o ss p s.a

/-- Travel along the pieces of ways, where a direction is not used if any of the ways drawn from the one place to the other forbids it. -/
inductive Strict (o : Opts) (ss : List Seg) : Place → Place → Prop
  | refl (p) : Strict o ss p p
  | ahead {p : Place} {s : Seg} : Strict o ss p s.a → s ∈ ss → (∀ t ∈ ss, t.a = s.a → t.b = s.b → ¬ Against o t.way) → Strict o ss p s.b
  | back {p : Place} {s : Seg} : Strict o ss p s.b → s ∈ ss → (∀ t ∈ ss, t.a = s.a → t.b = s.b → ¬ Along o t.way) → Strict o ss p s.a

/-- The piece is part of a one-way street. -/
def OneWay (o : Opts) (s : Seg) : Prop := Along o s.way ∨ Against o s.way

/-- The pieces have a place in common. -/
def Meet (s t : Seg) : Prop := s.a = t.a ∨ s.a = t.b ∨ s.b = t.a ∨ s.b = t.b

/-- The place is on pieces between two places only. -/
def Tip (ss : List Seg) (p : Place) : Prop :=
  ∃ s ∈ ss, (s.a = p ∨ s.b = p) ∧ ∀ t ∈ ss, t.a = p ∨ t.b = p → t.a = s.a ∧ t.b = s.b

/-- The level of a way: the first one of the eight whose rules match, or 0. -/
def Level (o : Opts) (w : Way) (n : Nat) : Prop :=
  (n < 8 ∧ PlainHits (o.levels n) w.attrs ∧ ∀ i < n, ¬ PlainHits (o.levels i) w.attrs) ∨
    (n = 0 ∧ ∀ i < 8, ¬ PlainHits (o.levels i) w.attrs)

end Verif.Whole
