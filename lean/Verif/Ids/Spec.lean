import Verif.Whole.Model
import Verif.Osm.Doc

/-!
# The id sets of the first pass (specification)
-/

namespace Verif.Ids
open Verif.Osm

variable {P S T D : Type}

/-- The ways of the file refer to nodes of the file. -/
def Closed (d : Doc P) : Prop := ∀ x ∈ d.ways, ∀ e ∈ x.kids, ∀ i, e.tag = .nd i → ∃ n ∈ d.nodes, n.id = i

/-- Ids of nodes are 64 bit numbers. -/
def Fits (d : Doc P) : Prop := ∀ n ∈ d.nodes, n.id < 2 ^ 64

/-- Nothing of the file is outside of the area. -/
def AllIn (bbox : P → Bool) (d : Doc P) : Prop := ∀ n ∈ d.nodes, bbox n.pos = true

/-- The node has a tag that one of the rules for nodes without turns (`nohup`) is for. -/
def Tagged (nohup : Names.Str → Names.Str → Bool) (n : DNode P) : Prop :=
  ∃ e ∈ n.kids, e.level = 3 ∧ ∃ k v, e.tag = .tag k v ∧ nohup k v = true

/-- A program whose sets hold what was put into them and nothing else. -/
def exactly (p : Whole.Par P S T D) : Whole.Par P S T D :=
  { p with
    box := fun ops i => decide (BoxOp.add i ∈ ops)
    hup := fun ops i => decide (BoxOp.nohup i ∈ ops) }

/-- The same, but the first set also holds the ids `extra`. -/
def besides (extra : Nat → Bool) (p : Whole.Par P S T D) : Whole.Par P S T D :=
  { p with
    box := fun ops i => decide (BoxOp.add i ∈ ops) || extra i
    hup := fun ops i => decide (BoxOp.nohup i ∈ ops) }

end Verif.Ids
