import Verif.Counts.Model
import Verif.Build.Spec

/-!
# The numbers that are reported after matching (specification)
-/

namespace Verif.Counts
open Verif.Trie (needsShape)
open Verif.Build (Mode)
open Verif.Content (TripRow)

variable {E C Pt D S P A X α : Type}

/-- There are `x` things with the property `p`. -/
def Many (x : Nat) (p : α → Prop) : Prop := ∃ l : List α, l.Nodup ∧ l.length = x ∧ ∀ a, a ∈ l ↔ p a

/-- The shape that the trip `k` of the input has in the output. -/
def HasShape (trips trips' : List (TripRow X)) (k : Nat) (x : List Nat) : Prop :=
  ∃ t, trips[k]? = some t ∧ ∃ u ∈ trips', u.id = t.id ∧ u.shape = x

/-- What the numbers say. `trips` and `trips'`: trips.txt of the input and of the output. -/
structure Counted (ms : List (Mode E C Pt D S P A)) (trips trips' : List (TripRow X)) (s : Stats) : Prop where
  /-- the trips that needed a shape for some mode configuration -/
  matched : Many s.totNumTrips fun k => k < trips.length ∧ ∃ m ∈ ms, needsShape m.c k
  /-- the shapes that these trips have in the output -/
  shapes : Many s.numTrieLeafs fun x => ∃ k, (∃ m ∈ ms, needsShape m.c k) ∧ HasShape trips trips' k x
  /-- a trie has a leaf -/
  tries : s.numTries ≤ s.numTrieLeafs

end Verif.Counts
