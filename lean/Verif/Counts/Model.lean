import Verif.Build.Model

/-!
# The numbers that are reported after matching
-/

namespace Verif.Counts
open Verif.Trie (Trie)
open Verif.Build (Mode cluster leafs)

variable {E C Pt D S P A : Type}

/-- `src/pfaedle/router/Stats.h:15-28`, without times and iterations. -/
structure Stats where
  totNumTrips : Nat
  numTries : Nat
  numTrieLeafs : Nat
deriving DecidableEq

/-- `src/pfaedle/router/Stats.h:30-38`. -/
def Stats.add (a b : Stats) : Stats := ⟨a.totNumTrips + b.totNumTrips, a.numTries + b.numTries, a.numTrieLeafs + b.numTrieLeafs⟩

/-- `src/pfaedle/router/ShapeBuilder.cpp:388-393` and `421-428`: the loops over all tries. The keys of `getNdTrips()` are the nodes with trips. -/
def count : List (Trie Nat P A) → Stats
  | [] => ⟨0, 0, 0⟩
  | tr :: l => (Stats.mk ((leafs tr).map fun j => (tr.ndTrips j).length).sum 1 (leafs tr).length).add (count l)

/-- `src/pfaedle/router/ShapeBuilder.cpp:381-428`: the numbers for a mode configuration. "Matched … trips" (line 451) is the first of them. -/
def shapeify (m : Mode E C Pt D S P A) (n : Nat) : Option Stats := (cluster m n).map fun fs => count fs.flatten

/-- `src/pfaedle/PfaedleMain.cpp:251, 256-355`: all mode configurations. Lines 416-417 write the sums to `stats.json`. -/
def total (n : Nat) : List (Mode E C Pt D S P A) → Stats → Option Stats
  | [], s => some s
  | m :: ms, s =>
    match shapeify m n with
    | none => none
    | some d => total n ms (s.add d)

end Verif.Counts
