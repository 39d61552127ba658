import Verif.Build.Spec

/-!
# Which trips share a shape (specification)
-/

namespace Verif.Share
open Verif.Trie (CEnv needsShape StopTime)
open Verif.Build (Mode)
open Verif.Content (TripRow)

variable {E C Pt D S P A X : Type}

/-- The times of `l'` are those of `l`, `d` seconds later; an empty time stays empty. -/
def Later (d : Int) (l l' : List (StopTime P)) : Prop :=
  l'.map (fun s => (s.arr, s.dep)) = l.map fun s => (s.arr.map (· + d), s.dep.map (· + d))

/-- No time is empty. -/
def Timed (l : List (StopTime P)) : Prop := ∀ s ∈ l, s.arr ≠ none ∧ s.dep ≠ none

/-- The trips ask for the same line: routing attributes of which none is before the other (RoutingAttrs.h:100-103), and the same stops. If times are
compared (`timenorm`), the one trip runs like the other, and if it does not do so at the same time, all its times are given. -/
structure Same (c : CEnv Nat P A) (k k' : Nat) : Prop where
  attrs : c.lt (c.rAttrs k) (c.rAttrs k') = false ∧ c.lt (c.rAttrs k') (c.rAttrs k) = false
  stops : (c.stops k).map (fun s => (s.name, s.platform, s.pos)) = (c.stops k').map fun s => (s.name, s.platform, s.pos)
  times : c.timeEx = true → ∃ d : Int, Later d (c.stops k) (c.stops k') ∧ (d = 0 ∨ Timed (c.stops k))

/-- The departure at the first stop is given; this matters only if tries are not used and times are compared. -/
def Starts (c : CEnv Nat P A) (n : Nat) : Prop :=
  c.noTrie = true → c.timeEx = true → ∀ k, k < n → ∃ s, (c.stops k).head? = some s ∧ s.dep ≠ none

/-- Trips in the output that share a shape. `trips` and `trips'`: trips.txt of the input and of the output. -/
structure Shared (ms : List (Mode E C Pt D S P A)) (trips trips' : List (TripRow X)) : Prop where
  /-- trips that ask for the same line have the same shape -/
  same : ∀ m ∈ ms, ∀ (k k' : Nat) t t', trips[k]? = some t → trips[k']? = some t' → needsShape m.c k → needsShape m.c k' → Same m.c k k' →
    ∀ u ∈ trips', ∀ u' ∈ trips', u.id = t.id → u'.id = t'.id → u.shape = u'.shape
  /-- trips with a new shape share it only if they were matched together, have routing attributes of which none is before the other, and the same
  names and platforms of stops, in the same order -/
  only : ∀ m ∈ ms, ∀ m' ∈ ms, ∀ (k k' : Nat) t t', trips[k]? = some t → trips[k']? = some t' → needsShape m.c k → needsShape m'.c k' →
    ∀ u ∈ trips', ∀ u' ∈ trips', u.id = t.id → u'.id = t'.id → u.shape = u'.shape →
    ∃ q ∈ ms, needsShape q.c k ∧ needsShape q.c k' ∧ (q.c.lt (q.c.rAttrs k) (q.c.rAttrs k') = false ∧ q.c.lt (q.c.rAttrs k') (q.c.rAttrs k) = false) ∧
      (q.c.stops k).map (fun s => (s.name, s.platform)) = (q.c.stops k').map fun s => (s.name, s.platform)

end Verif.Share
