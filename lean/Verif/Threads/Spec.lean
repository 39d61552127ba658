import Verif.Build.Spec

/-!
# The result does not depend on threads and schedules (specification)
-/

namespace Verif.Threads
open Verif.Trie (needsShape)
open Verif.Build (Mode)
open Verif.Content (TripRow)
open Verif.Result (rowsOf)

variable {E C Pt D S P A X : Type}

/-- The same mode configuration with other numbers of threads, other schedules and another distribution of the work. -/
def Like (m m' : Mode E C Pt D S P A) : Prop :=
  m' = { m with thr := m'.thr, csched := m'.csched, W := m'.W, sched := m'.sched, threads := m'.threads }

/-- The same mode configurations, in the same order, with other threads. -/
inductive LikeAll : List (Mode E C Pt D S P A) → List (Mode E C Pt D S P A) → Prop
  | nil : LikeAll [] []
  | cons {m m' ms ms'} : Like m m' → LikeAll ms ms' → LikeAll (m :: ms) (m' :: ms')

/-- There is a thread for the clustering, and all of them return. -/
structure Returns (m : Mode E C Pt D S P A) (n : Nat) : Prop where
  thr : 0 < m.thr
  done : ∀ s, Trie.cinit m.c m.thr (List.range n) = some s → Trie.Complete s m.csched

/-- Two outputs for the same input say the same about shapes. `trips`: trips.txt of the input; `trips1`, `out1`, `trips2`, `out2`: trips.txt and
shapes.txt of the outputs. Only the ids of new shapes may differ. -/
structure Agree (ms : List (Mode E C Pt D S P A)) (trips trips1 trips2 : List (TripRow X)) (out1 out2 : List Shapes.Row) : Prop where
  /-- each trip has the same points in the same order, with the same distances -/
  line : ∀ (k : Nat) t, trips[k]? = some t → ∀ u1 ∈ trips1, ∀ u2 ∈ trips2, u1.id = t.id → u2.id = t.id →
    (rowsOf out1 u1.shape).map (fun r => (r.pt, r.seq)) = (rowsOf out2 u2.shape).map fun r => (r.pt, r.seq)
  /-- a trip that did not need a shape has the same shape -/
  old : ∀ (k : Nat) t, trips[k]? = some t → (∀ m ∈ ms, ¬ needsShape m.c k) → ∀ u1 ∈ trips1, ∀ u2 ∈ trips2, u1.id = t.id → u2.id = t.id →
    u1.shape = u2.shape
  /-- trips that needed a shape share it in both outputs, or in none -/
  share : ∀ (k k' : Nat) t t', trips[k]? = some t → trips[k']? = some t' → (∃ m ∈ ms, needsShape m.c k) → (∃ m ∈ ms, needsShape m.c k') →
    ∀ u1 ∈ trips1, ∀ v1 ∈ trips1, ∀ u2 ∈ trips2, ∀ v2 ∈ trips2, u1.id = t.id → v1.id = t'.id → u2.id = t.id → v2.id = t'.id →
    (u1.shape = v1.shape ↔ u2.shape = v2.shape)

end Verif.Threads
