import Verif.Result.Model

/-!
# From the matched trips to the written feed (specification)
-/

namespace Verif.Result
open Verif.Shapes (Str Point Widths)
open Verif.Shapes.Workers (Leaf run SchedOk Finished)
open Verif.Content (TripRow)

/-- The rows of shapes.txt with this id. -/
def rowsOf (rows : List Shapes.Row) (id : Str) : List Shapes.Row := rows.filter fun r => r.id = id

/-- The rows with this id are these points, in order, numbered from 1. -/
def IsLine (rows : List Shapes.Row) (id : Str) (pts : List Point) : Prop :=
  rowsOf rows id = pts.zipIdx.map fun p => ⟨id, p.1, p.2 + 1⟩

/-- Each line has points, and fewer than 2^64; coordinates and distances have a fixed number of bytes. -/
def PtsOk (w : Widths) (jobs : List (List Leaf)) : Prop :=
  ∀ j ∈ jobs, ∀ l ∈ j, l.pts ≠ [] ∧ l.pts.length < 256 ^ 8 ∧
    ∀ p ∈ l.pts, p.lat.length = w.lat ∧ p.lng.length = w.lng ∧ p.dist.length = w.dist

/-- A line was found for the trip at place `k`: this one. -/
def Found (jobs : List (List Leaf)) (k : Nat) (pts : List Point) : Prop := ∃ j ∈ jobs, ∃ l ∈ j, k ∈ l.trips ∧ l.pts = pts

/-- Each run has at least one worker, and goes on until all of them have returned. -/
def Done (limit : Nat) (atomicDec : Bool) (n : Nat) : List Run → St → Prop
  | [], _ => True
  | r :: rs, s => (0 < r.W ∧ SchedOk r.W r.sched ∧ Finished r.W (run (workers limit atomicDec n r.jobs s) r.sched)) ∧
    Done limit atomicDec n rs (after limit atomicDec n r s)

/-- `trips'` and `out` are the rows of trips.txt and shapes.txt in the output; `trips` and `src` are those of the input. -/
structure Lines {X : Type} (jobs : List (List Leaf)) (exact : Prop) (trips trips' : List (TripRow X)) (src out : List Shapes.Row) : Prop where
  same : (trips'.map (·.id)).Perm (trips.map (·.id))
  /-- if a line was found for a trip, this is the shape of the trip -/
  line : ∀ (k : Nat) t pts, trips[k]? = some t → Found jobs k pts → ∀ t' ∈ trips', t'.id = t.id → IsLine out t'.shape pts
  /-- otherwise it has the shape that it had, and this is unchanged -/
  old : ∀ (k : Nat) t, trips[k]? = some t → (¬ ∃ pts, Found jobs k pts) → ∀ t' ∈ trips', t'.id = t.id →
    t'.shape = t.shape ∧ rowsOf out t.shape = rowsOf src t.shape
  /-- trips share a new shape only if a line was found for them together -/
  apart : ∀ l l' : Leaf, (∃ j ∈ jobs, l ∈ j) → (∃ j ∈ jobs, l' ∈ j) → ∀ k k', k ∈ l.trips → k' ∈ l'.trips → ∀ t t', trips[k]? = some t →
    trips[k']? = some t' → ∀ u ∈ trips', ∀ u' ∈ trips', u.id = t.id → u'.id = t'.id → u.shape = u'.shape → k' ∈ l.trips
  /-- trips for which a line was found together share their shape -/
  together : ∀ l : Leaf, (∃ j ∈ jobs, l ∈ j) → ∀ k k', k ∈ l.trips → k' ∈ l.trips → ∀ t t', trips[k]? = some t → trips[k']? = some t' →
    ∀ u ∈ trips', ∀ u' ∈ trips', u.id = t.id → u'.id = t'.id → u.shape = u'.shape
  /-- no other shape is written, except for those of the input that no trip had -/
  used : exact → ∀ r ∈ out, (∃ t' ∈ trips', t'.shape = r.id) ∨ r ∈ src ∧ ∀ t ∈ trips, t.shape ≠ r.id

end Verif.Result
