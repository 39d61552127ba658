import Verif.Dists.Model
import Verif.Line.Props

/-!
# Distances in stop_times.txt (specification)
-/

namespace Verif.Dists
open Verif.Out (StRow)
open Verif.Content (TripRow)
open Verif.Result (rowsOf)
open Verif.Line (LHop Edges At)

variable {D S X E Pt : Type}

/-- These distances were found for the stops of the trip at place `k`. -/
def Given (rs : List (MRun D)) (k : Nat) (ds : List D) : Prop :=
  ∃ r ∈ rs, (∃ j ∈ r.run.jobs, ∃ l ∈ j, k ∈ l.trips) ∧ r.dists k = ds

/-- How many stops the trip of this row has before it. -/
def placeOf (rows : List (StRow D S)) (r : StRow D S) : Nat := (rows.filter fun q => q.trip = r.trip ∧ q.seq < r.seq).length

/-- `rows` and `rows'` are the rows of stop_times.txt in the input and in the output. -/
structure Measured (rs : List (MRun D)) (trips : List (TripRow X)) (rows rows' : List (StRow D S)) : Prop where
  length : rows'.length = rows.length
  /-- only distances are changed -/
  row : ∀ (i : Nat) r r', rows[i]? = some r → rows'[i]? = some r' → r'.trip = r.trip ∧ r'.seq = r.seq ∧ r'.rest = r.rest
  /-- the stops of a matched trip have the distances that were found, in the order of their sequence numbers -/
  new : ∀ (i : Nat) r r', rows[i]? = some r → rows'[i]? = some r' → ∀ (k : Nat) t ds, trips[k]? = some t → t.id = r.trip → Given rs k ds →
    ds[placeOf rows r]? = some r'.dist
  /-- those of other trips keep their distances -/
  old : ∀ (i : Nat) r r', rows[i]? = some r → rows'[i]? = some r' → ∀ (k : Nat) t, trips[k]? = some t → t.id = r.trip →
    (¬ ∃ ds, Given rs k ds) → r'.dist = r.dist

/-- Sequence numbers fit into 16 bits. -/
def SmallSeqs (rows : List (StRow D S)) : Prop := ∀ r ∈ rows, 0 ≤ r.seq ∧ r.seq < 65536

/-- There is one distance for each stop of a matched trip (C46). -/
def LensOk (rs : List (MRun D)) (trips : List (TripRow X)) (rows : List (StRow D S)) : Prop :=
  ∀ (k : Nat) t ds, trips[k]? = some t → Given rs k ds → ds.length = (rows.filter fun r => r.trip = t.id).length

/-- The stops of a trip (rows of stop_times.txt) go along its shape (rows of shapes.txt). -/
structure Along (pt : List Pt → Rat → Pt) (g : Edges E Pt) (encD : Rat → List Nat) (isAt : Shapes.Row → Pt → Prop) (hops : List (LHop E Pt))
    (shape : List Shapes.Row) (stops : List (StRow (List Nat) S)) : Prop where
  /-- distances never decrease along the shape -/
  grow : ∃ vs : List Rat, vs.Pairwise (· ≤ ·) ∧ shape.map (·.pt.dist) = vs.map encD
  /-- distances never decrease along the stops, and each is that of a point of the shape; later stops are at later points -/
  order : ∀ q ∈ stops, ∀ q' ∈ stops, q.seq < q'.seq → ∃ (a b : Nat) (s s' : Shapes.Row), a ≤ b ∧ shape[a]? = some s ∧ shape[b]? = some s' ∧
    s.pt.dist = q.dist ∧ s'.pt.dist = q'.dist
  /-- the first stop is at the first point, the last one at the last point -/
  first : ∀ q ∈ stops, (∀ q' ∈ stops, q.seq ≤ q'.seq) → ∃ s, shape.head? = some s ∧ s.pt.dist = q.dist
  last : ∀ q ∈ stops, (∀ q' ∈ stops, q'.seq ≤ q.seq) → ∃ s, shape.getLast? = some s ∧ s.pt.dist = q.dist
  /-- the point of the first stop is where the first hop starts (the hops are in reverse order) -/
  start : ∀ q ∈ stops, (∀ q' ∈ stops, q.seq ≤ q'.seq) → ∀ h, hops.getLast? = some h → ∃ s ∈ shape, s.pt.dist = q.dist ∧ ∃ x, isAt s x ∧ At pt g h.fr x
  /-- the point of any other stop is where the hop to the stop ends -/
  place : ∀ q ∈ stops, ∀ (p : Nat) h, (stops.filter fun q' => q'.seq < q.seq).length = p + 1 → hops.reverse[p]? = some h →
    ∃ s ∈ shape, s.pt.dist = q.dist ∧ ∃ x, isAt s x ∧ At pt g h.to x

end Verif.Dists
