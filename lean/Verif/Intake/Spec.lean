import Verif.Intake.Model
import Verif.Visit.Spec

/-!
# From the rows of the feed to the clustering (specification)
-/

namespace Verif.Intake
open Verif.Shapes (Str)
open Verif.Out (StRow)
open Verif.Content (Tables TripRow)
open Verif.Trie (CEnv)
open Verif.Result (rowsOf)
open Verif.Visit (Site)

variable {A B X Z S P P' D K C T D' S' : Type}

/-- The rows of stop_times.txt of a trip. -/
def rowsAt (rows : List (StRow D S)) (t : TripRow X) : List (StRow D S) := rows.filter fun r => r.trip = t.id

/-- Rows of the same trip have different numbers, and every row is of a trip and a stop of the feed. -/
structure RowsOk (f : Fields A X S) (stops : List (StopRow P)) (trips : List (TripRow X)) (rows : List (StRow D S)) : Prop where
  apart : rows.Pairwise fun r r' => r.trip = r'.trip → r.seq ≠ r'.seq
  trip : ∀ r ∈ rows, ∃ t ∈ trips, t.id = r.trip
  stop : ∀ r ∈ rows, ∃ s ∈ stops, s.id = f.stop r.rest

/-- The configuration is for this trip: it has at least two rows in stop_times.txt, and the type of its route is asked for. -/
def Wanted (f : Fields A X S) (c : CEnv Nat P K) (routes : List (Color.Route A)) (rows : List (StRow D S)) (t : TripRow X) : Prop :=
  2 ≤ (rowsAt rows t).length ∧ ∃ R ∈ routes, R.id = t.route ∧ f.type R.rest ∈ c.mots ∧ f.type R.rest ∈ c.cfgMots

/-- The point is the position of a stop like `s`, or not further away from it than is permitted. -/
def CloseTo (far : P' → P → Rat) (x : Site P S' T D' C P' K) (s : StopRow P') (p : P) : Prop :=
  ∃ pos, x.town.m.c.near pos s.pos = true ∧ (p = (x.look.ask s.name s.platform pos).pos ∨
    far pos p ≤ x.look.o.maxStationCandDistance ∨ far pos p ≤ x.look.o.maxSnapDistance)

/-- In the output, each row of stop_times.txt of this trip has the distance of a point of the shape of the trip, and this point is close to the stop
of the row. -/
def PassesBy (f : Fields A X S) (far : P' → P → Rat) (isAt : Shapes.Row → P → Prop) (x : Site P S' T D' C P' K) (stops : List (StopRow P')) (t : TripRow X)
    (trips' : List (TripRow X)) (out : List Shapes.Row) (rows' : List (StRow (List Nat) S)) : Prop :=
  ∀ t' ∈ trips', t'.id = t.id → ∀ q ∈ rowsAt rows' t, ∃ s ∈ stops, s.id = f.stop q.rest ∧
    ∃ r ∈ rowsOf out t'.shape, r.pt.dist = q.dist ∧ ∃ p, isAt r p ∧ CloseTo far x s p

/-- In the output, this trip has the shape and the rows of stop_times.txt that it had. -/
def Unchanged (t : TripRow X) (trips' : List (TripRow X)) (src out : List Shapes.Row) (rows rows' : List (StRow D S)) : Prop :=
  (∀ t' ∈ trips', t'.id = t.id → t'.shape = t.shape ∧ rowsOf out t.shape = rowsOf src t.shape) ∧ rowsAt rows' t = rowsAt rows t

/-- The normalised name of the line of a trip: that of its route, else that of the trip, else the long name of the route. -/
structure LineOf (f : Fields A X S) (nm : Norms) (routes : List (Color.Route A)) (t : TripRow X) (name : Str) : Prop where
  named : ∃ R ∈ routes, R.id = t.route ∧
    (nm.line (f.shortName R.rest) ≠ [] → name = nm.line (f.shortName R.rest)) ∧
    (nm.line (f.shortName R.rest) = [] → nm.line (f.tripShort t.rest) ≠ [] → name = nm.line (f.tripShort t.rest)) ∧
    (nm.line (f.shortName R.rest) = [] → nm.line (f.tripShort t.rest) = [] → name = nm.line (f.longName R.rest))

/-- The normalised name of the first stop of a trip. -/
def FirstOf (f : Fields A X S) (nm : Norms) (stops : List (StopRow P)) (rows : List (StRow D S)) (t : TripRow X) (name : Str) : Prop :=
  ∃ r ∈ rowsAt rows t, (∀ q ∈ rowsAt rows t, r.seq ≤ q.seq) ∧ ∃ s ∈ stops, s.id = f.stop r.rest ∧ name = nm.stat s.name

/-- The normalised name of the last stop of a trip. -/
def LastOf (f : Fields A X S) (nm : Norms) (stops : List (StopRow P)) (rows : List (StRow D S)) (t : TripRow X) (name : Str) : Prop :=
  ∃ r ∈ rowsAt rows t, (∀ q ∈ rowsAt rows t, q.seq ≤ r.seq) ∧ ∃ s ∈ stops, s.id = f.stop r.rest ∧ name = nm.stat s.name

end Verif.Intake
