import Verif.Result.Service
import Verif.Out.StopTimes

/-!
# Distances in stop_times.txt (model)

From reading the stop times over the workers of all mode configurations to the writer. Distances are of any type; in the program they are
`float`. A row of stop_times.txt has a trip id, a sequence number, a distance, and the rest.
-/

namespace Verif.Dists
open Verif.Shapes (Str Widths)
open Verif.Out (StRow StopTime Trips stStep curAfter)
open Verif.Content (Tables TripRow Env Matching)
open Verif.Result (Run St FRow)

variable {A B D S X Y : Type}

/-- `src/pfaedle/gtfs/StopTime.h:53`: `_sequence` has 32 bits, but `getSeq` returns 16 of them. -/
def getSeq (seq : Int) : Int := seq % 65536

/-- StopTime.h:63-68: the stop times of a trip are a set, ordered by `getSeq`. `none`: there is one with this number (cppgtfs refuses the feed,
an assumption). -/
def insertSt (s : StopTime D) : List (StopTime D) → Option (List (StopTime D))
  | [] => some [s]
  | x :: l =>
    if s.seq < x.seq then some (s :: x :: l)
    else if x.seq < s.seq then (insertSt s l).map (x :: ·)
    else none

/-- cppgtfs (an assumption): the rows of a trip are inserted one by one. `seq` of a stop time is what `getSeq` returns. -/
def readTrip : List (StRow D S) → List (StopTime D) → Option (List (StopTime D))
  | [], l => some l
  | r :: rows, l =>
    match insertSt ⟨getSeq r.seq, r.dist⟩ l with
    | none => none
    | some l => readTrip rows l

/-- cppgtfs (an assumption): reading stop_times.txt. `none`: the feed is refused; also if a row is of an unknown trip. The stop times of each
trip. -/
def readTimes (trips : List (TripRow X)) (rows : List (StRow D S)) : Option (List (List (StopTime D))) :=
  if rows.all fun r => (Content.pos (trips.map (·.id)) r.trip).isSome then
    Content.collect (fun t : TripRow X => readTrip (rows.filter fun r => r.trip = t.id) []) trips
  else none

/-- `src/pfaedle/router/ShapeBuilder.cpp:545-555` `setShape`: the distances of a trip, in the order of its stop times. `none`: a distance is
read past the end of the vector (the `assert` before is not compiled into a release). -/
def setDists : List D → List (StopTime D) → Option (List (StopTime D))
  | _, [] => some []
  | [], _ :: _ => none
  | d :: ds, s :: l => (setDists ds l).map ({ s with dist := d } :: ·)

/-- A mode configuration, and the distances that `setShape` gets for each trip (ShapeBuilder.cpp:1221). -/
structure MRun (D : Type) where
  run : Run
  dists : Nat → List D

/-- ShapeBuilder.cpp:1221: the distances of the trips that are set, one after the other. This is a part of the action `set` of the model of
the workers: nobody else uses the stop times of this trip at this time. -/
def setAll (ds : Nat → List D) : List Nat → List (List (StopTime D)) → Option (List (List (StopTime D)))
  | [], ts => some ts
  | k :: ks, ts =>
    match ts[k]? with
    | none => none
    | some l =>
      match setDists (ds k) l with
      | none => none
      | some l => setAll ds ks (ts.set k l)

/-- `src/pfaedle/PfaedleMain.cpp:256-355`: the stop times after all mode configurations. -/
def allTimes (limit : Nat) (atomicDec : Bool) (n : Nat) : List (MRun D) → St → List (List (StopTime D)) → Option (List (List (StopTime D)))
  | [], _, ts => some ts
  | r :: rs, s, ts =>
    match setAll r.dists (Shapes.Workers.run (Result.workers limit atomicDec n r.run.jobs s) r.run.sched).setd ts with
    | none => none
    | some ts => allTimes limit atomicDec n rs (Result.after limit atomicDec n r.run s) ts

/-- `getTrips().get(id)`. -/
def lookup (trips : List (TripRow X)) (ts : List (List (StopTime D))) : Trips D := fun id =>
  match Content.pos (trips.map (·.id)) id with
  | none => none
  | some k => ts[k]?

/-- Rows of stop_times.txt, and other rows. -/
abbrev DRow (A B D S X Y : Type) := FRow A B X (StRow D S ⊕ Y)

def stRow (r : StRow D S) : DRow A B D S X Y := .other (.inr (.inl r))

def stOf : DRow A B D S X Y → Option (StRow D S)
  | .other (.inr (.inl r)) => some r
  | _ => none

/-- `src/pfaedle/gtfs/Writer.cpp:660-688` `writeStopTimes`, as a part of the writer. -/
def stEnv (trips : Trips D) (e : Env A B X (Shapes.Row ⊕ (StRow D S ⊕ Y))) : Env A B X (Shapes.Row ⊕ (StRow D S ⊕ Y)) :=
  { e with
    stopTime := fun pre row =>
      match stOf row with
      | none => none
      | some r => (stStep trips (curAfter trips (pre.filterMap stOf)) r).2.map stRow }

/-- PfaedleMain.cpp:256-447: after all workers have returned, the feed is written. -/
def write (m : Matching) (e : Env A B X (Shapes.Row ⊕ (StRow D S ⊕ Y))) (w : Widths) (limit : Nat)
    (i : Tables A B X (Shapes.Row ⊕ (StRow D S ⊕ Y))) (rs : List (MRun D)) (s : St) (ts : List (List (StopTime D))) :
    Option (Out.Feed (DRow A B D S X Y)) :=
  Result.write m (stEnv (lookup i.trips ts) e) w limit i (rs.map (·.run)) s

end Verif.Dists
