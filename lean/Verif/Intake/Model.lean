import Verif.Names.Model
import Verif.Trie.Cluster
import Verif.Dists.Model

/-!
# From the rows of the feed to the clustering (model)

What `clusterTrips` (`src/pfaedle/router/ShapeBuilder.cpp:854-904`) reads of a trip, taken from the rows of the files of the feed. How the feed is
read is a part of cppgtfs (not in the repository): a stop time has the stop that its row names, and reading fails if there is no such stop.
-/

namespace Verif.Intake
open Verif.Shapes (Str)
open Verif.Out (StRow)
open Verif.Content (Tables TripRow)
open Verif.Trie (CEnv)
open Verif.Names (RAttrs)

variable {A B X Z S P D K : Type}

/-- A row of stops.txt. -/
structure StopRow (P : Type) where
  id : Str
  name : String
  platform : String
  pos : P
  deriving DecidableEq, Repr

/-- Fields of the rows of routes.txt (`A`), trips.txt (`X`) and stop_times.txt (`S`) that are read. -/
structure Fields (A X S : Type) where
  /-- `Route::getType` -/
  type : A → Nat
  shortName : A → String
  longName : A → String
  /-- `Trip::getShortname` -/
  tripShort : X → String
  /-- the id of the stop -/
  stop : S → Str
  arr : S → Option Int
  dep : S → Option Int

/-- cppgtfs (an assumption): the stop time of a row. `none`: there is no such stop. -/
def stopTime (f : Fields A X S) (stops : List (StopRow P)) (r : StRow D S) : Option (Trie.StopTime P) :=
  match Content.pos (stops.map (·.id)) (f.stop r.rest) with
  | none => none
  | some j => (stops[j]?).map fun s => ⟨s.name, s.platform, s.pos, f.arr r.rest, f.dep r.rest⟩

/-- `src/pfaedle/gtfs/StopTime.h:63-68`: the stop times of a trip are a set, ordered by `getSeq`. `none`: there is one with this number. -/
def insert (s : Int × Trie.StopTime P) : List (Int × Trie.StopTime P) → Option (List (Int × Trie.StopTime P))
  | [] => some [s]
  | x :: l =>
    if s.1 < x.1 then some (s :: x :: l)
    else if x.1 < s.1 then (insert s l).map (x :: ·)
    else none

/-- cppgtfs (an assumption): the rows of a trip are inserted one by one. -/
def readTrip (f : Fields A X S) (stops : List (StopRow P)) : List (StRow D S) → List (Int × Trie.StopTime P) → Option (List (Int × Trie.StopTime P))
  | [], l => some l
  | r :: rows, l =>
    match stopTime f stops r with
    | none => none
    | some s =>
      match insert (Dists.getSeq r.seq, s) l with
      | none => none
      | some l => readTrip f stops rows l

/-- cppgtfs (an assumption): reading stop_times.txt, as in `Dists.readTimes`, but with the stops. -/
def readStops (f : Fields A X S) (stops : List (StopRow P)) (trips : List (TripRow X)) (rows : List (StRow D S)) :
    Option (List (List (Int × Trie.StopTime P))) :=
  if rows.all fun r => (Content.pos (trips.map (·.id)) r.trip).isSome then
    Content.collect (fun t : TripRow X => readTrip f stops (rows.filter fun r => r.trip = t.id) []) trips
  else none

/-- `trip.getStopTimes()`, ShapeBuilder.cpp:869. (Trips that do not exist are never asked for.) -/
def stopsOf (sts : List (List (Int × Trie.StopTime P))) (other : Nat → List (Trie.StopTime P)) (k : Nat) : List (Trie.StopTime P) :=
  match sts[k]? with
  | some l => l.map (·.2)
  | none => other k

/-- `trip.getRoute()`. A route that is split (C48) has the type and the names of the route it is split from: the route of the input is used. -/
def routeOf (F : Color.Feed A B) (k : Nat) : Option A := ((F.trips[k]?).bind fun j => F.routes[j]?).map (·.rest)

/-- ShapeBuilder.cpp:866-871: what is read of the trips. `c` has the options. (`0`: there is no such trip.) -/
def fill (f : Fields A X S) (F : Color.Feed A B) (sts : List (List (Int × Trie.StopTime P))) (c : CEnv Nat P K) : CEnv Nat P K :=
  { c with
    stops := stopsOf sts c.stops
    mot := fun k => match routeOf F k with
      | some a => f.type a
      | none => 0 }

/-- The feed as the clustering sees it; `none`: the feed is refused. -/
def intake (f : Fields A X S) (i : Tables A B X Z) (stops : List (StopRow P)) (rows : List (StRow D S)) (c : CEnv Nat P K) : Option (CEnv Nat P K) :=
  match Content.load i, readStops f stops i.trips rows with
  | some F, some sts => some (fill f F sts c)
  | _, _ => none

/-- `lnorm` and `snorm`: the normalizers of lines and stations of the configuration (ShapeBuilder.cpp:626-627). -/
structure Norms where
  line : String → Str
  stat : String → Str

/-- ShapeBuilder.cpp:629-640: the name of the line. -/
def lineName (nm : Norms) (short tripShort long : String) : Str :=
  let s := nm.line short
  let s := if s = [] then nm.line tripShort else s
  if s = [] then nm.line long else s

/-- ShapeBuilder.cpp:618-648 `getRAttrs`. The map `_rAttrs` has the results of earlier calls for the same trip. `none`: the trip has no stop times
(undefined: `front` and `back` of an empty set), or does not exist. -/
def getRAttrs (f : Fields A X S) (nm : Norms) (F : Color.Feed A B) (trips : List (TripRow X)) (sts : List (List (Int × Trie.StopTime P))) (k : Nat) :
    Option RAttrs :=
  match routeOf F k, trips[k]?, sts[k]? with
  | some a, some t, some l =>
    match l.head?, l.getLast? with
    | some s, some s' => some ⟨nm.stat s.2.name, [nm.stat s'.2.name], lineName nm (f.shortName a) (f.tripShort t.rest) (f.longName a), []⟩
    | _, _ => none
  | _, _, _ => none

/-- The feed as the clustering sees it, with the attributes, their order and merging (`src/pfaedle/router/RoutingAttrs.h:80-103`). -/
def intakeAttrs (f : Fields A X S) (nm : Norms) (i : Tables A B X Z) (stops : List (StopRow P)) (rows : List (StRow D S)) (c : CEnv Nat P RAttrs) :
    Option (CEnv Nat P RAttrs) :=
  match Content.load i, readStops f stops i.trips rows with
  | some F, some sts => some { fill f F sts c with
      lt := RAttrs.lt
      merge := RAttrs.merge
      rAttrs := fun k => (getRAttrs f nm F i.trips sts k).getD ⟨[], [], [], []⟩ }
  | _, _ => none

end Verif.Intake
