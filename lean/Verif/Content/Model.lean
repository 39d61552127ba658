import Verif.Out.Props
import Verif.Color.SplitProps

/-!
# The content of the written feed (model)

Which rows `Writer::write` (`src/pfaedle/gtfs/Writer.cpp:44-380`) writes to the files of the output feed, after the routes have
been split by colour. The steps of the writer are those of `Verif.Out`, the splitting of the routes is that of `Verif.Color`; here
they work on the same feed. How the feed is read is a part of cppgtfs (not in the repository): trips and fare rules name their
route by its id, and reading fails if there is no such route.
-/

namespace Verif.Content
open Verif.Shapes (Str)
open Verif.Color (Route Rule)

/-- A row of trips.txt. -/
structure TripRow (X : Type) where
  id : Str
  route : Str
  shape : Str
  rest : X
  deriving DecidableEq, Repr

/-- A row of fare_rules.txt; the id of the route may be empty. -/
structure RuleRow (B : Type) where
  fare : Str
  route : Str
  rest : B
  deriving DecidableEq, Repr

/-- A row of a file. -/
inductive Row (A B X Z : Type) where
  | header (n : Out.Name)
  | route (r : Route A)
  | trip (t : TripRow X)
  /-- fare_attributes.txt -/
  | fare (id : Str) (rest : Z)
  | rule (r : RuleRow B)
  /-- frequencies.txt -/
  | freq (trip : Str) (rest : Z)
  /-- the row of `writeAttribution`, Writer.cpp:383-394 -/
  | osm
  | other (rest : Z)
  deriving DecidableEq, Repr

/-- The rows of the files of the input that are kept in memory. -/
structure Tables (A B X Z : Type) where
  routes : List (Route A)
  trips : List (TripRow X)
  fares : List (Str × Z)
  rules : List (RuleRow B)
  freqs : List (Str × Z)
  deriving DecidableEq, Repr

variable {A B X Z : Type}

/-- Index of an id. -/
def pos : List Str → Str → Option Nat
  | [], _ => none
  | x :: l, s => if x = s then some 0 else (pos l s).map (· + 1)

/-- All or nothing: reading fails with the first row that cannot be read. -/
def collect {α β : Type} (f : α → Option β) : List α → Option (List β)
  | [] => some []
  | a :: l =>
    match f a with
    | none => none
    | some b => (collect f l).map (b :: ·)

/-- cppgtfs `Parser::parseFareRules` (not in the repository). -/
def loadRule (ids : List Str) (r : RuleRow B) : Option (Rule B) :=
  if r.route = [] then some ⟨none, r.rest⟩ else (pos ids r.route).map fun k => ⟨some k, r.rest⟩

/-- cppgtfs `Parser::parse` (not in the repository), called in `src/pfaedle/PfaedleMain.cpp:138-142`: routes, the route of each trip,
and the rules of each fare. -/
def load (i : Tables A B X Z) : Option (Color.Feed A B) :=
  match collect (fun t => pos (i.routes.map (·.id)) t.route) i.trips,
    collect (fun f => collect (loadRule (i.routes.map (·.id))) (i.rules.filter fun r => r.fare = f.1)) i.fares with
  | some trips, some fares => some ⟨i.routes, trips, fares⟩
  | _, _ => none

/-- `t.getFlat()`, Writer.cpp:653: the row of a trip names the route that the trip has in memory. -/
def flatTrip (F : Color.Feed A B) (t : TripRow X) (r : Nat) (shape : Str) : Option (TripRow X) :=
  (F.routes[r]?).map fun R => { t with route := R.id, shape }

/-- Writer.cpp:651-654: the rows of all trips. `shapes`: the shape that each trip has in the end. -/
def flatTrips (F : Color.Feed A B) : List (TripRow X) → List Nat → List Str → Option (List (TripRow X))
  | t :: ts, r :: rs, s :: ss =>
    match flatTrip F t r s with
    | none => none
    | some row => (flatTrips F ts rs ss).map (row :: ·)
  | [], _, _ => some []
  | _, _, _ => none

/-- What is not decided here: shapes and stop times (see C07, C43), and the publisher. The rows of routes and trips are written
in the order of a hash map. -/
structure Env (A B X Z : Type) where
  keepShape : List (Row A B X Z) → Row A B X Z → Bool
  newShapes : List (Row A B X Z)
  stopTime : List (Row A B X Z) → Row A B X Z → Option (Row A B X Z)
  hasPublisher : Bool
  feedInfo : List (Row A B X Z)
  orderR : List (Route A) → List (Route A)
  orderT : List (TripRow X) → List (TripRow X)

/-- Writer.cpp:85-356: what is written of the feed. Rows of files that are copied are read from the input and written as they are. -/
def outFeed (e : Env A B X Z) (i : Tables A B X Z) (F : Color.Feed A B) (rows : List (TripRow X)) : Out.Feed (Row A B X Z) where
  header := fun n => [.header n]
  echo := fun _ r => r
  routes := (e.orderR F.routes).map .route
  keepShape := e.keepShape
  newShapes := e.newShapes
  trips := (e.orderT rows).map .trip
  -- 652
  hasFreqs := i.trips.any fun t => i.freqs.any fun f => f.1 = t.id
  stopTime := e.stopTime
  hasPublisher := e.hasPublisher
  feedInfo := e.feedInfo
  attribution := [.osm]

/-- Options and results of the matching, as in `Verif.Color`. -/
structure Matching where
  noColor : Nat
  textColor : Nat → Nat
  writeColors : Bool
  keep : Nat → Bool
  threads : List (List (Nat × List Nat))
  shapes : List Str

/-- `src/pfaedle/PfaedleMain.cpp:135-447`: the feed is read, routes are split (ShapeBuilder.cpp:402-466), and the feed is handed to
the writer. -/
def process (m : Matching) (e : Env A B X Z) (i : Tables A B X Z) : Option (Out.Feed (Row A B X Z)) :=
  match load i with
  | none => none
  | some F =>
    match Color.colorRoutes m.noColor m.textColor m.writeColors m.keep m.threads F with
    | none => none
    | some F' =>
      match flatTrips F' i.trips F'.trips m.shapes with
      | none => none
      | some rows => some (outFeed e i F' rows)

end Verif.Content
