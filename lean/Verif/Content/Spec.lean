import Verif.Content.Model

/-!
# The content of the written feed (specification)
-/

namespace Verif.Content
open Verif.Shapes (Str)
open Verif.Color (Route)
open Verif.Out (Cfg FS Name HasInput HasOutput)

variable {A B X Z : Type}

/-- These are the rows of the input. There are routes and trips; the other files may be missing. -/
structure Reads (c : Cfg) (fs : FS (Row A B X Z)) (i : Tables A B X Z) : Prop where
  routes : HasInput c fs .routes (i.routes.map .route)
  trips : HasInput c fs .trips (i.trips.map .trip)
  fares : Out.Input c fs .fareAttributes (i.fares.map fun f => .fare f.1 f.2)
  rules : Out.Input c fs .fareRules (i.rules.map .rule)
  freqs : Out.Input c fs .frequencies (i.freqs.map fun f => .freq f.1 f.2)

/-- A feed without errors: ids are unique and not empty, and references lead somewhere. -/
structure Valid (i : Tables A B X Z) : Prop where
  routes : (i.routes.map (·.id)).Nodup
  named : ∀ R ∈ i.routes, R.id ≠ []
  trips : (i.trips.map (·.id)).Nodup
  tripRoute : ∀ t ∈ i.trips, ∃ R ∈ i.routes, R.id = t.route
  fares : (i.fares.map (·.1)).Nodup
  ruleFare : ∀ r ∈ i.rules, ∃ f ∈ i.fares, f.1 = r.fare
  ruleRoute : ∀ r ∈ i.rules, r.route = [] ∨ ∃ R ∈ i.routes, R.id = r.route
  freqTrip : ∀ f ∈ i.freqs, ∃ t ∈ i.trips, t.id = f.1

/-- A rule of a fare holds for a trip: it is for the route of the trip, or for all routes. -/
def RuleFor (trips : List (TripRow X)) (rules : List (RuleRow B)) (trip fare : Str) (x : B) : Prop :=
  ∃ t ∈ trips, t.id = trip ∧ ∃ r ∈ rules, r.fare = fare ∧ r.rest = x ∧ (r.route = [] ∨ r.route = t.route)

/-- In both feeds, the same rules hold for the same trips. -/
def SameFares (trips trips' : List (TripRow X)) (rules rules' : List (RuleRow B)) : Prop :=
  ∀ (trip fare : Str) (x : B), RuleFor trips' rules' trip fare x ↔ RuleFor trips rules trip fare x

/-- The colour of a route may be set if it had none, and colours are to be written. -/
def ColorOk (noColor : Nat) (writeColors : Bool) (R R' : Route A) : Prop :=
  R'.color = R.color ∨ writeColors = true ∧ R.color = noColor ∧ R.text = noColor

/-- `routes'` and `trips'` are the routes and trips of a feed with `routes` and `trips`, except for colours and shapes. -/
structure SameService (noColor : Nat) (writeColors : Bool) (routes routes' : List (Route A)) (trips trips' : List (TripRow X)) :
    Prop where
  /-- the trips are the same -/
  same : (trips'.map fun t => (t.id, t.rest)).Perm (trips.map fun t => (t.id, t.rest))
  /-- route ids are unique, and no route is lost -/
  ids : (routes'.map (·.id)).Nodup
  kept : ∀ R ∈ routes, ∃ R' ∈ routes', R'.id = R.id ∧ R'.rest = R.rest ∧ ColorOk noColor writeColors R R'
  /-- the route of each trip is in the feed, and is that of the input except for id and colour -/
  route : ∀ t ∈ trips, ∀ t' ∈ trips', t'.id = t.id → ∃ R ∈ routes, R.id = t.route ∧ ∃ R' ∈ routes', R'.id = t'.route ∧
    R'.rest = R.rest ∧ ColorOk noColor writeColors R R' ∧
    -- either the trip stays on its route, or this is a new one
    (t'.route = t.route ∨ writeColors = true ∧ R.color = noColor ∧ R'.color ≠ noColor ∧ R'.id ∉ routes.map (·.id))

end Verif.Content
