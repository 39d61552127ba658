import Verif.Shapes.Ids

/-!
# Splitting routes by colour (model)

Model of the collection of colours in `ShapeBuilder::shapeify`
(`src/pfaedle/router/ShapeBuilder.cpp:402-416, 452-466`) and `shapeWorker` (1203-1212), and of
`updateRouteColors` (489-545).

A pointer to a route or trip is its index. `RouteRefColors` is a `std::map` of `std::map`s; here the keys are
kept in ascending order. The order of the routes is that of the addresses in the program: the
properties hold for every order. Which colour a leaf was matched with is an input (see the area
`Line`), the containers of the feed (not part of the repository) are lists: adding a route
appends it and leaves the addresses of the others alone, adding a fare rule appends it.
-/

namespace Verif.Color
open Verif.Shapes (Str digits)

structure Route (A : Type) where
  id : Str
  color : Nat
  text : Nat
  rest : A
  deriving DecidableEq, Repr

structure Rule (B : Type) where
  route : Option Nat
  rest : B
  deriving DecidableEq, Repr

/-- The routes, the route of each trip, and the rules of each fare. -/
structure Feed (A B : Type) where
  routes : List (Route A)
  trips : List Nat
  fares : List (List (Rule B))
  deriving DecidableEq, Repr

/-- A `Trip*`: a trip of the feed, or the address of a variable that is gone. -/
inductive Ref where
  | live (t : Nat)
  | dangling
  deriving DecidableEq, Repr

/-- `RouteRefColors`, `src/pfaedle/router/ShapeBuilder.h:43-45`. -/
abbrev Refs := List (Nat × List (Nat × List Ref))

/-- `m[c].insert(end, ts)` in the inner map. -/
def addCol (c : Nat) (ts : List Ref) : List (Nat × List Ref) → List (Nat × List Ref)
  | [] => [(c, ts)]
  | (c', ts') :: m =>
    if c = c' then (c', ts' ++ ts) :: m
    else if c < c' then (c, ts) :: (c', ts') :: m
    else (c', ts') :: addCol c ts m

/-- `m[r][c].insert(end, ts)`. -/
def addRef (r c : Nat) (ts : List Ref) : Refs → Refs
  | [] => [(r, [(c, ts)])]
  | (r', cs) :: m =>
    if r = r' then (r', addCol c ts cs) :: m
    else if r < r' then (r, [(c, ts)]) :: (r', cs) :: m
    else (r', cs) :: addRef r c ts m

/-- ShapeBuilder.cpp:405-416. `keep t`: the trip has two stop times, a mode that is served, and a
shape that is kept (409-414). `auto t` is a copy that lives for one round of the loop, so that `&t` is
dangling when it is used. `none`: a trip without route (undefined behaviour). -/
def collect0 {A B : Type} (F : Feed A B) (keep : Nat → Bool) : List Nat → Refs → Option Refs
  | [], m => some m
  | t :: ts, m =>
    if keep t then
      match F.trips[t]? with
      | none => none
      | some r =>
        match F.routes[r]? with
        | none => none
        | some R => collect0 F keep ts (addRef r R.color [.dangling] m)
    else collect0 F keep ts m

/-- ShapeBuilder.cpp:1203-1212, the trips of one leaf with matched colour `color`. -/
def collectLeaf {A B : Type} (F : Feed A B) (noColor : Nat) (writeColors : Bool) (color : Nat) :
    List Nat → Refs → Option Refs
  | [], m => some m
  | t :: ts, m =>
    match F.trips[t]? with
    | none => none
    | some r =>
      match F.routes[r]? with
      | none => none
      | some R =>
        collectLeaf F noColor writeColors color ts
          (if writeColors ∧ color ≠ noColor ∧ R.color = noColor ∧ R.text = noColor
           then addRef r color [.live t] m else addRef r R.color [.live t] m)

/-- One thread: the leafs it works on, in order. -/
def collectThread {A B : Type} (F : Feed A B) (noColor : Nat) (writeColors : Bool) :
    List (Nat × List Nat) → Refs → Option Refs
  | [], m => some m
  | l :: ls, m =>
    match collectLeaf F noColor writeColors l.1 l.2 m with
    | none => none
    | some m => collectThread F noColor writeColors ls m

/-- ShapeBuilder.cpp:454-460: one thread's colours. -/
def merge (m : Refs) (cols : Refs) : Refs :=
  cols.foldl (fun m rc => rc.2.foldl (fun m ct => addRef rc.1 ct.1 ct.2 m) m) m

/-- ShapeBuilder.cpp:436-462: all threads. -/
def collectAll {A B : Type} (F : Feed A B) (noColor : Nat) (writeColors : Bool) :
    List (List (Nat × List Nat)) → Refs → Option Refs
  | [], m => some m
  | th :: ths, m =>
    match collectThread F noColor writeColors th [] with
    | none => none
    | some cols => collectAll F noColor writeColors ths (merge m cols)

/-- `route->getId() + "::" + std::to_string(k)`. -/
def splitId (id : Str) (k : Nat) : Str := id ++ [58, 58] ++ digits k

/-- ShapeBuilder.cpp:519-525; `fuel` bounds the number of rounds. -/
def freeId (ids : List Str) (id : Str) : Nat → Nat → Option Str
  | 0, _ => none
  | fuel + 1, k => if splitId id k ∈ ids then freeId ids id fuel (k + 1) else some (splitId id k)

/-- ShapeBuilder.cpp:534: `none` if a pointer is dangling. -/
def setTrips (j : Nat) : List Ref → List Nat → Option (List Nat)
  | [], trips => some trips
  | .dangling :: _, _ => none
  | .live t :: ts, trips => if t < trips.length then setTrips j ts (trips.set t j) else none

/-- ShapeBuilder.cpp:504-510. -/
def rulesOf {B : Type} (r : Nat) (fares : List (List (Rule B))) : List (Nat × Rule B) :=
  fares.zipIdx.flatMap fun f => (f.1.filter (fun x => x.route = some r)).map fun x => (f.2, x)

/-- ShapeBuilder.cpp:537-541. -/
def addRules {B : Type} (j : Nat) (rules : List (Nat × Rule B)) (fares : List (List (Rule B))) : List (List (Rule B)) :=
  rules.foldl (fun fares a => fares.modify a.1 (· ++ [{ a.2 with route := some j }])) fares

/-- ShapeBuilder.cpp:512-542: the colours of a route that is split. -/
def splitGo {A B : Type} (textColor : Nat → Nat) (r : Nat) (rules : List (Nat × Rule B)) :
    List (Nat × List Ref) → Feed A B → Option (Feed A B)
  | [], F => some F
  | (c, ts) :: cs, F =>
    match F.routes[r]? with
    | none => none
    | some R =>
      if c = R.color then splitGo textColor r rules cs F
      else
        match freeId (F.routes.map (·.id)) R.id (F.routes.length + 1) 1 with
        | none => none
        | some newId =>
          let j := F.routes.length
          let routes := F.routes ++ [{ R with id := newId, color := c, text := textColor c }]
          match setTrips j ts F.trips with
          | none => none
          | some trips => splitGo textColor r rules cs ⟨routes, trips, addRules j rules F.fares⟩

/-- ShapeBuilder.cpp:490-544, one route. -/
def updRoute {A B : Type} (noColor : Nat) (textColor : Nat → Nat) (r : Nat) (cs : List (Nat × List Ref)) (F : Feed A B) :
    Option (Feed A B) :=
  match cs with
  | [(c, _)] =>
    match F.routes[r]? with
    | none => none
    | some R =>
      some { F with routes := F.routes.set r { R with color := c, text := if c ≠ noColor then textColor c else R.text } }
  | cs => splitGo textColor r (rulesOf r F.fares) cs F

/-- ShapeBuilder.cpp:489-545 `updateRouteColors`. -/
def updateRouteColors {A B : Type} (noColor : Nat) (textColor : Nat → Nat) : Refs → Feed A B → Option (Feed A B)
  | [], F => some F
  | (r, cs) :: m, F =>
    match updRoute noColor textColor r cs F with
    | none => none
    | some F => updateRouteColors noColor textColor m F

/-- ShapeBuilder.cpp:402-466: collect the colours and update the routes. -/
def colorRoutes {A B : Type} (noColor : Nat) (textColor : Nat → Nat) (writeColors : Bool) (keep : Nat → Bool)
    (threads : List (List (Nat × List Nat))) (F : Feed A B) : Option (Feed A B) :=
  match collect0 F keep (List.range F.trips.length) [] with
  | none => none
  | some m =>
    match collectAll F noColor writeColors threads m with
    | none => none
    | some m => updateRouteColors noColor textColor m F

end Verif.Color
