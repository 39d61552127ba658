import Verif.BBoxIdx.Model
import Init.Data.Rat.Lemmas
/-!
# The area of a feed (model)

Model of `getGtfsBox` (`src/pfaedle/router/ShapeBuilder.cpp:656-728`) and `writeMotStops` (`router/Misc.h:126-148`). Distances
(`util::geo::haversine`, in metres) are a parameter, doubles are exact rationals. Coordinates are integers as in the model of the index
of boxes. Padding of boxes by `BBoxIdx::add` (`osm/BBoxIdx.cpp:13-21`) is a parameter.
-/

namespace Verif.Area
open Verif.BBoxIdx (Pt Box)

/-- Stops. -/
structure Env (S : Type) where
  pos : S → Pt
  dist : S → S → Rat
  /-- the parent station of an entrance -/
  parent : S → Option S

/-- A stop time; times in seconds. -/
structure ST (S : Type) where
  stop : S
  arr : Int
  dep : Int

/-- A trip. -/
structure Trip (S : Type) where
  id : List Nat
  hasShape : Bool
  mot : Nat
  sts : List (ST S)

variable {S : Type}

/-- `std::numeric_limits<int>::max()` -/
def intMax : Int := 2147483647

/-- ShapeBuilder.cpp:674-685: time and distance from the previous stop; the default values at the first one. -/
def toPrev (env : Env S) (sts : List (ST S)) (i : Nat) (st : ST S) : Int × Rat :=
  if i > 0 then
    match sts[i - 1]? with
    | some prev => (st.arr - prev.dep, env.dist st.stop prev.stop)
    | none => (intMax, 0)
  else (intMax, 0)

/-- ShapeBuilder.cpp:687-694. -/
def toNext (env : Env S) (sts : List (ST S)) (i : Nat) (st : ST S) : Int × Rat :=
  if i < sts.length - 1 then
    match sts[i + 1]? with
    | some next => (next.arr - st.dep, env.dist st.stop next.stop)
    | none => (intMax, 0)
  else (intMax, 0)

/-- ShapeBuilder.cpp:696-703: too far for the time, with `MAX_ROUTE_COST_DOUBLING_STEPS = 3` (Router.h:35). -/
def tooFar (maxSpeed : Rat) (x : Int × Rat) : Bool := decide (x.2 / maxSpeed > (300 + (x.1 : Rat)) * 3 * 3)

/-- ShapeBuilder.cpp:701-703. -/
def skipped (env : Env S) (maxSpeed : Rat) (sts : List (ST S)) (i : Nat) (st : ST S) : Bool :=
  tooFar maxSpeed (toPrev env sts i st) && tooFar maxSpeed (toNext env sts i st)

/-- `util::geo::extendBox(Point, Box)`; the empty box is `none`. -/
def extendPt (p : Pt) : Option Box → Box
  | none => ⟨p.x, p.y, p.x, p.y⟩
  | some b => ⟨min p.x b.x1, min p.y b.y1, max p.x b.x2, max p.y b.y2⟩

/-- ShapeBuilder.cpp:669-724: the box of a trip; `i` is the index of the first stop time of `rest`. -/
def boxLoop (env : Env S) (maxSpeed : Rat) (sts : List (ST S)) : Nat → Option Box → List (ST S) → Option Box
  | _, cur, [] => cur
  | i, cur, st :: rest =>
    boxLoop env maxSpeed sts (i + 1) (if skipped env maxSpeed sts i st then cur else some (extendPt (env.pos st.stop) cur)) rest

/-- ShapeBuilder.cpp:662-666: is the trip looked at? -/
def looked (mots : List Nat) (tid : List Nat) (dropShapes : Bool) (t : Trip S) : Bool :=
  if !tid.isEmpty && t.id != tid then false
  else if tid.isEmpty && t.hasShape && !dropShapes then false
  else if t.sts.length < 2 then false
  else mots.contains t.mot

/-- ShapeBuilder.cpp:656-728: the boxes that are added, in order. -/
def gtfsBoxes (env : Env S) (mots : List Nat) (tid : List Nat) (dropShapes : Bool) (maxSpeed : Rat) (trips : List (Trip S)) :
    List (Option Box) :=
  trips.filterMap fun t => if looked mots tid dropShapes t then some (boxLoop env maxSpeed t.sts 0 none t.sts) else none

/-- ShapeBuilder.cpp:684: the distances of hops. -/
def hopLoop (env : Env S) : List (ST S) → List Rat
  | a :: b :: rest => env.dist b.stop a.stop :: hopLoop env (b :: rest)
  | _ => []

/-- The distances of hops of all trips. -/
def hopDists (env : Env S) (mots : List Nat) (tid : List Nat) (dropShapes : Bool) (trips : List (Trip S)) : List Rat :=
  trips.flatMap fun t => if looked mots tid dropShapes t then hopLoop env t.sts else []

/-- Misc.h:126-148: the keys of the result, possibly several times. -/
def motStops (env : Env S) (mots : List Nat) (tid : List Nat) (trips : List (Trip S)) : List S :=
  trips.flatMap fun t =>
    if !tid.isEmpty && t.id != tid then []
    else if mots.contains t.mot then t.sts.map fun st => (env.parent st.stop).getD st.stop
    else []

end Verif.Area
