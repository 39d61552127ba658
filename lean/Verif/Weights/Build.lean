import Verif.Weights.Props

/-!
# Edge costs written into the graph, and the speed bound of the heuristic (model)

`src/pfaedle/osm/OsmBuilder.cpp` (`writeGeoms`, `writeOneWayPens`, `writeNoLinePens`,
`costToInt`) and `config/MotConfigReader.cpp:598-624`. `double` is modelled by exact rationals:
rounding errors are not covered.
-/

namespace Verif.Weights

/-- OsmBuilder.cpp:1870-1883. The conversion of a too large value to 32 bits (1875), whose result
is not used, is undefined in C++ and left out. -/
def costToInt (c : Rat) : UInt32 :=
  if (c * 10).ceil > 4294967295 then 4294967295 else UInt32.ofNat (c * 10).ceil.toNat

/-- Options that influence costs. -/
structure Opts where
  name : Rat
  fr : Rat
  to : Rat
  noLines : Rat
  oneWayPen : Rat
  oneWayEntry : Rat

/-- OsmBuilder.cpp:1116 (`writeGeoms`). -/
def geomCost (len speed : Rat) : UInt32 := costToInt (len / speed)

/-- OsmBuilder.cpp:1789-1794 (`writeOneWayPens`); `wrong` is `oneWay() == 2`. -/
def oneWayCost (o : Opts) (wrong : Bool) (c : UInt32) : UInt32 :=
  if wrong then costToInt ((c.toNat : Rat) / 10 * o.oneWayPen + o.oneWayEntry) else c

/-- OsmBuilder.cpp:163-166, 1776-1780 (`writeNoLinePens`); `lone` is `getLines().size() == 0`. -/
def noLineCost (o : Opts) (lone : Bool) (c : UInt32) : UInt32 :=
  if o.noLines ≠ 1 ∧ lone = true then costToInt ((c.toNat : Rat) / 10 * o.noLines) else c

/-- MotConfigReader.cpp:602-622. -/
def corFac (o : Opts) : Rat :=
  let f : Rat := 1
  let f := if o.name < 1 then f * o.name else f
  let f := if o.fr < 1 then f * o.fr else f
  let f := if o.to < 1 then f * o.to else f
  let f := if o.noLines < 1 then f * o.noLines else f
  if o.oneWayPen < 1 then f * o.oneWayPen else f

/-- The factor of the cost function (Weights.cpp:82-90) with exact arithmetic. -/
def Factor.ofQ (f : Rat) : Factor :=
  { cls := if f < 1 then .lt else if f = 1 then .eq else .gt
    mul := fun c => if f < 1 then ((c : Rat) * f).ceil.toNat else ((c : Rat) * f + 1 / 2).floor.toNat }

end Verif.Weights
