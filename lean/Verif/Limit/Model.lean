import Verif.Router.Ecm
import Verif.Weights.Build

/-!
# The first maximum cost of a hop, and transition weights (model)

`src/pfaedle/router/Router.tpp:55-62` and `83-96`, `src/pfaedle/router/Weights.cpp:176-259`. `double` is modelled by exact rationals with the
values infinity and "not a number". A conversion to `uint32_t` that C++ leaves undefined is `none`.
-/

namespace Verif.Limit

open Verif.Trie (Nd)

variable {E C X P A : Type}

/-- A `double`. Negative infinity does not occur. -/
inductive Dbl where
  | fin (x : Rat)
  | inf
  | nan

/-- Division of a number that is not negative by a number that is not negative. -/
def Dbl.quot (a b : Rat) : Dbl := if b = 0 then (if a = 0 then .nan else .inf) else .fin (a / b)

/-- `a < b`. -/
def Dbl.below (a : Rat) : Dbl → Bool
  | .fin b => decide (a < b)
  | .inf => true
  | .nan => false

/-- `fmax(x, y)` with a number `y`. -/
def Dbl.fmax (y : Rat) : Dbl → Dbl
  | .fin x => .fin (if x < y then y else x)
  | .inf => .inf
  | .nan => .fin y

/-- Conversion to `uint32_t` (the fraction is cut off); `none`: undefined. -/
def toU32 : Dbl → Option UInt32
  | .fin x => if -1 < x ∧ x < 4294967296 then some (UInt32.ofNat x.floor.toNat) else none
  | _ => none

/-- Router.tpp:55-62: the greatest speed of the components of the candidates; `speed` is `getFrom()->pl().getComp().maxSpeed`. -/
def maxSpeed (speed : E → Rat) (cands : List (Router.Cand E C X)) : Rat :=
  cands.foldl (fun m c => match c.e with
    | none => m
    | some e => if m < speed e then speed e else m) 0

/-- Router.tpp:83-94: the time of the hop between two nodes of the trie; `dist` is the distance of their stops. -/
def hopTime (v dist : Rat) (fr to : Nd P A) : Dbl :=
  let minTime := Dbl.quot dist v
  let t : Rat := ((Router.avgTime to : Int) : Rat) - ((Router.avgTime fr : Int) : Rat)
  if Dbl.below t minTime then minTime else .fin t

/-- Weights.cpp:189-195 (`ExpoTransWeight::maxCost`, inherited by `NormDistrTransWeight`): multiplication of infinity or "not a number" with
the factors does not give a number. -/
def maxCost (o : Weights.Opts) (t : Dbl) : Option UInt32 :=
  match Dbl.fmax 60 t with
  | .fin x => toU32 (.fin (x * 3 * o.name * o.to * o.fr * 10).ceil)
  | _ => none

/-- Weights.cpp:255-259 (`DistDiffTransWeight::maxCost`). -/
def maxCostDist : UInt32 := 4294967295

/-- Router.tpp:96 for the node `nid` with the parent node `par`. -/
def limit0 (o : Weights.Opts) (speed : E → Rat) (dist : Nat → Nat → Rat) (nds : List (Nd P A)) (ecm : Nat → List (Router.Cand E C X))
    (par nid : Nat) : Option UInt32 :=
  match nds[par]?, nds[nid]? with
  | some fr, some to => maxCost o (hopTime (maxSpeed speed (ecm par)) (dist par nid) fr to)
  | _, _ => none

/-- Weights.cpp:176-182 (`ExpoTransWeight::weight`). -/
def weight (pen : Rat) (c : UInt32) : Rat := pen * (c.toNat : Rat) / 10

/-- Weights.cpp:185-187 (`ExpoTransWeight::invWeight`): `round` rounds halves away from zero. -/
def invWeight (pen c : Rat) : Option UInt32 :=
  match Dbl.quot c pen with
  | .fin x => toU32 (.fin ((x * 10 + 1 / 2).floor : Int))
  | _ => none

/-- Weights.cpp:201-225 (`NormDistrTransWeight::weight`); `none` is infinity. -/
def weightNorm (pen : Rat) (c : UInt32) (t0 : Rat) : Option Rat :=
  if t0 < 0 then none
  else
    let t0 := if t0 < 10 then 10 else t0
    let n := ((c.toNat : Rat) / 10) / t0 - 1
    some (n * n + weight pen c)

/-- Weights.cpp:238-247 (`DistDiffTransWeight::weight`). -/
def weightDist (pen d d0 : Rat) : Rat := pen * (if d - d0 < 0 then d0 - d else d - d0)

end Verif.Limit
