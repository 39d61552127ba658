import Verif.Names.Model

/-!
# Transition costs and the distance heuristic (model)

Model of `ExpoTransWeight::CostFunc` and `DistHeur`, `src/pfaedle/router/Weights.cpp:15-172`,
`Weights.h:25-80`. The other weight classes inherit both.
-/

namespace Verif.Weights
open Verif.Names (LineSim)

/-- A punish factor (`double`): how it compares to 1 and what `ceil(c * f)` (if `f < 1`) or
`round(c * f)` (if `f > 1`) is, before the conversion back to 32 bits. -/
structure Factor where
  cls : Ordering
  mul : Nat → Nat

/-- What the cost function reads: RoutingOpts, RoutingAttrs, the graph and the Restrictor. All of
this is constant while a cost function object exists. -/
structure Env (E N L : Type) where
  cost : E → UInt32
  lines : E → List L
  /-- RoutingAttrs.h:48-78 (a cache, see C27) -/
  simi : L → LineSim
  /-- no short name, origin and destinations -/
  noAttrs : Bool
  src : E → N
  dst : E → N
  turnCycle : N → Bool
  deg : N → Nat
  /-- Weights.cpp:136-139: the angle test -/
  sharp : N → E → E → Bool
  restricted : E → Bool
  may : E → E → N → Bool
  fullTurn : UInt32
  turnRestr : UInt32
  name : Factor
  fr : Factor
  to : Factor

variable {E N L : Type}

/-- Weights.h:50-51. -/
structure St (E : Type) where
  lastFrom : Option E
  lastC : UInt32

/-- Weights.h:35, 51. -/
def St.init : St E := ⟨none, 0⟩

/-- RoutingAttrs.h:25-28. -/
def LineSim.cnt (s : LineSim) : Nat := s.name.toNat + s.fr.toNat + s.to.toNat

/-- Weights.cpp:165-169. -/
def bestLoop (simi : L → LineSim) : LineSim → List L → LineSim
  | best, [] => best
  | best, l :: ls =>
    let s := simi l
    if s.name && s.to && s.fr then s
    else bestLoop simi (if LineSim.cnt best < LineSim.cnt s then s else best) ls

/-- Weights.cpp:158-172. -/
def transitLineSimi (env : Env E N L) (e : E) : LineSim :=
  if env.noAttrs then ⟨true, true, true⟩ else bestLoop env.simi ⟨false, false, false⟩ (env.lines e)

/-- Weights.h:36-42: `_noLineSimiPen`. -/
def noPen (env : Env E N L) : Bool := env.noAttrs || env.name.cls == .eq

/-- Weights.cpp:82-90, 94-103, 107-116; `none` is the early return of the maximum. -/
def punish (f : Factor) (c : UInt32) : Option UInt32 :=
  match f.cls with
  | .lt => some (UInt32.ofNat (f.mul c.toNat))
  | .eq => some c
  | .gt => if f.mul c.toNat > 4294967295 then none else some (UInt32.ofNat (f.mul c.toNat))

/-- Weights.cpp:79-117. -/
def lineCost (env : Env E N L) (e : E) (c : UInt32) : Option UInt32 :=
  let s := transitLineSimi env e
  match (if s.name then some c else punish env.name c) with
  | none => none
  | some c =>
    match (if s.fr then some c else punish env.fr c) with
    | none => none
    | some c => if s.to then some c else punish env.to c

/-- The arguments of a call: without edge, without node (`n = 0`, `to = 0`), or a turn. A call
with a node but without `to` would dereference null; there is none in the program. -/
inductive Query (E N : Type) where
  | none
  | edge (from_ : E)
  | turn (from_ : E) (n : N) (to : E)

/-- Weights.cpp:126-144: the punishment for turns, `none` is the early return. -/
def fullTurn [DecidableEq N] (env : Env E N L) (a : E) (n : N) (b : E) (c : UInt32) : Option UInt32 :=
  if env.fullTurn ≠ 0 ∧ env.src a = env.dst b ∧ env.dst a = env.src b then
    if c + env.fullTurn ≤ c then none else some (c + env.fullTurn)
  else if env.fullTurn ≠ 0 ∧ env.deg n > 2 then
    if env.sharp n a b then
      if c + env.fullTurn ≤ c then none else some (c + env.fullTurn)
    else some c
  else some c

/-- Weights.cpp:147-151. -/
def turnRestr (env : Env E N L) (a : E) (n : N) (b : E) (c : UInt32) : Option UInt32 :=
  if env.turnRestr > 0 && env.restricted a && !env.may a b n then
    if c + env.turnRestr ≤ c then none else some (c + env.turnRestr)
  else some c

/-- Weights.cpp:123-154. -/
def turnCost [DecidableEq N] (env : Env E N L) (a : E) (c : UInt32) : Option (N × E) → UInt32
  | none => c
  | some (n, b) =>
    if env.turnCycle n then c
    else match fullTurn env a n b c with
      | none => 4294967295
      | some c => match turnRestr env a n b c with
        | none => 4294967295
        | some c => c

/-- Weights.cpp:70-154 with a non-null `from`. -/
def callFrom [DecidableEq E] [DecidableEq N] (env : Env E N L) (st : St E) (a : E) (t : Option (N × E)) :
    UInt32 × St E :=
  let c := env.cost a
  if c = 4294967295 then (c, st)
  else if st.lastFrom = some a then (turnCost env a st.lastC t, st)
  else if noPen env then (turnCost env a c t, st)
  else match lineCost env a c with
    | none => (4294967295, st)
    | some c => (turnCost env a c t, ⟨some a, c⟩)

/-- Weights.cpp:65-155. -/
def call [DecidableEq E] [DecidableEq N] (env : Env E N L) (st : St E) : Query E N → UInt32 × St E
  | .none => (0, st)
  | .edge a => callFrom env st a none
  | .turn a n b => callFrom env st a (some (n, b))

/-! ### the heuristic -/

/-- Constant part of `DistHeur`; `dist a` is the distance of the start of edge `a` to the centre
of the targets; `cent` is `_maxCentD`. -/
structure Heur (E : Type) where
  dist : E → Rat
  maxV : Rat
  cent : Rat

/-- Weights.cpp:32-37: the greatest distance of a target to the centre, divided by the speed. -/
def maxCentD (dist : E → Rat) (maxV : Rat) (tos : List E) : Rat :=
  tos.foldl (fun m e => if dist e > m then dist e else m) 0 / maxV

/-- Weights.cpp:50-61; the conversion to 32 bits cuts off. -/
def heur (h : Heur E) (a : E) : UInt32 :=
  let v := max 0 ((h.dist a / h.maxV - h.cent) * 10)
  if v > 4294967295 then 4294967295 else UInt32.ofNat v.floor.toNat

/-- Weights.cpp:41-62 with the memo `_lastE`, `_lastC`. -/
def heurCall [DecidableEq E] (h : Heur E) (st : St E) (a : E) : UInt32 × St E :=
  if st.lastFrom = some a then (st.lastC, st)
  else (heur h a, ⟨some a, heur h a⟩)

end Verif.Weights
