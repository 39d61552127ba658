import Verif.Graph.Collapse

/-!
# Searching stations and blockers along the tracks (model)

Model of `OsmBuilder::depthSearch`, `src/pfaedle/osm/OsmBuilder.cpp:1196-1259`, `isBlocked` and `eqStatReach` (1262-1271) and of
`NodeCand`, `src/pfaedle/osm/OsmBuilder.h:48-76`. Distances are values of a type `D` with the laws of `Dist`, which hold for doubles
(not a number excepted) as well as for exact numbers.
-/

namespace Verif.Search
open Verif.Collapse

/-- A linear order with a monotone addition. -/
class Dist (D : Type) extends LE D, LT D, Add D where
  le_refl : ∀ a : D, a ≤ a
  le_trans : ∀ a b c : D, a ≤ b → b ≤ c → a ≤ c
  le_total : ∀ a b : D, a ≤ b ∨ b ≤ a
  lt_iff : ∀ a b : D, a < b ↔ ¬ b ≤ a
  add_mono : ∀ a b c : D, a ≤ b → a + c ≤ b + c
  decLe : ∀ a b : D, Decidable (a ≤ b)
  decLt : ∀ a b : D, Decidable (a < b)

instance {D : Type} [Dist D] (a b : D) : Decidable (a ≤ b) := Dist.decLe a b
instance {D : Type} [Dist D] (a b : D) : Decidable (a < b) := Dist.decLt a b

variable {N P D : Type} [DecidableEq N] [Dist D]

/-- What is given: the edges, their lengths (`dist(edg->getFrom(), edg->getTo())`), `sharp f n c`: coming over edge `f`, the turn at `n`
to the neighbour `c` has an angle below `minAngle` (1234-1239), and the parameters. -/
structure Env (N P D : Type) where
  es : List (Edg N P)
  len : Edg N P → D
  sharp : Edg N P → N → N → Bool
  maxD : D
  maxTurns : Int
  sfunc : N → Bool

/-- OsmBuilder.h:48-53. -/
structure Cand (N P D : Type) where
  dist : D
  node : N
  edge : Edg N P
  turns : Int

/-- OsmBuilder.h:72-74. -/
def Cand.less (a b : Cand N P D) : Bool := decide (a.turns > b.turns) || decide (b.dist < a.dist)

/-- 1218-1228: incoming edges first. -/
def nbrs (es : List (Edg N P)) (n : N) : List (Edg N P × N) :=
  (ins es n).map (fun e => (e, e.src)) ++ (outs es n).map fun e => (e, e.dst)

/-- 1232-1242. -/
def fullTurn (v : Env N P D) (cur : Cand N P D) (c : N) : Int :=
  if decide ((nbrs v.es cur.node).length > 2) && v.sharp cur.edge cur.node c then 1 else 0

/-- 1246-1248. -/
def allowed (v : Env N P D) (cur : Cand N P D) (closed : List N) (x : Edg N P × N) : Bool :=
  (decide (v.maxTurns < 0) || decide (cur.turns + fullTurn v cur x.2 ≤ v.maxTurns)) &&
    decide (cur.dist + v.len x.1 < v.maxD) && decide (x.2 ∉ closed)

/-- 1218-1255: the edges of the current node; either a node is found, or the queue is extended. -/
def expand (v : Env N P D) (cur : Cand N P D) (closed : List N) : List (Edg N P × N) → List (Cand N P D) → N ⊕ List (Cand N P D)
  | [], q => .inr q
  | x :: xs, q =>
    if x.2 = cur.node then expand v cur closed xs q
    else if allowed v cur closed x then
      if v.sfunc x.2 then .inl x.2
      else expand v cur closed xs (⟨cur.dist + v.len x.1, x.2, x.1, cur.turns + fullTurn v cur x.2⟩ :: q)
    else expand v cur closed xs q

/-- 1212-1256: the loop; `pick` yields the element on top of the queue and the others. Outer `none`: out of fuel, inner `none`: null. -/
def loop (v : Env N P D) (pick : List (Cand N P D) → Option (Cand N P D × List (Cand N P D))) :
    Nat → List (Cand N P D) → List N → Option (Option N)
  | 0, _, _ => none
  | k + 1, q, closed =>
    match pick q with
    | none => some none
    | some (cur, q') =>
      if cur.node ∈ closed then loop v pick k q' closed
      else
        match expand v cur (cur.node :: closed) (nbrs v.es cur.node) q' with
        | .inl n => some (some n)
        | .inr q'' => loop v pick k q'' (cur.node :: closed)

/-- Enough fuel: each edge is looked at from both of its ends at most once. -/
def fuel (v : Env N P D) : Nat := 2 * v.es.length + 3

/-- 1196-1259. -/
def depthSearch (v : Env N P D) (pick : List (Cand N P D) → Option (Cand N P D × List (Cand N P D))) (e : Edg N P) (dFrom dTo : D) :
    Option (Option N) :=
  if v.maxD < dFrom ∧ v.maxD < dTo then some none
  else if dFrom ≤ v.maxD ∧ v.sfunc e.src = true then some (some e.src)
  else if dTo ≤ v.maxD ∧ v.sfunc e.dst = true then some (some e.dst)
  else loop v pick (fuel v) (⟨dFrom, e.src, e, 0⟩ :: if e.src = e.dst then [] else [⟨dTo, e.dst, e, 0⟩]) []

end Verif.Search
