import Verif.Router.Model

/-!
# Candidate table of a trip trie (model)

Model of `ShapeBuilder::getECM`, `timeExpand`, `src/pfaedle/router/ShapeBuilder.cpp:770-851`.
-/

namespace Verif.Router
open Verif.Trie (Nd)
variable {E C X P A : Type}

/-- A candidate as returned by `getEdgCands`: no time, no predecessors (ShapeBuilder.cpp:168,
224-229, 264-269). -/
structure Cand0 (E C X : Type) where
  e : Option E
  pen : C
  x : X

/-- What `getECM` uses: the candidates of a node (`getEdgCands` of its stop), `timePen`
(827-835) and the addition of `double`s. -/
structure Gen (E C X : Type) where
  cands : Nat → List (Cand0 E C X)
  timePen : Int → Int → C
  add : C → C → C

/-- ShapeBuilder.cpp:782, 795: `accTime / trips` is a division of an `int` by a `size_t`:
negative sums of times wrap. The quotient is then converted to `double` (rounding of numbers
above 2^53 is left out) and to `int`. -/
def avgTime (n : Nd P A) : Int :=
  if n.trips = 0 then 0
  else if 0 ≤ n.accTime then n.accTime / n.trips else (n.accTime + 18446744073709551616) / n.trips

/-- All conversions to `int` are defined (otherwise `getECM` has undefined behaviour). -/
def timesDefined (nds : List (Nd P A)) : Bool := (nds.drop 1).all fun n => decide (avgTime n < 2147483648)

/-- ShapeBuilder.cpp:838-851: `x.2` is `EdgeCand::time`. -/
def timeExpand (g : Gen E C X) (c : Cand0 E C X) (time : Int) : List (Cand E C (X × Int)) :=
  (List.range 1).map fun (i : Nat) => ⟨c.e, g.add c.pen (g.timePen (time + (i : Int) * 30) time), (c.x, time + (i : Int) * 30), []⟩

abbrev Ecm (E C X : Type) := Nat → List (Cand E C (X × Int))

/-- ShapeBuilder.cpp:800-814: the candidate of the departure node for the candidate `c` of the
arrival node; `base` is the number of candidates of the arrival node so far. -/
def depCand (g : Gen E C X) (tes : List (Cand E C (X × Int))) (base : Nat) (avgT avgC : Int)
    (c : Cand E C (X × Int)) : Cand E C (X × Int) :=
  let diff := avgC - avgT
  let time := c.x.2 + (if diff < 0 then 0 else diff)
  { c with
    x := (c.x.1, time)
    pen := g.timePen c.x.2 avgC
    depPrede := c.depPrede ++ (List.range tes.length).filterMap fun k =>
      match tes[k]? with
      | none => none
      | some s => if s.x.2 ≤ time then some (k + base) else none }

/-- ShapeBuilder.cpp:791-816: the children of node `nid`. -/
def ecmChilds (g : Gen E C X) (nds : List (Nd P A)) (nid : Nat) (avgT : Int) (tes : List (Cand E C (X × Int)))
    (ecm : Ecm E C X) (childs : List Nat) : Ecm E C X :=
  if nid = 1 then ecm
  else childs.foldl (fun ecm ch =>
    match nds[ch]? with
    | none => ecm
    | some n => fun i => if i = ch then ecm ch ++ tes.map (depCand g tes (ecm nid).length avgT (avgTime n))
        else ecm i) ecm

/-- ShapeBuilder.cpp:787-819: one candidate of node `nid`. -/
def ecmCand (g : Gen E C X) (nds : List (Nd P A)) (nid : Nat) (n : Nd P A) (ecm : Ecm E C X)
    (c : Cand0 E C X) : Ecm E C X :=
  let tes := timeExpand g c (avgTime n)
  let ecm' := ecmChilds g nds nid (avgTime n) tes ecm n.childs
  fun i => if i = nid then ecm' nid ++ tes else ecm' i

/-- ShapeBuilder.cpp:774-822. -/
def ecmNode (g : Gen E C X) (nds : List (Nd P A)) (ecm : Ecm E C X) (nid : Nat) : Ecm E C X :=
  match nds[nid]? with
  | none => ecm
  | some n =>
    if nid ≠ 1 && !n.arr then ecm
    else (g.cands nid).foldl (ecmCand g nds nid n) ecm

/-- ShapeBuilder.cpp:770-824. -/
def getECM (g : Gen E C X) (nds : List (Nd P A)) : Option (Ecm E C X) :=
  if timesDefined nds then
    some ((List.range' 1 (nds.length - 1)).foldl (ecmNode g nds) fun _ => [])
  else none

end Verif.Router
