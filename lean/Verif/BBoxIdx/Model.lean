/-!
# Bounding box index (model)

Model of `src/pfaedle/osm/BBoxIdx.cpp`/`.h`. Coordinates are integers: only comparisons,
minima and maxima of coordinates are used, and these are exact on doubles (NaN is
excluded). `util::geo::minbox` (the box extended by any box to that box, containing
nothing) is `none`. `util::geo::commonArea` is a parameter of the insertion, `util::geo::pad`
is applied by the caller of the model.
-/

namespace Verif.BBoxIdx

structure Pt where
  x : Int
  y : Int
deriving DecidableEq

structure Box where
  x1 : Int
  y1 : Int
  x2 : Int
  y2 : Int
deriving DecidableEq

/-- BBoxIdx.h:18-23. -/
inductive Nd where
  | mk (box : Option Box) (childs : List Nd)

def Nd.box : Nd → Option Box
  | .mk b _ => b

def Nd.childs : Nd → List Nd
  | .mk _ c => c

/-- `util::geo::contains(Point, Box)`: closed box. -/
def contains (p : Pt) : Option Box → Bool
  | none => false
  | some b => decide (b.x1 ≤ p.x ∧ p.x ≤ b.x2 ∧ b.y1 ≤ p.y ∧ p.y ≤ b.y2)

/-- `util::geo::extendBox(Box, Box)`. -/
def extendBox (a : Box) : Option Box → Box
  | none => a
  | some b => ⟨min a.x1 b.x1, min a.y1 b.y1, max a.x2 b.x2, max a.y2 b.y2⟩

/-- BBoxIdx.cpp:77: `bestCommonArea`. -/
def bestArea : Option (Nat × Int) → Int
  | none => 0
  | some b => b.2

/-- BBoxIdx.cpp:86-92, with `MIN_COM_AREA = 0`; `i` is the index of the first remaining
child, `best` the best child and area so far. -/
def bestChild (area : Box → Option Box → Int) (box : Box) : List Nd → Nat → Option (Nat × Int) →
    Option (Nat × Int)
  | [], _, best => best
  | c :: cs, i, best =>
    let cur := area box c.box
    if cur > 0 ∧ cur > bestArea best then
      bestChild area box cs (i + 1) (some (i, cur))
    else bestChild area box cs (i + 1) best

/-- BBoxIdx.cpp:76-105; the first argument is `MAX_LVL - lvl`. -/
def addToTree (area : Box → Option Box → Int) (box : Box) : Nat → Nd → Nd
  | 0, .mk b cs => .mk (some (extendBox box b)) cs
  | n + 1, .mk b cs =>
    match bestChild area box cs 0 none with
    | none => .mk (some (extendBox box b)) (cs ++ [addToTree area box n (.mk (some box) [])])
    | some (i, _) => .mk (some (extendBox box b)) (cs.modify i (addToTree area box n))

def maxLvl : Nat := 5

/-- BBoxIdx.cpp:10. -/
def Nd.root : Nd := .mk none []

/-- BBoxIdx.cpp:13-21 for a sequence of (padded) boxes. -/
def build (area : Box → Option Box → Int) (boxes : List Box) : Nd :=
  boxes.foldl (fun nd b => addToTree area b maxLvl nd) Nd.root

mutual
/-- BBoxIdx.cpp:66-73. -/
def treeHas (p : Pt) : Nd → Bool
  | .mk b [] => contains p b
  | .mk _ (c :: cs) => if contains p c.box then treeHas p c else treeHasL p cs

/-- BBoxIdx.cpp:68-72: the remaining children. -/
def treeHasL (p : Pt) : List Nd → Bool
  | [] => false
  | c :: cs => if contains p c.box then treeHas p c else treeHasL p cs
end

mutual
/-- BBoxIdx.cpp:51-63. -/
def leafs : Nd → List (Option Box)
  | .mk b [] => [b]
  | .mk _ (c :: cs) => leafs c ++ leafsL cs

def leafsL : List Nd → List (Option Box)
  | [] => []
  | c :: cs => leafs c ++ leafsL cs
end

end Verif.BBoxIdx
