/-!
# Component labelling (model)

Model of `OsmBuilder::writeComps`, `src/pfaedle/osm/OsmBuilder.cpp:1685-1726`, and of
`NodePL::getComp`, `getCompId`, `setComp` (`src/pfaedle/trgraph/NodePL.cpp:68-76`). Speeds are
rationals; component numbers do not wrap.
-/

namespace Verif.Graph

/-- A directed graph as the loops see it: the nodes, the adjacency lists and the ends of edges,
in any order (`util/graph/DirGraph.h`, not in the repository). `speed` is
`levelDefSpeed[lvl] / maxSpeedCorFac` (1703, 1710). -/
structure Gr (N E : Type) where
  nds : List N
  src : E → N
  dst : E → N
  outs : N → List E
  ins : N → List E
  speed : E → Rat

/-- Adjacency lists and edge ends agree. -/
structure Gr.WF {N E : Type} (g : Gr N E) : Prop where
  outs : ∀ n e, e ∈ g.outs n → g.src e = n ∧ g.dst e ∈ g.nds ∧ e ∈ g.ins (g.dst e)
  ins : ∀ n e, e ∈ g.ins n → g.dst e = n ∧ g.src e ∈ g.nds ∧ e ∈ g.outs (g.src e)

variable {N E : Type} [DecidableEq N]

/-- `e->getOtherNd(n)`. -/
def Gr.oth (g : Gr N E) (n : N) (e : E) : N := if g.src e = n then g.dst e else g.src e

/-- `NodePL::_component` of all nodes and `NodePL::comps`. -/
structure CSt (N : Type) where
  comp : N → Nat
  comps : List Rat

/-- 1702-1708, 1709-1715: one edge; the state is `comps.back().maxSpeed` and the stack. -/
def look (g : Gr N E) (comp : N → Nat) (cur : N) (s : Rat × List N) (e : E) : Rat × List N :=
  (if g.speed e > s.1 then g.speed e else s.1, if comp (g.oth cur e) = 0 then g.oth cur e :: s.2 else s.2)

/-- State of the loop 1697-1716. -/
structure LSt (N : Type) where
  comp : N → Nat
  stack : List N
  max : Rat
  num : Nat

/-- 1698-1715: one round; `k` is `comps.size()`, which does not change in the loop. -/
def round (g : Gr N E) (k : Nat) (s : LSt N) (cur : N) (rest : List N) : LSt N :=
  let comp := fun n => if n = cur then k else s.comp n
  let r := (g.ins cur).foldl (look g comp cur) ((g.outs cur).foldl (look g comp cur) (s.max, rest))
  { comp := comp, stack := r.2, max := r.1, num := s.num + 1 }

/-- 1697-1716; `none` means that the bound on the number of rounds was not sufficient. -/
def flood (g : Gr N E) (k : Nat) : Nat → LSt N → Option (LSt N)
  | _, ⟨c, [], m, num⟩ => some ⟨c, [], m, num⟩
  | 0, _ => none
  | f + 1, ⟨c, cur :: rest, m, num⟩ => flood g k f (round g k ⟨c, cur :: rest, m, num⟩ cur rest)

/-- 1694-1721: one node of the outer loop; the last entry of `comps` is replaced by the one with
the final maximum (1705, 1712), and a new one is appended (1719). -/
def label (g : Gr N E) (fuel : Nat) (s : CSt N × Nat) (n : N) : Option (CSt N × Nat) :=
  if s.1.comp n = 0 then
    match flood g s.1.comps.length fuel ⟨s.1.comp, [n], s.1.comps.getLastD 0, 0⟩ with
    | none => none
    | some r => some (⟨r.comp, s.1.comps.dropLast ++ [r.max, 0]⟩, if r.num > 1 then s.2 + 1 else s.2)
  else some s

/-- 1685-1726 on a graph whose nodes have no component yet. -/
def writeComps (g : Gr N E) (fuel : Nat) : Option (CSt N × Nat) :=
  g.nds.foldlM (label g fuel) (⟨fun _ => 0, [0]⟩, 0)

/-- NodePL.cpp:68: `comps[_component - 1]`, `none` if out of range. -/
def getComp (s : CSt N) (n : N) : Option Rat := if s.comp n = 0 then none else s.comps[s.comp n - 1]?

end Verif.Graph
