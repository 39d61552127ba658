import Verif.Graph.Collapse

/-!
# Closing gaps (model)

Model of `OsmBuilder::fixGaps`, `src/pfaedle/osm/OsmBuilder.cpp:1123-1165`, on the graph of
`Verif.Collapse`. `addEdg` returns the existing or the new edge, so that `e` (1145-1149) is never null.
-/

namespace Verif.Gaps
open Verif.Collapse

variable {N P : Type} [DecidableEq N]

/-- What does not change. -/
structure Env (N : Type) where
  /-- all nodes in the order of the loop (1125) -/
  nds : List N
  /-- what the grid yields around a node (1128-1132), before nodes were removed -/
  grid : N → List N
  /-- `getSI()` is set -/
  si : N → Bool
  /-- `dist(nb, n) <= METER` -/
  close : N → N → Bool

/-- Edges and the nodes deleted. -/
structure St (N P : Type) where
  es : List (Edg N P)
  dead : List N
deriving DecidableEq

/-- `getInDeg() + getOutDeg()`. -/
def deg (es : List (Edg N P)) (n : N) : Nat := (ins es n).length + (outs es n).length

/-- 1139-1142, 1145-1148, 1155-1158: the edge used, the first one leaving, or else the first one entering. -/
def stub (es : List (Edg N P)) (n : N) : Option (Edg N P) :=
  match (outs es n).head? with
  | some e => some e
  | none => (ins es n).head?

/-- `g->delNd(nb)`. -/
def delNd (es : List (Edg N P)) (n : N) : List (Edg N P) := es.filter fun e => !(e.src = n || e.dst = n)

/-- 1134-1160: one neighbour. -/
def join (v : Env N) (n : N) (s : St N P) (nb : N) : St N P :=
  if nb ≠ n ∧ deg s.es nb = 1 ∧ v.close nb n = true then
    match stub s.es nb with
    | none => s
    | some e =>
      if v.si nb = false ∧ v.si n = false then
        { es := delNd (addEdg s.es { e with src := e.oth nb, dst := n }) nb, dead := nb :: s.dead }
      else { s with es := addEdg s.es { e with src := n, dst := nb } }
  else s

/-- 1126-1162: one node. -/
def visit (v : Env N) (s : St N P) (n : N) : St N P :=
  if n ∈ s.dead then s
  else if deg s.es n = 1 then ((v.grid n).filter fun x => x ∉ s.dead).foldl (join v n) s
  else s

/-- 1123-1165. -/
def fixGaps (v : Env N) (es : List (Edg N P)) : St N P := v.nds.foldl (visit v) ⟨es, []⟩

end Verif.Gaps
