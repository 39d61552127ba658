import Verif.Snap.Model

/-!
# From the raw graph to the routing graph (model)

Model of the second half of `OsmBuilder::read`, `src/pfaedle/osm/OsmBuilder.cpp:137-171`: stations are placed (`Verif.Snap`), edges
collapsed (`Verif.Collapse`), geometries, costs and reverse edges written, orphan nodes deleted and self edges added. `writeComps` (152)
changes nothing but component numbers (C34); costs are functions of the edge (C55, C58).
-/

namespace Verif.Finish
open Verif.Collapse Verif.Payload Verif.Restrictor Verif.Snap

variable {P S W D : Type}

/-- Parameters. -/
structure Cfg (P S W D : Type) where
  snap : Snap.Env P S W D
  /-- `maxOsmStationDistances` -/
  ds : List D
  orphans : List Nat
  /-- the nodes of a graph with `n` nodes, in the order of the node set -/
  nds : Nat → List Nat
  /-- `costToInt(getLength() / levelDefSpeed[lvl])` -/
  len : Edg Nat P → Nat
  /-- `util::geo::simplify(_, 0.5 / M_PER_DEG)` -/
  simplify : List P → List P
  /-- costs after `writeOneWayPens` and `writeNoLinePens` -/
  pen : Edg Nat P → Nat

/-- `n->pl().getSI()` is not null. -/
def isStat (pl : NState Nat S) (n : Nat) : Bool :=
  match pl.getSI n with
  | some (some _) => true
  | _ => false

/-- What `collapseEdges` and `writeODirEdgs` see of the nodes (1639-1641). -/
def nodes (c : Cfg P S W D) (st : St P S W) : Nodes Nat P :=
  { nds := c.nds st.next, pos := st.pos, special := fun n => isStat st.pl n || st.pl.isTurnCycle n }

/-- 1108-1120, one edge. -/
def writeGeom (c : Cfg P S W D) (pos : Nat → P) (e : Edg Nat P) : Edg Nat P :=
  let e' : Edg Nat P := { e with geom := some (e.geom.getD [pos e.src, pos e.dst]) }
  { e' with a := { e'.a with cost := c.len e' } }

/-- 1675-1682, one edge. -/
def simplifyGeom (c : Cfg P S W D) (e : Edg Nat P) : Edg Nat P := { e with geom := e.geom.map c.simplify }

/-- 1551-1561. -/
def deleteOrphNds (pl : NState Nat S) (es : List (Edg Nat P)) (nds : List Nat) : List Nat :=
  nds.filter fun n => decide ((ins es n).length + (outs es n).length ≠ 0) || isStat pl n

/-- 1743-1752 with the restrictor: one edge. -/
def oDir (c : List (Edg Nat P) × R Nat (Nat × Nat) W) (e : Edg Nat P) : List (Edg Nat P) × R Nat (Nat × Nat) W :=
  match getEdg c.1 e.dst e.src with
  | some _ => c
  | none => (addEdg c.1 e.rev, if e.a.restr then c.2.duplicateEdge ends (e.src, e.dst) (e.dst, e.src) else c.2)

/-- 1743-1752 with the restrictor. -/
def writeODirR (nds : List Nat) (c : List (Edg Nat P) × R Nat (Nat × Nat) W) : List (Edg Nat P) × R Nat (Nat × Nat) W :=
  nds.foldl (fun c n => (outs c.1 n).foldl oDir c) c

/-- 1774-1797, one edge. -/
def writePen (c : Cfg P S W D) (e : Edg Nat P) : Edg Nat P := { e with a := { e.a with cost := c.pen e } }

/-- 1764-1767: the edge returned by `addEdg(n, n)` (a new one, unless there is one) gets the highest cost and two points. -/
def selfEdg (pos : Nat → P) (es : List (Edg Nat P)) (n : Nat) : List (Edg Nat P) :=
  (addEdg es ⟨n, n, attrs0, [], none⟩).map fun e =>
    if e.src = n ∧ e.dst = n then
      { e with a := { e.a with cost := u32max }, geom := some (e.geom.getD [] ++ [pos n, pos n]) }
    else e

/-- 1755-1770. -/
def writeSelfEdgs (pl : NState Nat S) (pos : Nat → P) (nds : List Nat) (es : List (Edg Nat P)) : List (Edg Nat P) :=
  nds.foldl (fun es n => if isStat pl n && decide ((outs es n).length = 1) then selfEdg pos es n else es) es

/-- The routing graph. -/
structure Fin (P S W : Type) where
  nds : List Nat
  es : List (Edg Nat P)
  pos : Nat → P
  pl : NState Nat S
  res : R Nat (Nat × Nat) W

/-- 137-171. -/
def finish (c : Cfg P S W D) (st0 : St P S W) : Fin P S W :=
  let st := snapStats c.snap c.ds c.orphans st0
  let es := collapse (nodes c st) st.es
  let es := es.map (writeGeom c st.pos)
  let nds := deleteOrphNds st.pl es (c.nds st.next)
  let es := es.map (simplifyGeom c)
  let er := writeODirR nds (es, st.res)
  let es := er.1.map (writePen c)
  { nds := nds, es := writeSelfEdgs st.pl st.pos nds es, pos := st.pos, pl := st.pl, res := er.2 }

end Verif.Finish
