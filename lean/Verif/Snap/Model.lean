import Verif.Graph.Collapse
import Verif.Payload.Node
import Verif.Restrictor.Model

/-!
# Placing stations on tracks (model)

Model of `OsmBuilder::getEdgCands`, `snapStation` and `snapStats`, `src/pfaedle/osm/OsmBuilder.cpp:1274-1356, 1853-1868`.
Nodes are numbers; the graph is that of `Verif.Collapse`, node payloads are those of `Verif.Payload`, the restrictor is that of
`Verif.Restrictor`, with an edge given by its two nodes. Geometry and the searches (`Verif.Search`) are parameters. The grids are left
out: `buildEdgeIdx` (1168-1178) and the updates in `snapStation` keep exactly the edges of the graph in the edge grid, and the station
grid is not used.
-/

namespace Verif.Snap
open Verif.Collapse Verif.Payload Verif.Restrictor

/-- The graph, the positions, the payloads, the number of the next node, the turn rules. -/
structure St (P S W : Type) where
  es : List (Edg Nat P)
  pos : Nat → P
  pl : NState Nat S
  next : Nat
  res : R Nat (Nat × Nat) W

/-- Geometry, searches and options. -/
structure Env (P S W D : Type) where
  /-- distance of a point to the segment between two points is at most `d` (1283-1288) -/
  inRange : D → P → P → P → Bool
  /-- the queue: nearest edges first -/
  order : P → List (Edg Nat P) → List (Edg Nat P)
  /-- `projectOn(from, p, to)` -/
  proj : P → P → P → P
  /-- `eqStatReach(e, si, geom, 2 * d, 0, maxAngleSnapReach)` -/
  eqS : St P S W → Edg Nat P → S → P → D → Option Nat
  /-- `isBlocked(…)` -/
  blocked : St P S W → Edg Nat P → S → P → Bool
  /-- haversine distance below 0.5 m, below 5 m -/
  half : P → P → Bool
  five : P → P → Bool
  /-- `costToInt(dist / levelDefSpeed[lvl])` -/
  cost : P → P → Fin 16 → Nat
  maxLvl : Fin 16
  /-- `getTrack().empty()` -/
  noTrack : S → Bool
  /-- `setTrack(other.getTrack())` -/
  copyTrack : S → S → S

variable {P S W D : Type}

/-- An edge by its nodes. -/
def ends : Ends Nat (Nat × Nat) := ⟨Prod.fst, Prod.snd⟩

/-- 1326-1346: the edge is split at a new node. -/
def split (v : Env P S W D) (o : Nat) (st : St P S W) (e : Edg Nat P) (g : P) : St P S W :=
  let n := st.next
  let pos := fun x => if x = n then g else st.pos x
  let ne : Edg Nat P := { e with dst := n, a := { e.a with cost := v.cost (pos e.src) (pos n) e.a.lvl } }
  let nf : Edg Nat P := { e with src := n, a := { e.a with cost := v.cost (pos n) (pos e.dst) e.a.lvl } }
  { es := delEdg (addEdg (addEdg st.es ne) nf) e.src e.dst
    pos := pos
    pl := st.pl.exec (.copy o n)
    next := n + 1
    res := st.res.replaceEdge ends (e.src, e.dst) (e.src, n) (n, e.dst) }

/-- `!pl().getSI()`. -/
def noSI (pl : NState Nat S) (n : Nat) : Bool :=
  match pl.getSI n with
  | some none => true
  | _ => false

/-- 1318-1346: the place for the station `o` with the info `s` on edge `e`; with the position of the payload. -/
def place (v : Env P S W D) (o : Nat) (s : S) (c : St P S W × P) (e : Edg Nat P) (g : P) : St P S W × P :=
  if noSI c.1.pl e.src = true ∧ v.half g (c.1.pos e.src) = true then
    ({ c.1 with pl := c.1.pl.exec (.setSI e.src s) }, c.2)
  else if noSI c.1.pl e.dst = true ∧ v.half g (c.1.pos e.dst) = true then
    ({ c.1 with pl := c.1.pl.exec (.setSI e.dst s) }, c.2)
  else (split v o c.1 e g, g)

/-- 1303-1354: one candidate. -/
def snapEdge (v : Env P S W D) (o : Nat) (d : D) (c : St P S W × P) (e : Edg Nat P) : St P S W × P :=
  match c.1.pl.getSI o with
  | some (some s) =>
    let g := v.proj (c.1.pos e.src) c.2 (c.1.pos e.dst)
    match v.eqS c.1 e s g d with
    | none =>
      if e.a.lvl > v.maxLvl then c
      else if v.blocked c.1 e s g then c
      else place v o s c e g
    | some x =>
      if v.five c.2 (c.1.pos x) then
        match c.1.pl.getSI x with
        | some (some i) =>
          if v.noTrack i then ({ c.1 with pl := c.1.pl.exec (.modify x fun j => v.copyTrack j s) }, c.2) else c
        | _ => c
      else c
  | _ => c

/-- 1274-1290, 1293-1356. -/
def snapStation (v : Env P S W D) (d : D) (st : St P S W) (o : Nat) : St P S W :=
  ((v.order (st.pos o) (st.es.filter fun e => v.inRange d (st.pos o) (st.pos e.src) (st.pos e.dst))).foldl (snapEdge v o d)
    (st, st.pos o)).1

/-- 1853-1868. -/
def snapStats (v : Env P S W D) (ds : List D) (orphans : List Nat) (st : St P S W) : St P S W :=
  ds.foldl (fun st d => orphans.foldl (snapStation v d) st) st

end Verif.Snap
