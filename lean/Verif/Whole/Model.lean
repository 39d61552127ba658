import Verif.Turns.Model
import Verif.Gaps.Model
import Verif.Finish.Model

/-!
# From the OSM file to the routing graph (model)

Model of `OsmBuilder::read`, `src/pfaedle/osm/OsmBuilder.cpp:59-175`, as a whole: reading (`Verif.Osm.GraphRead`, `Verif.Turns`), the
attributes that `readEdges` (722-730) and `readNodes` (851-886) give to edges and nodes, `writeEdgeTracks` (1728-1739), `fixGaps`
(`Verif.Gaps`), and the steps of `Verif.Finish`. Parameters: the id sets of the first pass, the infos of stations (`getStatInfo`), the
lines (`getLines`) and tracks (`getAttrByFirstMatch`) of ways, distances and the orders of sets and hash maps. Nodes deleted by `fixGaps`
have no edges and no info, so that they are passed over by all later steps: they need not be taken from the list of nodes.
-/

namespace Verif.Whole
open Verif.Names (Str)
open Verif.Osm Verif.Collapse Verif.Payload Verif.Turns Verif.Snap
open Verif.Restrictor (run)

/-- Parameters. -/
structure Par (P S T D : Type) where
  o : Opts
  f : Flt
  keysN : List Str
  keysW : List Str
  keysR : List Str
  box : List BoxOp → Nat → Bool
  hup : List BoxOp → Nat → Bool
  bbox : P → Bool
  p0 : P
  /-- `getStatInfo`, `none` if `isNull()` -/
  info : Nod P → Option S
  lines : Way → List Nat
  /-- `none` if empty -/
  track : Way → Option T
  noTrack : S → Bool
  setTrack : T → S → S
  /-- the order of the hash map `eTracks` -/
  trackOrder : List ((Nat × Nat) × T) → List ((Nat × Nat) × T)
  /-- what the grid yields around a node, given the positions -/
  grid : (Nat → P) → Nat → List Nat
  /-- `dist(_, _) <= METER` -/
  near : P → P → Bool
  /-- the order of the set `orphanStations` -/
  orphOrder : List Nat → List Nat
  cfg : Finish.Cfg P S Nat D

variable {P S T D : Type}

/-- trgraph/EdgePL.cpp:89-100. -/
def addLine (ls : List Nat) (l : Nat) : List Nat := if l ∈ ls then ls else insertPtr l ls

/-- 725-730: what `readEdges` does with the edge it has got from `addEdg` (restrictions: `flag`). -/
def wayOn (p : Par P S T D) (w : Way) (e : Edg Nat P) : Edg Nat P :=
  { e with
    lines := (p.lines w).foldl addLine e.lines
    a := { e.a with
      lvl := Fin.ofNat 16 (fLevel p.o w.attrs)
      oneWay := if fOnewayrev p.o w.attrs ≠ 0 then 2 else if fOneway p.o w.attrs ≠ 0 then 1 else e.a.oneWay } }

/-- 719-730: `addEdg` hands out the edge between these nodes if there is one. -/
def readEdge (p : Par P S T D) (es : List (Edg Nat P)) (g : GEdge) : List (Edg Nat P) :=
  (addEdg es ⟨g.src, g.dst, attrs0, [], none⟩).map fun e => if e.src = g.src ∧ e.dst = g.dst then wayOn p g.way e else e

/-- 745, 748, 757, 760: `setRestricted`. -/
def flag (flags : List (Nat × Nat)) (e : Edg Nat P) : Edg Nat P :=
  { e with a := { e.a with restr := flags.contains (e.src, e.dst) } }

/-- 727: `(*eTracks)[e] = track`. -/
def edgeTracks (p : Par P S T D) (gs : List GEdge) : FMap (Nat × Nat) T :=
  gs.foldl (fun m g => match p.track g.way with
    | some t => FMap.put m (g.src, g.dst) t
    | none => m) []

/-- 1731-1733, 1735-1737. -/
def trackTo (p : Par P S T D) (t : T) (pl : NState Nat S) (n : Nat) : NState Nat S :=
  match pl.getSI n with
  | some (some s) => if p.noTrack s then pl.exec (.modify n (p.setTrack t)) else pl
  | _ => pl

/-- 1728-1739. -/
def writeEdgeTracks (p : Par P S T D) (ts : List ((Nat × Nat) × T)) (pl : NState Nat S) : NState Nat S :=
  ts.foldl (fun pl x => trackTo p x.2 (trackTo p x.2 pl x.1.2) x.1.1) pl

/-- 855-862, 867-874: the markers of a node with edges. -/
def mark (p : Par P S T D) (nd : Nod P) (pl : NState Nat S) (n : Nat) : NState Nat S :=
  if fStation p.o nd.attrs ≠ 0 then
    match p.info nd with
    | some s => pl.exec (.setSI n s)
    | none => pl
  else if fBlocker p.o nd.attrs ≠ 0 then pl.exec (.blocker n)
  else if fTurnCycle p.o nd.attrs ≠ 0 then pl.exec (.turnCycle n)
  else pl

/-- 851-886: the markers. -/
def payNode (p : Par P S T D) (g : GSt P) (pl : NState Nat S) (nd : Nod P) : NState Nat S :=
  match g.nodes.get nd.id with
  | some n => mark p nd pl n
  | none =>
    match g.multi.get nd.id with
    | some ns => ns.foldl (mark p nd) pl
    | none =>
      if fStation p.o nd.attrs ≠ 0 then
        match p.info nd with
        | some s => pl.exec (.setSI g.next s)
        | none => pl
      else pl

/-- 848-886: one node. -/
def nodeStep (p : Par P S T D) (c : GSt P × NState Nat S) (nd : Nod P) : GSt P × NState Nat S :=
  (addNode (fun n => fStation p.o n.attrs != 0) (fun n => (p.info n).isSome) c.1 nd, payNode p c.1 c.2 nd)

/-- 84-120, as in `readGraph`. -/
def readMap (p : Par P S T D) (file : List (Ev P)) : GSt P × NState Nat S :=
  let nodeBeg := skipUntil .node file
  let b := bboxGo p.bbox (fNohup p.o) nodeBeg false 0
  let rels := readRels p.keysR p.f (skipUntil .relation b.2)
  let ws := (readAll (nextWay p.keysW (keepWay p.f rels.wayRels rels.flat (p.box b.1))) b.2).1
  let s := ws.foldl (addWay (p.hup b.1) (p.box b.1)) GSt.init
  let nds := (readAll (nextNode p.p0 p.keysN (keepNode p.f (fun i => (s.nodes.get i).isSome) (fun i => (s.multi.get i).isSome)
    rels.nodeRels rels.flat (p.box b.1))) nodeBeg).1
  nds.foldl (nodeStep p) (s, NState.init Nat S)

/-- 84-112, turn rules; an edge is known by its ends. -/
def turns (p : Par P S T D) (file : List (Ev P)) : TSt P (Nat × Nat) :=
  readTurns p.o (fun _ g => (g.src, g.dst)) p.f p.keysW p.keysR p.box p.hup p.bbox (fNohup p.o) file

/-- 84-128: the graph before gaps are closed. A node without position is at the default position. -/
def raw (p : Par P S T D) (file : List (Ev P)) : St P S Nat :=
  let m := readMap p file
  let t := turns p file
  { es := (m.1.edges.foldl (readEdge p) []).map (flag t.flags)
    pos := fun n => (m.1.geom.get n).getD p.p0
    pl := writeEdgeTracks p (p.trackOrder (edgeTracks p m.1.edges)) m.2
    next := m.1.next
    res := run t.ops }

/-- 130-135. -/
def gapEnv (p : Par P S T D) (st : St P S Nat) : Gaps.Env Nat where
  nds := p.cfg.nds st.next
  grid := p.grid st.pos
  si := Finish.isStat st.pl
  close := fun a b => p.near (st.pos a) (st.pos b)

/-- 59-175. -/
def build (p : Par P S T D) (file : List (Ev P)) : Finish.Fin P S Nat :=
  let st := raw p file
  Finish.finish { p.cfg with orphans := p.orphOrder (readMap p file).1.orphans }
    { st with es := (Gaps.fixGaps (gapEnv p st) st.es).es }

end Verif.Whole
