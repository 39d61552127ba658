import Verif.Whole.Model
import Verif.Full.Model
import Verif.Weights.Model
import Verif.Graph.CompsProps

/-!
# Routing on the graph made from the OSM file (model)

What the router reads of the routing graph: the cost function on its edges (`src/pfaedle/router/Weights.cpp:65-172`, modelled in
`Verif.Weights`), and the component numbers of their ends (`OsmBuilder.cpp:1685-1726`, modelled in `Verif.Graph.Comps`). Edges are numbered
by their position in the list of edges.
-/

namespace Verif.Journey
open Verif.Collapse Verif.Payload Verif.Snap
open Verif.Graph (Gr CSt writeComps rounds)
open Verif.Full (Net)

variable {P S T D C X : Type}

/-- What the cost function reads besides the graph: `RoutingOpts` and `RoutingAttrs` (Weights.h:33-44). -/
structure Fare (P : Type) where
  /-- RoutingAttrs.h:48-78, for the number of a line -/
  simi : Nat → Verif.Names.LineSim
  /-- no short name, origin and destinations -/
  noAttrs : Bool
  /-- `getDeg()` (util, not in the repository) -/
  deg : List (Edg Nat P) → Nat → Nat
  /-- Weights.cpp:136-139: the angle test, with the position of the node -/
  sharp : P → Edg Nat P → Edg Nat P → Bool
  fullTurn : UInt32
  turnRestr : UInt32
  name : Weights.Factor
  fr : Weights.Factor
  to : Weights.Factor

/-- What the cost function gets to see (Weights.cpp:65-172). The cost of an edge has 32 bits (trgraph/EdgePL.h:123). -/
def costEnv (g : Finish.Fin P S Nat) (r : Fare P) : Weights.Env (Edg Nat P) Nat Nat where
  cost := fun e => UInt32.ofNat e.a.cost
  lines := fun e => e.lines
  simi := r.simi
  noAttrs := r.noAttrs
  src := fun e => e.src
  dst := fun e => e.dst
  turnCycle := fun n => g.pl.isTurnCycle n
  deg := r.deg g.es
  sharp := fun n a b => r.sharp (g.pos n) a b
  restricted := fun e => e.a.restr
  may := fun a b n => g.res.may (a.src, a.dst) (b.src, b.dst) n
  fullTurn := r.fullTurn
  turnRestr := r.turnRestr
  name := r.name
  fr := r.fr
  to := r.to

/-- Router.tpp:306-313, 409, 416: `costF(e, 0, 0)`. -/
def edgeCost [DecidableEq P] (g : Finish.Fin P S Nat) (r : Fare P) (i : Nat) : UInt32 :=
  match g.es[i]? with
  | some e => (Weights.call (costEnv g r) .init (.edge e)).1
  | none => 0

/-- What the search (`EDijkstra`, util, not in the repository) pays for going on from edge `i` to edge `j`: `costF(i, n, j)` at the node
between them; it does not go on if this is the highest cost. -/
def turn [DecidableEq P] (g : Finish.Fin P S Nat) (r : Fare P) (i j : Nat) : Option Nat :=
  match g.es[i]?, g.es[j]? with
  | some e, some f =>
    if e.dst = f.src then
      let c := (Weights.call (costEnv g r) .init (.turn e e.dst f)).1
      if c = 4294967295 then none else some c.toNat
    else none
  | _, _ => none

/-- The graph at OsmBuilder.cpp:152, when components are written; `speed` as there. -/
def compGr (c : Finish.Cfg P S Nat D) (speed : Edg Nat P → Rat) (st0 : St P S Nat) : Gr Nat (Edg Nat P) :=
  let st := snapStats c.snap c.ds c.orphans st0
  let es := (collapse (Finish.nodes c st) st.es).map (Finish.writeGeom c st.pos)
  { nds := Finish.deleteOrphNds st.pl es (c.nds st.next)
    src := fun e => e.src
    dst := fun e => e.dst
    outs := outs es
    ins := ins es
    speed := speed }

/-- OsmBuilder.cpp:152: the component numbers; the bound on the rounds is sufficient (C34). -/
def comps (c : Finish.Cfg P S Nat D) (speed : Edg Nat P → Rat) (st0 : St P S Nat) (n : Nat) : Nat :=
  match writeComps (compGr c speed st0) (rounds (compGr c speed st0)) with
  | some r => r.1.comp n
  | none => 0

/-- The component numbers of the graph made from a file (OsmBuilder.cpp:59-152, as in `Whole.build`). -/
def fileComps (p : Whole.Par P S T D) (speed : Edg Nat P → Rat) (file : List (Osm.Ev P)) : Nat → Nat :=
  let st := Whole.raw p file
  comps { p.cfg with orphans := p.orphOrder (Whole.readMap p file).1.orphans } speed
    { st with es := (Gaps.fixGaps (Whole.gapEnv p st) st.es).es }

/-- The network the router works on: `n` with costs and components of the graph (Router.tpp:284-606). -/
def onGraph [DecidableEq P] (g : Finish.Fin P S Nat) (comp : Nat → Nat) (r : Fare P) (n : Net C X) : Net C X :=
  { n with h := { n.h with
      cost := edgeCost g r
      compFr := fun i => match g.es[i]? with
        | some e => comp e.src
        | none => 0
      compTo := fun i => match g.es[i]? with
        | some e => comp e.dst
        | none => 0 } }

end Verif.Journey
