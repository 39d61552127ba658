import Verif.Build.Model
import Verif.Journey.Model
import Verif.Osm.Doc

/-!
# Matching all trips of a feed on the map of an OSM file (model)

`ShapeBuilder::shapeify(netgraph::Graph*)` (`src/pfaedle/router/ShapeBuilder.cpp:381-447`, modelled in `Verif.Build`) with
`RouterImpl::route` as modelled in `Verif.Full`: costs between candidates, hop cache and edges of the hops come from the network. The network
is the routing graph that is read from the OSM file (`src/pfaedle/PfaedleMain.cpp:272-285`, modelled in `Verif.Whole` and `Verif.Journey`).
-/

namespace Verif.Tour
open Verif.Trie (CEnv Trie)
open Verif.Router (Ecm)
open Verif.Line (Pos Edges)
open Verif.Build (Mode)
open Verif.Full (Net)
open Verif.HopCache (Cache)
open Verif.Collapse (Edg)

variable {C Pt P A S T D P' : Type}

/-- The attributes with which a trie is routed. The code reads those of the node (Router.tpp:108, 111); all nodes have the same
(`C88_attributes`), therefore those of the first one are taken here. -/
def key (c : CEnv Nat P A) (tr : Trie Nat P A) : A :=
  match tr.nds[1]? with
  | none => c.rootAttrs
  | some nd => nd.attrs

/-- The mode configuration, with this network for a trie and its candidates (ShapeBuilder.cpp:338-342). -/
def onNet (m : Mode Nat C Pt Unit (Option Cache) P A) (net : Trie Nat P A → Ecm Nat C (Pos Pt) → Net C (Pos Pt × Int)) :
    Mode Nat C Pt Unit (Option Cache) P A :=
  { m with env := fun tr ecm s => (net tr ecm).env tr.nds s }

/-- The edges of the routing graph as they are read when lines are made (ShapeBuilder.cpp:972-1133). -/
def mapOf (g : Finish.Fin P S Nat) : Edges Nat P where
  from_ := fun i => match g.es[i]? with
    | some e => g.pos e.src
    | none => g.pos 0
  to_ := fun i => match g.es[i]? with
    | some e => g.pos e.dst
    | none => g.pos 0
  geom := fun i => g.es[i]?.bind (·.geom)
  rev := fun i => match g.es[i]? with
    | some e => e.a.rev
    | none => false
  cols := fun _ => []

/-- A mode configuration, the OSM file and how it is read (PfaedleMain.cpp:272-285), and the settings of the cost function, which depend
on the attributes of the trip. -/
structure Town (P S T D C P' A : Type) where
  p : Whole.Par P S T D
  d : Osm.Doc P
  speed : Edg Nat P → Rat
  fare : A → Journey.Fare P
  m : Mode Nat C P Unit (Option Cache) P' A
  net0 : Trie Nat P' A → Ecm Nat C (Pos P) → Net C (Pos P × Int)

/-- The routing graph (PfaedleMain.cpp:284-285). -/
def Town.graph (q : Town P S T D C P' A) : Finish.Fin P S Nat := Whole.build q.p q.d.tags

/-- The configuration with the edges of the graph. -/
def Town.mode0 (q : Town P S T D C P' A) : Mode Nat C P Unit (Option Cache) P' A := { q.m with map := mapOf q.graph }

/-- The network for a trie. -/
def Town.net [DecidableEq P] (q : Town P S T D C P' A) (tr : Trie Nat P' A) (ecm : Ecm Nat C (Pos P)) : Net C (Pos P × Int) :=
  Journey.onGraph q.graph (Journey.fileComps q.p q.speed q.d.tags) (q.fare (key q.m.c tr)) (q.net0 tr ecm)

/-- The configuration that is run (PfaedleMain.cpp:272-355). -/
def Town.mode [DecidableEq P] (q : Town P S T D C P' A) : Mode Nat C P Unit (Option Cache) P' A := onNet q.mode0 q.net

end Verif.Tour
