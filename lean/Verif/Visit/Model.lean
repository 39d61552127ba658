import Verif.Tour.Model
import Verif.Cand.Model

/-!
# Candidates of stops on the map of an OSM file (model)

`buildIndex` and `getEdgCands` (`src/pfaedle/router/ShapeBuilder.cpp:88-105, 155-279`, modelled in `Verif.Cand`) on the routing graph that is read
from an OSM file, and their use in `getECM` (770-824, modelled in `Verif.Router.Ecm`). Candidates are computed for the stop that a node of a
trie was made for (`reprStop`); they depend on its name, platform and position. Noise (ShapeBuilder.cpp:174-188) is not added.
-/

namespace Verif.Visit
open Verif.Trie (Trie)
open Verif.Router (Gen Cand0)
open Verif.Line (Pos)
open Verif.Tour (Town)

variable {C P P' S T D A : Type}

/-- How stops are looked up in the graph `g`. The lists of edges at nodes and their number are those of the graph library, and what is found near
a stop (`ask`, for name, platform and position) comes from the grids. -/
structure Lookup (g : Finish.Fin P S Nat) (C P' : Type) where
  o : Cand.Opts
  out : Nat → List (_root_.Fin g.es.length)
  inn : Nat → List (_root_.Fin g.es.length)
  deg : Nat → Nat
  ask : String → String → P' → Cand.Query (_root_.Fin g.es.length) Nat P
  /-- `POINT` without arguments, the point of candidates on edges -/
  origin : P
  /-- penalties as costs -/
  ofRat : Rat → C
  timePen : Int → Int → C
  add : C → C → C

variable {g : Finish.Fin P S Nat}

/-- The graph, as `getEdgCands` reads it. -/
def Lookup.graph (l : Lookup g C P') : Cand.Graph (_root_.Fin g.es.length) Nat where
  fr e := g.es[e].src
  to e := g.es[e].dst
  out := l.out
  inn := l.inn
  deg := l.deg
  wrong e := decide (g.es[e].a.oneWay = 2)
  lvl e := g.es[e].a.lvl.val

/-- ShapeBuilder.cpp:88-97: the edges in the grid. -/
def Lookup.edges (l : Lookup g C P') : List (_root_.Fin g.es.length) := Cand.index l.graph l.o g.nds

/-- ShapeBuilder.cpp:99-104: the nodes in the grid. -/
def stations (g : Finish.Fin P S Nat) : List Nat := g.nds.filter (Finish.isStat g.pl)

/-- A candidate (Misc.h:27-34), as the router reads it. -/
def Lookup.conv (l : Lookup g C P') (c : Cand.Cand (_root_.Fin g.es.length) P) : Cand0 Nat C (Pos P) :=
  ⟨c.e.map (·.val), l.ofRat c.pen, ⟨c.progr, c.pos.getD l.origin⟩⟩

/-- ShapeBuilder.cpp:155-279: the candidates of a stop. That this is never undefined is part of C90. -/
def Lookup.cands (l : Lookup g C P') (name platform : String) (pos : P') : List (Cand0 Nat C (Pos P)) :=
  ((Cand.getEdgCands l.graph l.o (l.ask name platform pos)).getD []).map l.conv

/-- ShapeBuilder.cpp:784: the candidates of a node are those of `reprStop`. (Those of numbers that are not nodes are not read.) -/
def Lookup.gen (l : Lookup g C P') (rootPos : P') (tr : Trie Nat P' A) : Gen Nat C (Pos P) where
  cands i := match tr.nds[i]? with
    | some nd => l.cands nd.name nd.platform nd.pos
    | none => l.cands "" "" rootPos
  timePen := l.timePen
  add := l.add

/-- A mode configuration with its OSM file, and how stops are looked up. -/
structure Site (P S T D C P' A : Type) where
  town : Town P S T D C P' A
  look : Lookup town.graph C P'

/-- The configuration with these candidates (PfaedleMain.cpp:272-355). -/
def Site.seen (x : Site P S T D C P' A) : Town P S T D C P' A :=
  { x.town with m := { x.town.m with gen := x.look.gen x.town.m.c.rootPos } }

end Verif.Visit
