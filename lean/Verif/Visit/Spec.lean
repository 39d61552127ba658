import Verif.Visit.Model
import Verif.Tour.Spec

/-!
# Candidates of stops on the map of an OSM file (specification)
-/

namespace Verif.Visit
open Verif.Router (HopEnd)
open Verif.Line (Pos LHop)
open Verif.Tour (Town FileOk DriveOk PlanOk)
open Verif.Out (StRow)
open Verif.Content (TripRow)
open Verif.Result (rowsOf)

variable {C P P' S T D A : Type}

/-- What is assumed of the libraries and of the costs. -/
structure LookOk [DecidableEq P] (x : Site P S T D C P' A) : Prop where
  /-- the edges that leave and enter a node -/
  out : ∀ u (e : _root_.Fin x.town.graph.es.length), e ∈ x.look.out u ↔ x.town.graph.es[e].src = u
  inn : ∀ u (e : _root_.Fin x.town.graph.es.length), e ∈ x.look.inn u ↔ x.town.graph.es[e].dst = u
  /-- the grids return only what was put into them -/
  edgs : ∀ name platform pos, ∀ e ∈ (x.look.ask name platform pos).edgs, e ∈ x.look.edges
  nds : ∀ name platform pos, ∀ u ∈ (x.look.ask name platform pos).nds, u ∈ stations x.town.graph
  /-- projections are on the edge -/
  progr : ∀ name platform pos e, 0 ≤ (x.look.ask name platform pos).progr e ∧ (x.look.ask name platform pos).progr e ≤ 1
  rev : ∀ name platform pos e, (x.look.ask name platform pos).rev e = x.town.graph.es[e].a.rev
  /-- costs -/
  zero : ∀ tr ecm, (x.town.net tr ecm).ops.lt (x.look.ofRat 0) (x.town.net tr ecm).ops.inf = true
  add : ∀ tr ecm, x.look.add = (x.town.net tr ecm).ops.add
  time : ∀ tr ecm a b, (x.town.net tr ecm).ops.lt (x.look.timePen a b) (x.town.net tr ecm).ops.inf = true

/-- What is assumed of a mode configuration with its OSM file. Nothing is assumed of the candidates. -/
structure SiteOk [DecidableEq P] (x : Site P S T D C P' A) (n : Nat) : Prop extends FileOk x.town, LookOk x where
  drive : DriveOk x.seen.mode0 x.seen.net (fun a => Journey.turn x.town.graph (x.town.fare a))
  plan : PlanOk x.seen.mode0 x.seen.net n

/-- What the first end of a hop from a stop, or the second end of a hop to it, may be, for a stop with this name, platform and position. -/
inductive Place (x : Site P S T D C P' A) (name platform : String) (pos : P') : HopEnd Nat (Pos P × Int) → Prop
  /-- the position of the stop itself -/
  | self (y : Pos P × Int) : y.1.point = (x.look.ask name platform pos).pos → Place x name platform pos (.free y)
  /-- the start of an edge from a station in reach, not against a one-way street -/
  | station (i u : Nat) (e : Collapse.Edg Nat P) (y : Pos P × Int) : x.look.o.useStations = true → u ∈ (x.look.ask name platform pos).nds →
      (∃ s, x.town.graph.pl.getSI u = some (some s)) → (x.look.ask name platform pos).nDist u ≤ x.look.o.maxStationCandDistance →
      x.town.graph.es[i]? = some e → e.src = u → e.a.oneWay ≠ 2 → y.1.progr = 0 → Place x name platform pos (.onEdge i y)
  /-- the projection of the stop on an edge in reach, not against a one-way street, of a level that is permitted -/
  | edge (i : _root_.Fin x.town.graph.es.length) (y : Pos P × Int) : i ∈ (x.look.ask name platform pos).edgs →
      (x.look.ask name platform pos).eDist i ≤ x.look.o.maxSnapDistance →
      x.town.graph.es[i].a.oneWay ≠ 2 → x.town.graph.es[i].a.lvl.val ≤ x.look.o.maxSnapLevel →
      (x.town.graph.es[i].a.rev = false → y.1.progr = (x.look.ask name platform pos).progr i) →
      (x.town.graph.es[i].a.rev = true → y.1.progr = 1 - (x.look.ask name platform pos).progr i) → Place x name platform pos (.onEdge i.val y)

/-- This is a place for a stop like `s`: with its name and platform, at a position near to it. -/
def PlaceFor (x : Site P S T D C P' A) (s : Trie.StopTime P') (h : HopEnd Nat (Pos P × Int)) : Prop :=
  ∃ pos, x.town.m.c.near pos s.pos = true ∧ Place x s.name s.platform pos h

/-- Hop by hop (the hops are in reverse order), the trip goes from a place for each stop to a place for the next one. -/
def Visits (x : Site P S T D C P' A) (k : Nat) (hops : List (LHop Nat P)) : Prop :=
  hops.length + 1 = (x.town.m.c.stops k).length ∧ ∀ (p : Nat) h s s', hops.reverse[p]? = some h → (x.town.m.c.stops k)[p]? = some s →
    (x.town.m.c.stops k)[p + 1]? = some s' → PlaceFor x s h.fr ∧ PlaceFor x s' h.to

/-! ## Distances -/

/-- What is assumed of the distances of the library: `far pos p` is the distance from a stop with this position to the point `p`. -/
structure FarOk (pt : List P → Rat → P) (far : P' → P → Rat) (x : Site P S T D C P' A) : Prop where
  node : ∀ name platform pos u, far pos (x.town.graph.pos u) ≤ (x.look.ask name platform pos).nDist u
  /-- the distance to an edge is that to the projection -/
  edge : ∀ name platform pos (i : _root_.Fin x.town.graph.es.length) l, x.town.graph.es[i].geom = some l →
    far pos (pt l ((x.look.ask name platform pos).progr i)) ≤ (x.look.ask name platform pos).eDist i
  /-- measured from the other end -/
  turned : ∀ (l : List P) (y : Rat), pt l.reverse (1 - y) = pt l y

/-- The point is the position of a stop like `s`, or not further away from it than is permitted. -/
def Close (far : P' → P → Rat) (x : Site P S T D C P' A) (s : Trie.StopTime P') (p : P) : Prop :=
  ∃ pos, x.town.m.c.near pos s.pos = true ∧ (p = (x.look.ask s.name s.platform pos).pos ∨
    far pos p ≤ x.look.o.maxStationCandDistance ∨ far pos p ≤ x.look.o.maxSnapDistance)

/-- The stops of a trip (rows of stop_times.txt; `sts`: the same stops with names and positions) have distances of points of its shape (rows of
shapes.txt) that are close to them. -/
def Passes {S' : Type} (far : P' → P → Rat) (isAt : Shapes.Row → P → Prop) (x : Site P S T D C P' A) (sts : List (Trie.StopTime P'))
    (shape : List Shapes.Row) (stops : List (StRow (List Nat) S')) : Prop :=
  ∀ q ∈ stops, ∀ s, sts[(stops.filter fun q' => q'.seq < q.seq).length]? = some s → ∃ r ∈ shape, r.pt.dist = q.dist ∧ ∃ p, isAt r p ∧ Close far x s p

/-- The trips that need a shape pass by their stops. -/
def AllPass {X S' : Type} (far : P' → P → Rat) (isAt : Shapes.Row → P → Prop) (xs : List (Site P S T D C P' A)) (trips : List (TripRow X))
    (trips' : List (TripRow X)) (out : List Shapes.Row) (rows' : List (StRow (List Nat) S')) : Prop :=
  ∀ x ∈ xs, ∀ (k : Nat) t, trips[k]? = some t → Trie.needsShape x.town.m.c k → ∀ t' ∈ trips', t'.id = t.id →
    Passes far isAt x (x.town.m.c.stops k) (rowsOf out t'.shape) (rows'.filter fun q => q.trip = t.id)

end Verif.Visit
