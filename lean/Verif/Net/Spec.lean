import Verif.Net.Model

/-!
# The transit network graph (specification)

A piece of the network is an edge of the routing graph; an edge that was only added for driving against the direction of another one
belongs to that piece. The network graph shows every piece that is used by a trip, with the lines and the trips that use it.
-/

namespace Verif.Net

variable {E N P G T : Type}

/-- What holds of a finished routing graph (C74): at most one edge from a node to another, with each edge one in the other direction, and
all edges have a line. -/
structure GraphOk (g : Gr E N P G) : Prop where
  uniq : ∀ e ∈ g.es, ∀ e' ∈ g.es, g.src e = g.src e' → g.dst e = g.dst e' → e = e'
  opp : ∀ e ∈ g.es, ∃ e' ∈ g.es, g.src e' = g.dst e ∧ g.dst e' = g.src e
  geom : ∀ e ∈ g.es, ∃ x, g.geom e = some x

/-- Who drives over the edge `x` uses the piece `e`. -/
def Over (g : Gr E N P G) (e x : E) : Prop :=
  (g.rev x = false ∧ x = e) ∨ (g.rev x = true ∧ g.src e = g.dst x ∧ g.dst e = g.src x)

instance [DecidableEq E] [DecidableEq N] (g : Gr E N P G) (e x : E) : Decidable (Over g e x) := by unfold Over; infer_instance

/-- The rides: each trip with each edge of its hops. -/
def rides (forests : List (List (Leaf E T))) : List (T × E) :=
  forests.flatten.flatMap fun l => l.hops.flatten.flatMap fun x => l.trips.map fun t => (t, x)

/-- The piece `e` is used by some trip. -/
def Used (g : Gr E N P G) (rs : List (T × E)) (e : E) : Prop := e ∈ g.es ∧ ∃ r ∈ rs, Over g e r.2

/-- The list is the set of the names, in ascending order. -/
def SetOf (l : List Name) (p : Name → Prop) : Prop := l.Pairwise (· < ·) ∧ ∀ x, x ∈ l ↔ p x

/-- The edge `x` of the network graph shows the piece `e`: it joins its ends (`ns` are the nodes shown), has its line, carries the short
names of the routes and trips that use the piece and how often it is driven over. -/
structure Shows [DecidableEq E] [DecidableEq N] (g : Gr E N P G) (f : Feed T) (rs : List (T × E)) (ns : List N) (e : E) (x : NEdge G) : Prop where
  a : ns[x.a]? = some (g.src e)
  b : ns[x.b]? = some (g.dst e)
  line : g.geom e = some x.geom
  num : x.numTrips = rs.countP fun r => decide (Over g e r.2)
  routes : SetOf x.routeShortNames fun s => ∃ r ∈ rs, Over g e r.2 ∧ s = f.route r.1
  names : SetOf x.tripShortNames fun s => ∃ r ∈ rs, Over g e r.2 ∧ s = f.name r.1

/-- All workers have returned, and only they act. -/
def Complete [DecidableEq E] [DecidableEq N] (g : Gr E N P G) (forests : List (List (Leaf E T))) (W : Nat) (sched : List Nat) : Prop :=
  (∀ w ∈ sched, w < W) ∧ ∀ w, w < W → ((run g forests sched).thr w).stopped = true

/-- What the network graph shows, for nodes `ns` of the routing graph. -/
structure Network [DecidableEq E] [DecidableEq N] (g : Gr E N P G) (f : Feed T) (rs : List (T × E)) (ns : List N) (ng : Ng N P G) : Prop where
  /-- the nodes are the ends of the used pieces, each once, where they are -/
  nds : ns.Nodup ∧ ng.nds = ns.map g.pos ∧ ∀ n, n ∈ ns ↔ ∃ e, Used g rs e ∧ (n = g.src e ∨ n = g.dst e)
  /-- each edge shows a used piece -/
  sound : ∀ x ∈ ng.es, ∃ e, Used g rs e ∧ Shows g f rs ns e x
  /-- the ends of a used piece are joined -/
  joined : ∀ e, Used g rs e → ∃ x ∈ ng.es, (ns[x.a]? = some (g.src e) ∧ ns[x.b]? = some (g.dst e)) ∨
    (ns[x.a]? = some (g.dst e) ∧ ns[x.b]? = some (g.src e))
  /-- by one edge -/
  once : ng.es.Pairwise fun x y => ¬ ((x.a = y.a ∧ x.b = y.b) ∨ (x.a = y.b ∧ x.b = y.a))

end Verif.Net
