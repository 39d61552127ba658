import Verif.Hops.Model

/-!
# Costs between two layers of candidates (specification)

`turn a b` is the cost of leaving edge `a` for the next edge `b` (the edge `a` and the turn), `none` if `b` does not follow `a`.
Nothing here uses the functions of the model, only the types of the candidates and of the cache.
-/

namespace Verif.Hops

open Verif.HopCache

/-- There is a way from the start of the first edge to the start of the last edge with this cost. -/
inductive Way (turn : Nat → Nat → Option Nat) : Nat → Nat → Nat → Prop
  | here (a : Nat) : Way turn a a 0
  | step {a b c x y : Nat} : turn a b = some x → Way turn b c y → Way turn a c (x + y)

/-- The cost of a cheapest way. -/
def IsDist (turn : Nat → Nat → Option Nat) (a b x : Nat) : Prop := Way turn a b x ∧ ∀ y, Way turn a b y → x ≤ y

/-- Cost of the part of an edge before a position, in whole units. -/
def part (cost : Nat → UInt32) (e : Nat) (progr : Rat) : Nat := (((cost e).toNat : Rat) * progr).floor.toNat

/-- `c` is the cost of going from one candidate to the other: along the edge if both lie on one edge in this order, else by a cheapest way
between the edges, without the part before the first position, with the part before the second one. -/
def Travel (turn : Nat → Nat → Option Nat) (cost : Nat → UInt32) (fr to : Cand) (c : Nat) : Prop :=
  ∃ ef et : Nat, fr.e = some ef ∧ to.e = some et ∧
    ((ef = et ∧ fr.progr ≤ to.progr ∧ c + part cost ef fr.progr = part cost et to.progr) ∨
      (ef ≠ et ∧ ∃ x : Nat, IsDist turn ef et x ∧ c + part cost ef fr.progr = x + part cost et to.progr))

/-- What is known about the graph: leaving an edge costs at least the edge, and ways stay in a component. -/
structure GraphOk (turn : Nat → Nat → Option Nat) (env : HEnv) : Prop where
  edge : ∀ a b x : Nat, turn a b = some x → (env.cost a).toNat ≤ x
  comp : ∀ a b x : Nat, Way turn a b x → env.compFr a = env.compTo b

/-- What is assumed of the search with one start: for every target the cost of a cheapest way if it is below the bound, and otherwise no way
below the bound exists. -/
structure SearchOk (turn : Nat → Nat → Option Nat) (env : HEnv) : Prop where
  all : ∀ (fr : Nat) (rem : List Nat) (inf : UInt32) (t : Nat), t ∈ rem → ∃ r, r ∈ env.search fr rem inf ∧ r.1 = t
  only : ∀ (fr : Nat) (rem : List Nat) (inf : UInt32) r, r ∈ env.search fr rem inf → r.1 ∈ rem
  found : ∀ (fr : Nat) (rem : List Nat) (inf : UInt32) r, r ∈ env.search fr rem inf → r.2.2 = true →
    r.2.1 < inf ∧ IsDist turn fr r.1 r.2.1.toNat
  lost : ∀ (fr : Nat) (rem : List Nat) (inf : UInt32) r, r ∈ env.search fr rem inf → r.2.2 = false →
    inf ≤ r.2.1 ∧ ∀ y, Way turn fr r.1 y → inf.toNat ≤ y

/-- The content of a cache is true: exact records are costs of cheapest ways, the others bounds from below. -/
def CacheOk (turn : Nat → Nat → Option Nat) (c : Cache) : Prop :=
  ∀ a b : Nat, ((get c a b).2 = true → IsDist turn a b (get c a b).1.toNat) ∧
    ((get c a b).2 = false → ∀ y, Way turn a b y → (get c a b).1.toNat ≤ y)

/-- Positions lie on the edges, and costs are so small that sums of them fit into 32 bits. Of an edge only the part before the position
counts: a self edge of a station (OsmBuilder.cpp:1755-1770), which has the greatest cost, may be a candidate at its start. -/
structure Sizes (env : HEnv) (froms tos : List Cand) (maxCost : UInt32) (K : Nat) : Prop where
  from0 : ∀ c ∈ froms, 0 ≤ c.progr
  from1 : ∀ c ∈ froms, c.progr ≤ 1
  to0 : ∀ c ∈ tos, 0 ≤ c.progr
  to1 : ∀ c ∈ tos, c.progr ≤ 1
  fromK : ∀ c ∈ froms, ∀ e : Nat, c.e = some e → ((env.cost e).toNat : Rat) * c.progr ≤ (K : Rat)
  toK : ∀ c ∈ tos, ∀ e : Nat, c.e = some e → ((env.cost e).toNat : Rat) * c.progr ≤ (K : Rat)
  room : maxCost.toNat + 2 * K < 4294967295
  two : 2 ≤ maxCost.toNat

/-- What is assumed of the search with several starts: a cost below the bound is the cost of a start and of a cheapest way from it. -/
structure FoundOk (turn : Nat → Nat → Option Nat) (env : HEnv) : Prop where
  found : ∀ (froms tos : List Nat) (init : Nat → UInt32) (stall stop : UInt32) r, r ∈ env.searchN froms tos init stall stop → r.2.2 < stop →
    r.1 ∈ tos ∧ r.2.1 ∈ froms ∧ ∃ x : Nat, IsDist turn r.2.1 r.1 x ∧ r.2.2.toNat = (init r.2.1).toNat + x

/-- A stronger assumption: every target has a result, its cost is the least over all starts and ways, and if it is not below the bound, then no
start and way are. -/
structure BestOk (turn : Nat → Nat → Option Nat) (env : HEnv) : Prop extends FoundOk turn env where
  all : ∀ (froms tos : List Nat) (init : Nat → UInt32) (stall stop : UInt32) (t : Nat), t ∈ tos →
    ∃ r, r ∈ env.searchN froms tos init stall stop ∧ r.1 = t
  least : ∀ (froms tos : List Nat) (init : Nat → UInt32) (stall stop : UInt32) r, r ∈ env.searchN froms tos init stall stop → r.2.2 < stop →
    ∀ g ∈ froms, ∀ y : Nat, Way turn g r.1 y → r.2.2.toNat ≤ (init g).toNat + y
  lost : ∀ (froms tos : List Nat) (init : Nat → UInt32) (stall stop : UInt32) r, r ∈ env.searchN froms tos init stall stop → stop ≤ r.2.2 →
    ∀ g ∈ froms, ∀ y : Nat, Way turn g r.1 y → stop.toNat ≤ (init g).toNat + y

/-- The costs so far fit into 32 bits together with the others. -/
def InitSizes (env : HEnv) (froms : List (Cand × Option Rat)) (maxCost : UInt32) (K : Nat) : Prop :=
  ∀ c ∈ froms, ∀ raw : Rat, c.2 = some raw → (env.inv raw).toNat + maxCost.toNat + 3 * K < 4294967295

end Verif.Hops
