import Verif.Router.Model
import Verif.Hops.Model

/-!
# Routing with the costs between candidates put in (model)

`RouterImpl::route` (`src/pfaedle/router/Router.tpp:24-280`) as modelled in `Verif.Router`, with `hops` and `hopsFast` as modelled in
`Verif.Hops`, and with the search that gets the edges of the chosen hops (225-263). All nodes of one trie are routed with the same attributes
(the trips of a cluster share them), so that there is one cost function.
-/

namespace Verif.Full

open Verif.Trie (Nd)
open Verif.Router (Env Ent CostOps search route)
open Verif.HopCache (Cache)
open Verif.Hops (HEnv)

variable {C X P A : Type}

/-- What the router reads. -/
structure Net (C X : Type) where
  /-- graph, cost function and searches of the hop calculation -/
  h : HEnv
  ops : CostOps C
  ecm : Nat → List (Router.Cand Nat C X)
  /-- `progr` of a candidate -/
  progr : X → Rat
  /-- Router.tpp:96 -/
  maxCost0 : Nat → UInt32
  /-- Router.tpp:127-130; node, positions of the candidates, cost -/
  weight : Nat → Nat → Nat → UInt32 → C
  /-- the value of a double, `none` if it is infinite -/
  raw : C → Option Rat
  /-- Router.tpp:107: `noFastHops || !TW::ALLOWS_FAST_ROUTE` -/
  slow : Bool
  /-- `TW::NEED_DIST` -/
  needDist : Bool
  /-- Router.tpp:250-251: the search from edge to edge with an upper bound: the cost and the edges, last one first -/
  walk : Nat → Nat → UInt32 → UInt32 × List Nat

/-- The candidates of a node as `hops` reads them. -/
def Net.cands (n : Net C X) (nid : Nat) : List Hops.Cand := (n.ecm nid).map fun c => ⟨c.e, n.progr c.x⟩

/-- Trie node to parent. -/
def parent (nds : List (Nd P A)) (nid : Nat) : Nat :=
  match nds[nid]? with
  | none => 0
  | some t => t.parent

/-- Router.tpp:106-113. -/
def Net.hops (n : Net C X) (nds : List (Nd P A)) (s : Option Cache) (nid : Nat) (par : List C) (m : UInt32) :
    List (Ent Unit) × Option Cache :=
  let froms := n.cands (parent nds nid)
  let r := if n.slow then Hops.hops n.h n.needDist froms (n.cands nid) s m
    else Hops.hopsFast n.h (froms.zip (par.map n.raw)) (n.cands nid) s m
  (r.1.map fun e => ⟨e.1.1, e.1.2, e.2, ()⟩, r.2)

/-- Everything but the edges of the hops. -/
def Net.base (n : Net C X) (nds : List (Nd P A)) : Env Nat C X Unit (Option Cache) where
  ops := n.ops
  ecm := n.ecm
  maxCost0 := n.maxCost0
  hops := n.hops nds
  weight := fun nid m => n.weight nid m.fr m.to m.c
  path := fun _ _ _ => []

/-- Router.tpp:229-245: the upper bound of the search for the edges of a hop; `mc` is `maxCosts[curTrieNid]`. -/
def Net.bound (n : Net C X) (nds : List (Nd P A)) (mc : UInt32) (nid : Nat) : UInt32 :=
  let x := (mc.toNat : Rat) + Hops.maxProgr n.h (n.cands (parent nds nid))
  if (4294967295 : Rat) ≤ x then 4294967295 else Hops.trunc x

/-- Router.tpp:225-263. -/
def Net.edges (n : Net C X) (nds : List (Nd P A)) (mc : Nat → UInt32) (nid a b : Nat) : List Nat :=
  let m := n.bound nds (mc nid) nid
  let r := n.walk a b m
  if r.1 < m then r.2 else []

def withPath (e : Env Nat C X Unit (Option Cache)) (p : Nat → Nat → Nat → List Nat) : Env Nat C X Unit (Option Cache) :=
  { e with path := p }

def Net.env (n : Net C X) (nds : List (Nd P A)) (s : Option Cache) : Env Nat C X Unit (Option Cache) :=
  withPath (n.base nds) (n.edges nds (search (n.base nds) nds s).mc)

/-- The hops for the leaf `nid`, last one first. -/
def Net.route (n : Net C X) (nds : List (Nd P A)) (s : Option Cache) (nid : Nat) : Option (List (Router.Hop Nat X)) :=
  Router.route (n.env nds s) nds s nid

end Verif.Full
