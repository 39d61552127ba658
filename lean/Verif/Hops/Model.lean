import Verif.HopCache.Model
import Init.Data.Rat.Lemmas

/-!
# Costs between two layers of candidates (model)

Models `RouterImpl::hops` and `RouterImpl::hopsFast` (`src/pfaedle/router/Router.tpp:284-430` and `434-580`) with `connected` (584-606).
Progressions and doubles are exact rationals, `uint32_t` is `UInt32` with wrap-around. Edges are numbered in the order of their addresses.
The searches (`EDijkstra::shortestPath`, not part of the checkout) are parameters. The distances kept for `NEED_DIST` have the same positions
as the costs by construction (423-427) and are left out.
-/

namespace Verif.Hops

open Verif.HopCache

/-- A candidate, as far as it is read here: its edge (`none`: the NULL candidate) and the position on it. -/
structure Cand where
  e : Option Nat
  progr : Rat

/-- What `hops` and `hopsFast` get from outside. -/
structure HEnv where
  /-- `costF(e, 0, 0)` -/
  cost : Nat → UInt32
  /-- component of the start and of the end node of an edge -/
  compFr : Nat → Nat
  compTo : Nat → Nat
  /-- one start, several targets, greatest cost; for each target: cost, and whether its path is not empty -/
  search : Nat → List Nat → UInt32 → List (Nat × UInt32 × Bool)
  /-- several starts and targets, costs of the starts, stall cost, greatest cost; for each target: start and cost -/
  searchN : List Nat → List Nat → (Nat → UInt32) → UInt32 → UInt32 → List (Nat × Nat × UInt32)
  /-- `TW::invWeight` -/
  inv : Rat → UInt32

/-- `std::set<Edge*>::insert`. -/
def ins (e : Nat) : List Nat → List Nat
  | [] => [e]
  | x :: xs => if e < x then e :: x :: xs else if x < e then x :: ins e xs else x :: xs

/-- Router.tpp:290-300 (and 450, 464): the edges of the candidates. -/
def edges (cs : List Cand) : List Nat :=
  cs.foldl (fun s c => match c.e with
    | none => s
    | some e => ins e s) []

/-- Implicit conversion of a double to `uint32_t`. -/
def trunc (x : Rat) : UInt32 := UInt32.ofNat x.floor.toNat

/-- Router.tpp:409, 416 and others: the cost of the part of an edge up to a position. -/
def progrC (env : HEnv) (e : Nat) (progr : Rat) : Rat := ((env.cost e).toNat : Rat) * progr

/-- Router.tpp:306-313 (and 472-479): the greatest cost of the start of a candidate. -/
def maxProgr (env : HEnv) (froms : List Cand) : Rat :=
  froms.foldl (fun m fr => match fr.e with
    | none => m
    | some e =>
      let p := if 0 < fr.progr then progrC env e fr.progr else 0
      if m < p then p else m) 0

/-- `hopCache->get` if there is a cache (Router.tpp:324-325). -/
def look (cache : Option Cache) (a b : Nat) : UInt32 × Bool :=
  match cache with
  | none => (0, false)
  | some c => get c a b

/-- Router.tpp:327-337: a cost known without a search. The test in line 332 compares the flag of the cache entry, not its value. -/
def early (env : HEnv) (needDist : Bool) (inf : UInt32) (cache : Option Cache) (fr to : Nat) : Option UInt32 :=
  let cached := look cache fr to
  if env.compFr fr ≠ env.compTo to then some inf
  else if inf ≤ (if cached.2 then 1 else 0) then some inf
  else if !needDist && cached.2 then some cached.1
  else none

/-- `EdgeCostMatrix`: a missing entry is 0. -/
abbrev Matrix := Nat → Nat → UInt32

def setM (m : Matrix) (a b : Nat) (v : UInt32) : Matrix := fun x y => if x = a ∧ y = b then v else m x y

/-- Router.tpp:352-361: one result of the search. -/
def store (inf : UInt32) (fr : Nat) (st : Matrix × Option Cache) (r : Nat × UInt32 × Bool) : Matrix × Option Cache :=
  (setM st.1 fr r.1 r.2.1,
    st.2.map fun c => if r.2.2 then setEx c fr r.1 r.2.1 else setMin c fr r.1 inf)

/-- Router.tpp:318-375: one start edge. -/
def fromStep (env : HEnv) (needDist : Bool) (inf : UInt32) (eTos : List Nat) (st : Matrix × Option Cache) (fr : Nat) :
    Matrix × Option Cache :=
  let m := eTos.foldl (fun m to => match early env needDist inf st.2 fr to with
    | some c => setM m fr to c
    | none => m) st.1
  let rem := eTos.filter fun to => (early env needDist inf st.2 fr to).isNone
  if rem.isEmpty then (m, st.2) else (env.search fr rem inf).foldl (store inf fr) (m, st.2)

/-- Router.tpp:393-421 (and 545-572): the cost between the positions, from the cost between the edges. -/
def shift (env : HEnv) (ef et : Nat) (pf pt : Rat) (c : UInt32) : Option UInt32 :=
  if ef = et then
    if pf ≤ pt then some (c + (trunc (progrC env et pt) - trunc (progrC env ef pf))) else none
  else
    let c := if 0 < pf then c - trunc (progrC env ef pf) else c
    some (if 0 < pt then c + trunc (progrC env et pt) else c)

/-- Router.tpp:423 (and 574): the final limit. -/
def limit (inf : UInt32) (mps : Rat) (c : Option UInt32) : Option UInt32 :=
  c.filter fun c => decide ((c.toNat : Rat) < (inf.toNat : Rat) - mps)

/-- Router.tpp:382-428: the entries of one candidate. -/
def row (env : HEnv) (inf : UInt32) (mps : Rat) (m : Matrix) (tos : List Cand) (fr : Cand × Nat) : List ((Nat × Nat) × UInt32) :=
  match fr.1.e with
  | none => []
  | some ef => tos.zipIdx.filterMap fun to => match to.1.e with
    | none => none
    | some et =>
      if inf ≤ m ef et then none
      else (limit inf mps (shift env ef et fr.1.progr to.1.progr (m ef et))).map fun c => ((fr.2, to.2), c)

/-- Router.tpp:377-429. -/
def build (env : HEnv) (inf : UInt32) (mps : Rat) (m : Matrix) (froms tos : List Cand) : List ((Nat × Nat) × UInt32) :=
  froms.zipIdx.flatMap (row env inf mps m tos)

/-- `hops`, Router.tpp:284-430. -/
def hops (env : HEnv) (needDist : Bool) (froms tos : List Cand) (cache : Option Cache) (maxCost : UInt32) :
    List ((Nat × Nat) × UInt32) × Option Cache :=
  let mps := maxProgr env froms
  let inf := addNonOverflow maxCost (trunc mps)
  let r := (edges froms).foldl (fromStep env needDist inf (edges tos)) (fun _ _ => 0, cache)
  (build env inf mps r.1 froms tos, r.2)

/-! ### the fast variant -/

/-- Router.tpp:584-593 and 597-606: start nodes in the same component. -/
def connected (env : HEnv) (e : Nat) (others : List Cand) : Bool :=
  others.any fun c => match c.e with
    | none => false
    | some o => env.compFr e == env.compFr o

/-- Router.tpp:448: candidates that can be the start; the initial cost `none` is infinite. -/
def usable (env : HEnv) (tos : List Cand) (fr : Cand × Option Rat) : Bool :=
  match fr.1.e, fr.2 with
  | some e, some _ => connected env e tos
  | _, _ => false

/-- Router.tpp:458-462: targets that are looked for. -/
def wanted (env : HEnv) (froms : List Cand) (cache : Option Cache) (eFrs : List Nat) (maxCost : UInt32) (to : Cand) : Bool :=
  match to.e with
  | none => false
  | some e => connected env e froms && !(match cache with
    | none => false
    | some c => cacheDrop c eFrs e maxCost)

/-- Router.tpp:447-455: the starts with their positions. -/
def starts (env : HEnv) (froms : List (Cand × Option Rat)) (tos : List Cand) : List (Nat × Cand) :=
  (froms.zipIdx.filter fun x => usable env tos x.1).map fun x => (x.2, x.1.1)

/-- Router.tpp:457-466: the targets with their positions. -/
def targets (env : HEnv) (froms : List Cand) (tos : List Cand) (cache : Option Cache) (eFrs : List Nat) (maxCost : UInt32) : List (Nat × Cand) :=
  (tos.zipIdx.filter fun x => wanted env froms cache eFrs maxCost x.1).map fun x => (x.2, x.1)

/-- `ROUTE_INF`. -/
def routeInf : UInt32 := 4294967295

/-- Router.tpp:480-489: the cost of reaching the start of the edge of a candidate, raised by the greatest start cost. -/
def prep (env : HEnv) (mps : Rat) (e : Nat) (progr raw : Rat) : Rat := ((env.inv raw).toNat : Rat) + mps - progrC env e progr

/-- Router.tpp:491-500: the least of these costs for an edge. -/
def initCost (env : HEnv) (mps : Rat) (froms : List (Cand × Option Rat)) (e : Nat) : UInt32 :=
  froms.foldl (fun m fr => match fr.1.e, fr.2 with
    | some e', some raw =>
      if e' = e then (if prep env mps e' fr.1.progr raw < (m.toNat : Rat) then trunc (prep env mps e' fr.1.progr raw) else m) else m
    | _, _ => m) routeInf

/-- Router.tpp:502-509. -/
def maxInit (init : Nat → UInt32) (eFrs : List Nat) : UInt32 :=
  eFrs.foldl (fun m e => if init e ≠ routeInf ∧ m < init e then init e else m) 0

def minInit (init : Nat → UInt32) (eFrs : List Nat) : UInt32 :=
  eFrs.foldl (fun m e => if init e < m then init e else m) routeInf

/-- Router.tpp:539-578: the entries for one found target. -/
def entries (env : HEnv) (inf : UInt32) (mps : Rat) (frs tos : List (Nat × Cand)) (fromE toE : Nat) (cost : UInt32) :
    List ((Nat × Nat) × UInt32) :=
  (frs.filter fun x => x.2.e = some fromE).flatMap fun fr =>
    (tos.filter fun x => x.2.e = some toE).filterMap fun to =>
      (limit inf mps (shift env fromE toE fr.2.progr to.2.progr cost)).map fun c => ((fr.1, to.1), c)

/-- Router.tpp:528-537: the entries and the cache after one result of the search. -/
def fastStep (env : HEnv) (inf stop : UInt32) (mps : Rat) (init : Nat → UInt32) (eFrs : List Nat) (frs tos : List (Nat × Cand))
    (st : List ((Nat × Nat) × UInt32) × Option Cache) (r : Nat × Nat × UInt32) : List ((Nat × Nat) × UInt32) × Option Cache :=
  if stop ≤ r.2.2 then (st.1, st.2.map fun c => setMinFroms c eFrs r.1 inf)
  else
    let cost := r.2.2 - init r.2.1
    if inf ≤ cost then st else (st.1 ++ entries env inf mps frs tos r.2.1 r.1 cost, st.2)

/-- `hopsFast`, Router.tpp:434-580; `froms` come with their costs so far. -/
def hopsFast (env : HEnv) (froms : List (Cand × Option Rat)) (tos : List Cand) (cache : Option Cache) (maxCost : UInt32) :
    List ((Nat × Nat) × UInt32) × Option Cache :=
  let cands := froms.map (·.1)
  let frs := starts env froms tos
  let eFrs := edges (frs.map (·.2))
  let trs := targets env cands tos cache eFrs maxCost
  let eTos := edges (trs.map (·.2))
  if eFrs.isEmpty || eTos.isEmpty then ([], cache)
  else
    let mps := maxProgr env cands
    let raw := initCost env mps froms
    let lo := minInit raw eFrs
    let init := fun e => raw e - lo
    let inf := addNonOverflow maxCost (trunc mps)
    let stop := inf + (maxInit raw eFrs - lo)
    (env.searchN eFrs eTos init inf stop).foldl (fastStep env inf stop mps init eFrs frs trs) ([], cache)

end Verif.Hops
