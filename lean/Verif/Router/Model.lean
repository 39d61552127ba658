import Verif.Trie.Model

/-!
# Router: candidate selection along a trip trie (model)

Model of `RouterImpl::route`, `src/pfaedle/router/Router.tpp:24-280`.

Costs (`double`) are values of an arbitrary type `C` with the operations of `CostOps`.
What `hops`/`hopsFast` (284-580) return for a pair of layers is an arbitrary function of
the hop cache and everything else they read (`Env.hops`, state `S`); `TW::weight`,
`TW::maxCost` and the final shortest path search are arbitrary functions, too. The trie is
that of `Verif.Trie`.
-/

namespace Verif.Router
open Verif.Trie (Nd)

/-- The operations on `double` used by `route`. -/
structure CostOps (C : Type) where
  lt : C → C → Bool
  add : C → C → C
  /-- Router.h:32 `DBL_INF` -/
  inf : C
  /-- conversion of an unsigned 32 bit number -/
  ofU32 : UInt32 → C

/-- Misc.h:27-34. `x` stands for the position data (`progr`, `point`); `time` is only read
by the parameters. -/
structure Cand (E C X : Type) where
  e : Option E
  pen : C
  x : X
  depPrede : List Nat

/-- Router.h:50: an entry of the cost matrix and of the distance matrix at the same index. -/
structure Ent (D : Type) where
  fr : Nat
  to : Nat
  c : UInt32
  dist : D

/-- What `route` reads besides the trie. -/
structure Env (E C X D S : Type) where
  ops : CostOps C
  ecm : Nat → List (Cand E C X)
  /-- Router.tpp:96 -/
  maxCost0 : Nat → UInt32
  /-- Router.tpp:107-113 -/
  hops : S → Nat → List C → UInt32 → List (Ent D) × S
  /-- Router.tpp:130 -/
  weight : Nat → Ent D → C
  /-- Router.tpp:220-253: the edges of the hop to the node, empty if there is no path. -/
  path : Nat → E → E → List E

variable {E C X D S P A : Type}

/-- `costsDAG[nid]` and `predeDAG[nid]` (`none` is `NO_PREDE`). -/
abbrev Layer (C : Type) := List (C × Option Nat)

def Layer.costs (l : Layer C) : List C := l.map (·.1)

/-- The operands of one update: new costs of `to` coming from `fr`. -/
structure Tr (C : Type) where
  fr : Nat
  to : Nat
  f : C → C

/-- Router.tpp:71-74, 134-138, 159-162, 176-179: update if the new costs are smaller; the
flag tells whether there was an update. Indices outside of the vectors would be undefined
behaviour; here they have no effect (the theorems assume that there are none). -/
def relax (ops : CostOps C) (par : List C) (s : Layer C × Bool) (t : Tr C) : Layer C × Bool :=
  match par[t.fr]?, s.1[t.to]? with
  | some c, some old =>
    if ops.lt (t.f c) old.1 then (s.1.set t.to (t.f c, some t.fr), true) else s
  | _, _ => s

def relaxAll (ops : CostOps C) (par : List C) (s : Layer C × Bool) (ts : List (Tr C)) : Layer C × Bool :=
  ts.foldl (relax ops par) s

/-- Router.tpp:67-76. -/
def depTrans (ops : CostOps C) (cands : List (Cand E C X)) : List (Tr C) :=
  (List.range cands.length).flatMap fun to =>
    match cands[to]? with
    | none => []
    | some cand => cand.depPrede.map fun fr => ⟨fr, to, fun c => ops.add c cand.pen⟩

/-- Router.tpp:115-139. -/
def matTrans (env : Env E C X D S) (nid : Nat) (ents : List (Ent D)) : List (Tr C) :=
  ents.filterMap fun m =>
    match (env.ecm nid)[m.to]? with
    | none => none
    | some cand => some ⟨m.fr, m.to, fun c => env.ops.add (env.ops.add c cand.pen) (env.weight nid m)⟩

/-- Router.tpp:141-144. -/
def double (m : UInt32) : UInt32 := if m ≤ 2147483647 then m * 2 else 4294967295

/-- Router.tpp:102-148 (the first argument is the number of remaining steps): the layer, the
flag `found`, the last `maxCost`, the cost matrix and the hop cache. `costM` is not cleared
between the steps. -/
def tryLoop (env : Env E C X D S) (par : List C) (nid : Nat) :
    Nat → S → Layer C → List (Ent D) → UInt32 → UInt32 → Layer C × Bool × UInt32 × List (Ent D) × S
  | 0, s, l, costM, _, maxCost => (l, false, maxCost, costM, s)
  | n + 1, s, l, costM, newMax, _ =>
    let h := env.hops s nid par newMax
    let costM' := costM ++ h.1
    let r := relaxAll env.ops par (l, false) (matTrans env nid costM')
    if double newMax = newMax then (r.1, r.2, newMax, costM', h.2)
    else if r.2 then (r.1, true, newMax, costM', h.2)
    else tryLoop env par nid n h.2 r.1 costM' (double newMax) newMax

/-- Router.tpp:156-157: the leading candidates without edge. -/
def nullPrefix : List (Cand E C X) → Nat
  | [] => 0
  | c :: cs => if c.e.isSome then 0 else nullPrefix cs + 1

/-- Router.tpp:152-166; `maxCost * 100` wraps. -/
def nullTrans (ops : CostOps C) (frs : Nat) (tos : List (Cand E C X)) (maxCost : UInt32) : List (Tr C) :=
  (List.range frs).flatMap fun fr =>
    (List.range (nullPrefix tos)).map fun to => ⟨fr, to, fun c => ops.add c (ops.ofU32 (maxCost * 100))⟩

/-- Router.tpp:171-173: the first candidate with an edge from index 1 on. -/
def firstDummy (tos : List (Cand E C X)) : Nat := 1 + nullPrefix (tos.drop 1)

/-- Router.tpp:169-182. -/
def dummyTrans (ops : CostOps C) (frs : Nat) (tos : List (Cand E C X)) : List (Tr C) :=
  (List.range frs).flatMap fun fr =>
    (List.range (tos.length - firstDummy tos)).filterMap fun k =>
      match tos[firstDummy tos + k]? with
      | none => none
      | some cand => some ⟨fr, firstDummy tos + k, fun c => ops.add c cand.pen⟩

/-- State of the search: the layers, the hop cache; `ents` and `fb` record what was
returned by the hop calculation and whether (and with which costs) the fallback was used;
`mc` is `maxCosts` (Router.tpp:33, 103). -/
structure St (C D S : Type) where
  layers : Nat → Layer C
  s : S
  ents : Nat → List (Ent D)
  fb : Nat → Option UInt32
  mc : Nat → UInt32

/-- Router.tpp:36-39. -/
def initLayer (env : Env E C X D S) (nid : Nat) : Layer C :=
  (env.ecm nid).map fun _ => (env.ops.inf, none)

/-- Router.tpp:64-186: one child `to` of the node `fr`. -/
def child (env : Env E C X D S) (nds : List (Nd P A)) (fr : Nat) (st : St C D S) (to : Nat) : St C D S :=
  match nds[fr]?, nds[to]? with
  | some f, some t =>
    if f.arr && !t.arr then
      { st with layers := fun i => if i = to then
          (relaxAll env.ops (st.layers fr).costs (st.layers to, false) (depTrans env.ops (env.ecm to))).1
        else st.layers i }
    else
      let r := tryLoop env (st.layers fr).costs to 4 st.s (st.layers to) [] (env.maxCost0 to) (env.maxCost0 to)
      let l := if r.2.1 then r.1
        else (relaxAll env.ops (st.layers fr).costs
            (relaxAll env.ops (st.layers fr).costs (r.1, false)
              (nullTrans env.ops (env.ecm fr).length (env.ecm to) r.2.2.1))
            (dummyTrans env.ops (env.ecm fr).length (env.ecm to))).1
      { layers := fun i => if i = to then l else st.layers i
        s := r.2.2.2.2
        ents := fun i => if i = to then r.2.2.2.1 else st.ents i
        fb := fun i => if i = to then (if r.2.1 then none else some r.2.2.1) else st.fb i
        mc := fun i => if i = to then r.2.2.1 else st.mc i }
  | _, _ => st

/-- Router.tpp:52-188: one iteration of the outer loop on the top of the stack. -/
def pop (env : Env E C X D S) (nds : List (Nd P A)) (fr : Nat) (p : St C D S × List Nat) : St C D S × List Nat :=
  match nds[fr]? with
  | none => p
  | some f => f.childs.foldl (fun p to => (child env nds fr p.1 to, to :: p.2)) p

/-- Router.tpp:52: the loop; the first argument bounds the number of iterations (it is never
reached with the number of nodes). -/
def loop (env : Env E C X D S) (nds : List (Nd P A)) : Nat → St C D S × List Nat → St C D S
  | 0, p => p.1
  | _ + 1, (st, []) => st
  | n + 1, (st, fr :: stack) => loop env nds n (pop env nds fr (st, stack))

/-- Router.tpp:44-50. -/
def first (env : Env E C X D S) (p : St C D S × List Nat) (cnid : Nat) : St C D S × List Nat :=
  ({ p.1 with layers := fun i => if i = cnid then (env.ecm cnid).map fun c => (c.pen, none)
      else p.1.layers i }, cnid :: p.2)

def search (env : Env E C X D S) (nds : List (Nd P A)) (s : S) : St C D S :=
  let st0 : St C D S := ⟨initLayer env, s, fun _ => [], fun _ => none, fun _ => 0⟩
  match nds[0]? with
  | none => st0
  | some root => loop env nds nds.length (root.childs.foldl (first env) (st0, []))

/-- Router.tpp:196-205: index and costs of the best candidate. -/
def sink (ops : CostOps C) (l : Layer C) : Nat × C :=
  ((List.range l.length).zip l).foldl
    (fun b p => if ops.lt p.2.1 b.2 then (p.1, p.2.1) else b) (0, ops.inf)

/-- One end of a hop (Misc.h:103-111): a position on an edge or a plain position. -/
inductive HopEnd (E X : Type) where
  | onEdge (e : E) (x : X)
  | free (x : X)

structure Hop (E X : Type) where
  edges : List E
  fr : HopEnd E X
  to : HopEnd E X

def Cand.end (c : Cand E C X) : HopEnd E X :=
  match c.e with
  | some e => .onEdge e c.x
  | none => .free c.x

/-- Router.tpp:225-268: the hop between two candidates. -/
def mkHop (env : Env E C X D S) (nid : Nat) (fr to : Cand E C X) : Hop E X :=
  { edges := match fr.e, to.e with
      | some a, some b => env.path nid a b
      | _, _ => []
    fr := fr.end
    to := to.end }

/-- Router.tpp:213-272: the hops of a leaf, last hop first. `none`: access outside of a
vector. The first argument bounds the number of iterations. -/
def backtrack (env : Env E C X D S) (nds : List (Nd P A)) (layers : Nat → Layer C) :
    Nat → Nat → Nat → Option (List (Hop E X))
  | 0, _, _ => none
  | n + 1, nid, id =>
    match (layers nid)[id]? with
    | none => none
    | some (_, none) => some []
    | some (_, some fr) =>
      match nds[nid]? with
      | none => none
      | some t =>
        match nds[t.parent]? with
        | none => none
        | some f =>
          if f.arr && !t.arr then backtrack env nds layers n t.parent fr
          else
            match (env.ecm t.parent)[fr]?, (env.ecm nid)[id]? with
            | some a, some b =>
              match backtrack env nds layers n t.parent fr with
              | none => none
              | some hs => some (mkHop env nid a b :: hs)
            | _, _ => none

/-- Router.tpp:24-280: the hops for the leaf `nid`. -/
def route (env : Env E C X D S) (nds : List (Nd P A)) (s : S) (nid : Nat) : Option (List (Hop E X)) :=
  let st := search env nds s
  backtrack env nds st.layers nds.length nid (sink env.ops (st.layers nid)).1

end Verif.Router
