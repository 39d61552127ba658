import Verif.Router.Model
import Verif.Trie.Spec

/-!
# Router (specification)

Independent of the relaxation code: which transitions between candidates there are, what a
sequence of candidates costs and which hops it stands for.
-/

namespace Verif.Router
open Verif.Trie (Nd)
variable {E C X D S P A : Type}

/-- What is assumed of the cost arithmetic: `lt` is a strict weak order with greatest element
`inf`, adding on the right is monotone and does not make `inf` smaller. All of this holds for
`double` without NaN and without adding minus infinity, including rounding. -/
structure Laws (ops : CostOps C) : Prop where
  asymm : ∀ a b, ops.lt a b = true → ops.lt b a = false
  trans : ∀ a b c, ops.lt b a = false → ops.lt c b = false → ops.lt c a = false
  inf_max : ∀ a, ops.lt ops.inf a = false
  mono : ∀ a b c, ops.lt b a = false → ops.lt (ops.add b c) (ops.add a c) = false
  add_inf : ∀ c, ops.lt (ops.add ops.inf c) ops.inf = false

/-- No overflow: sums of finite costs and converted numbers are finite. -/
structure Finite (ops : CostOps C) : Prop where
  add : ∀ a b, ops.lt a ops.inf = true → ops.lt b ops.inf = true → ops.lt (ops.add a b) ops.inf = true
  u32 : ∀ m, ops.lt (ops.ofU32 m) ops.inf = true

/-- The move from node `f` to its child `t` stays at the stop: arrival to departure. -/
def Stays (f t : Nd P A) : Prop := f.arr = true ∧ t.arr = false

/-- The transitions from candidate `fr` of `f` (with costs `c`) to candidate `to` of node
`nid` (`t`), with the resulting costs; `ents` and `fb` are what the hop calculation returned
for `nid` and the last maximum costs if none of that led to `nid`. -/
inductive Step (env : Env E C X D S) (nid : Nat) (f t : Nd P A) (ents : List (Ent D)) (fb : Option UInt32)
    (fr to : Nat) (c : C) : C → Prop where
  /-- within a stop: to a candidate that lists `fr` as predecessor -/
  | stay (cand : Cand E C X) : Stays f t → (env.ecm nid)[to]? = some cand → fr ∈ cand.depPrede →
      Step env nid f t ents fb fr to c (env.ops.add c cand.pen)
  /-- between stops: penalty and weight of an entry of the cost matrix -/
  | hop (cand : Cand E C X) (m : Ent D) : ¬ Stays f t → m ∈ ents → m.fr = fr → m.to = to →
      (env.ecm nid)[to]? = some cand →
      Step env nid f t ents fb fr to c (env.ops.add (env.ops.add c cand.pen) (env.weight nid m))
  /-- fallback to a leading candidate without edge -/
  | null (mc : UInt32) : ¬ Stays f t → fb = some mc → fr < (env.ecm t.parent).length →
      (∀ j, j ≤ to → ∃ cand, (env.ecm nid)[j]? = some cand ∧ cand.e = none) →
      Step env nid f t ents fb fr to c (env.ops.add c (env.ops.ofU32 (mc * 100)))
  /-- fallback to another candidate -/
  | dummy (mc : UInt32) (cand : Cand E C X) (j : Nat) (d : Cand E C X) : ¬ Stays f t → fb = some mc →
      fr < (env.ecm t.parent).length → (env.ecm nid)[to]? = some cand → 1 ≤ j → j ≤ to →
      (env.ecm nid)[j]? = some d → d.e ≠ none →
      Step env nid f t ents fb fr to c (env.ops.add c cand.pen)

/-- The costs of a sequence of candidates along the path to `nid` (last candidate first). -/
inductive SeqCost (env : Env E C X D S) (nds : List (Nd P A)) (ents : Nat → List (Ent D))
    (fb : Nat → Option UInt32) : Nat → List Nat → C → Prop where
  | first (nid id : Nat) (t : Nd P A) (cand : Cand E C X) : nds[nid]? = some t → t.parent = 0 →
      (env.ecm nid)[id]? = some cand → SeqCost env nds ents fb nid [id] cand.pen
  | next (nid fr to : Nat) (f t : Nd P A) (ids : List Nat) (c c' : C) : nds[nid]? = some t → t.parent ≠ 0 →
      nds[t.parent]? = some f → SeqCost env nds ents fb t.parent (fr :: ids) c →
      Step env nid f t (ents nid) (fb nid) fr to c c' → SeqCost env nds ents fb nid (to :: fr :: ids) c'

/-- `h` is a hop from candidate `a` to candidate `b` of node `nid`: it ends on their edges (or
positions), and follows the shortest path if both have an edge. -/
def Joins (env : Env E C X D S) (nid : Nat) (a b : Cand E C X) (h : Hop E X) : Prop :=
  (∀ e, a.e = some e → h.fr = .onEdge e a.x) ∧ (a.e = none → h.fr = .free a.x) ∧
  (∀ e, b.e = some e → h.to = .onEdge e b.x) ∧ (b.e = none → h.to = .free b.x) ∧
  (∀ e e', a.e = some e → b.e = some e' → h.edges = env.path nid e e') ∧
  (a.e = none ∨ b.e = none → h.edges = [])

/-- The hops a sequence of candidates stands for (last hop first): one for each move between
stops. -/
inductive HopsOf (env : Env E C X D S) (nds : List (Nd P A)) : Nat → List Nat → List (Hop E X) → Prop where
  | first (nid id : Nat) (t : Nd P A) : nds[nid]? = some t → t.parent = 0 → HopsOf env nds nid [id] []
  | stay (nid fr to : Nat) (f t : Nd P A) (ids : List Nat) (hs : List (Hop E X)) : nds[nid]? = some t →
      t.parent ≠ 0 → nds[t.parent]? = some f → Stays f t → HopsOf env nds t.parent (fr :: ids) hs →
      HopsOf env nds nid (to :: fr :: ids) hs
  | hop (nid fr to : Nat) (f t : Nd P A) (ids : List Nat) (hs : List (Hop E X)) (a b : Cand E C X)
      (h : Hop E X) : nds[nid]? = some t → t.parent ≠ 0 → nds[t.parent]? = some f → ¬ Stays f t →
      (env.ecm t.parent)[fr]? = some a → (env.ecm nid)[to]? = some b → Joins env nid a b h →
      HopsOf env nds t.parent (fr :: ids) hs → HopsOf env nds nid (to :: fr :: ids) (h :: hs)

end Verif.Router
