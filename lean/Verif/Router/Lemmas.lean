import Verif.Router.Spec
import Verif.Trie.Inv

namespace Verif.Router
open Verif.Trie (Nd WF lt_of_get get_of_lt)
variable {E C X D S P A : Type}

/-! ### relaxation -/

theorem relax_len (ops : CostOps C) (par : List C) (s : Layer C × Bool) (t : Tr C) :
    (relax ops par s t).1.length = s.1.length := by
  unfold relax
  split
  · split <;> simp
  · rfl

theorem relaxAll_len (ops : CostOps C) (par : List C) (ts : List (Tr C)) : ∀ s : Layer C × Bool,
    (relaxAll ops par s ts).1.length = s.1.length := by
  induction ts with
  | nil => intro s; rfl
  | cons t ts ih => intro s; exact (ih _).trans (relax_len ops par s t)

theorem relaxAll_append (ops : CostOps C) (par : List C) (s : Layer C × Bool) (ts us : List (Tr C)) :
    relaxAll ops par s (ts ++ us) = relaxAll ops par (relaxAll ops par s ts) us := by
  simp [relaxAll, List.foldl_append]

theorem relaxAll_true (ops : CostOps C) (par : List C) (ts : List (Tr C)) : ∀ l : Layer C,
    (relaxAll ops par (l, true) ts).2 = true := by
  induction ts with
  | nil => intro l; rfl
  | cons t ts ih =>
    intro l
    show (relaxAll ops par (relax ops par (l, true) t) ts).2 = true
    have : relax ops par (l, true) t = ((relax ops par (l, true) t).1, true) := by
      unfold relax
      split
      · split <;> rfl
      · rfl
    rw [this]; exact ih _

/-- Without an update nothing changes. -/
theorem relaxAll_false (ops : CostOps C) (par : List C) (ts : List (Tr C)) : ∀ l : Layer C,
    (relaxAll ops par (l, false) ts).2 = false → relaxAll ops par (l, false) ts = (l, false) := by
  induction ts with
  | nil => intro l _; rfl
  | cons t ts ih =>
    intro l h
    change (relaxAll ops par (relax ops par (l, false) t) ts).2 = false at h
    show relaxAll ops par (relax ops par (l, false) t) ts = (l, false)
    have hc : relax ops par (l, false) t = (l, false) ∨ ∃ l', relax ops par (l, false) t = (l', true) := by
      unfold relax
      split
      · split
        · exact Or.inr ⟨_, rfl⟩
        · exact Or.inl rfl
      · exact Or.inl rfl
    rcases hc with hc | ⟨l', hc⟩
    · rw [hc] at h ⊢; exact ih l h
    · rw [hc, relaxAll_true] at h; cases h

/-- The flag does not matter for the layer. -/
theorem relaxAll_flag (ops : CostOps C) (par : List C) (ts : List (Tr C)) : ∀ (l : Layer C) (a b : Bool),
    (relaxAll ops par (l, a) ts).1 = (relaxAll ops par (l, b) ts).1 := by
  induction ts with
  | nil => intro l a b; rfl
  | cons t ts ih =>
    intro l a b
    show (relaxAll ops par (relax ops par (l, a) t) ts).1 = (relaxAll ops par (relax ops par (l, b) t) ts).1
    have : (relax ops par (l, a) t).1 = (relax ops par (l, b) t).1 := by
      unfold relax
      simp only
      split
      · split <;> rfl
      · rfl
    have e1 : relax ops par (l, a) t = ((relax ops par (l, a) t).1, (relax ops par (l, a) t).2) := rfl
    have e2 : relax ops par (l, b) t = ((relax ops par (l, b) t).1, (relax ops par (l, b) t).2) := rfl
    rw [e1, e2, this]
    exact ih _ _ _

/-- What relaxation guarantees for each candidate of the layer. -/
theorem relaxAll_spec {ops : CostOps C} (L : Laws ops) (par : List C) (ts : List (Tr C)) :
    ∀ (s : Layer C × Bool) (k : Nat) c p, (relaxAll ops par s ts).1[k]? = some (c, p) →
      ∃ c0 p0, s.1[k]? = some (c0, p0) ∧
        ((c = c0 ∧ p = p0) ∨ ∃ t ∈ ts, ∃ x, t.to = k ∧ par[t.fr]? = some x ∧ c = t.f x ∧ p = some t.fr ∧
          ops.lt c c0 = true) ∧
        ops.lt c0 c = false ∧
        ∀ t ∈ ts, t.to = k → ∀ x, par[t.fr]? = some x → ops.lt (t.f x) c = false := by
  induction ts with
  | nil =>
    intro s k c p h
    refine ⟨c, p, h, Or.inl ⟨rfl, rfl⟩, ?_, by simp⟩
    cases hb : ops.lt c c with
    | false => rfl
    | true => have := L.asymm c c hb; rw [hb] at this; cases this
  | cons t ts ih =>
    intro s k c p h
    have irr : ∀ a, ops.lt a a = false := by
      intro a
      cases hb : ops.lt a a with
      | false => rfl
      | true => have := L.asymm a a hb; rw [hb] at this; cases this
    have h : (relaxAll ops par (relax ops par s t) ts).1[k]? = some (c, p) := h
    obtain ⟨c1, p1, h1, h2, h3, h4⟩ := ih _ k c p h
    -- the single step
    have hstep : (∃ x, s.1[k]? = some (c1, p1) ∧ (t.to = k → par[t.fr]? = some x → ops.lt (t.f x) c1 = false) ∧
          (par[t.fr]? = some x ∨ par[t.fr]? = none)) ∨
        (s.1[k]? = some (c1, p1) ∧ par[t.fr]? = none) ∨
        ∃ c0 p0 x, s.1[k]? = some (c0, p0) ∧ t.to = k ∧ par[t.fr]? = some x ∧ c1 = t.f x ∧ p1 = some t.fr ∧
          ops.lt c1 c0 = true := by
      unfold relax at h1
      cases hx : par[t.fr]? with
      | none => right; left; rw [hx] at h1; exact ⟨h1, rfl⟩
      | some x =>
        cases ho : s.1[t.to]? with
        | none =>
          left
          rw [hx, ho] at h1
          refine ⟨x, h1, ?_, Or.inl rfl⟩
          intro hk; rw [hk, h1] at ho; cases ho
        | some old =>
          rw [hx, ho] at h1
          simp only at h1
          by_cases hlt : ops.lt (t.f x) old.1 = true
          · rw [if_pos hlt] at h1
            by_cases hk : t.to = k
            · right; right
              subst hk
              have hl := (List.getElem?_eq_some_iff.mp ho).1
              simp only [List.getElem?_set_self hl, Option.some.injEq, Prod.mk.injEq] at h1
              refine ⟨old.1, old.2, x, ho, rfl, rfl, h1.1.symm, h1.2.symm, ?_⟩
              rw [← h1.1]; exact hlt
            · left
              simp only [List.getElem?_set_ne hk] at h1
              exact ⟨x, h1, fun h => absurd h hk, Or.inl rfl⟩
          · rw [if_neg hlt] at h1
            left
            refine ⟨x, h1, ?_, Or.inl rfl⟩
            intro hk _
            rw [hk, h1] at ho; cases ho
            simpa using hlt
    rcases hstep with ⟨x, g1, g2, g3⟩ | ⟨g1, g2⟩ | ⟨c0, p0, x, g1, g2, g3, g4, g5, g6⟩
    · refine ⟨c1, p1, g1, ?_, h3, ?_⟩
      · rcases h2 with h2 | ⟨u, hu, h2⟩
        · exact Or.inl h2
        · exact Or.inr ⟨u, by simp [hu], h2⟩
      · intro u hu hk y hy
        rcases List.mem_cons.mp hu with rfl | hu
        · have hxy : par[u.fr]? = some x := by
            rcases g3 with g3 | g3
            · exact g3
            · rw [g3] at hy; cases hy
          rw [hy] at hxy; cases hxy
          exact L.trans c c1 _ h3 (g2 hk hy)
        · exact h4 u hu hk y hy
    · refine ⟨c1, p1, g1, ?_, h3, ?_⟩
      · rcases h2 with h2 | ⟨u, hu, h2⟩
        · exact Or.inl h2
        · exact Or.inr ⟨u, by simp [hu], h2⟩
      · intro u hu hk y hy
        rcases List.mem_cons.mp hu with rfl | hu
        · rw [g2] at hy; cases hy
        · exact h4 u hu hk y hy
    · have hlt : ops.lt c c0 = true := by
        cases hb : ops.lt c c0 with
        | true => rfl
        | false =>
          -- c0 ≤ c and c ≤ c1 gives c0 ≤ c1
          have := L.trans c0 c c1 hb h3
          rw [this] at g6; cases g6
      refine ⟨c0, p0, g1, Or.inr ?_, L.asymm _ _ hlt, ?_⟩
      · rcases h2 with ⟨rfl, rfl⟩ | ⟨u, hu, y, h2a, h2b, h2c, h2d, _⟩
        · exact ⟨t, by simp, x, g2, g3, g4, g5, hlt⟩
        · exact ⟨u, by simp [hu], y, h2a, h2b, h2c, h2d, hlt⟩
      · intro u hu hk y hy
        rcases List.mem_cons.mp hu with rfl | hu
        · rw [g3] at hy; cases hy
          rw [← g4]; exact h3
        · exact h4 u hu hk y hy

/-- If the flag is set, some candidate got finite costs. -/
theorem relaxAll_found {ops : CostOps C} (L : Laws ops) (par : List C) (ts : List (Tr C)) (l : Layer C)
    (h : (relaxAll ops par (l, false) ts).2 = true) :
    ∃ (k : Nat) (c : C) (p : Option Nat), (relaxAll ops par (l, false) ts).1[k]? = some (c, p) ∧
      ops.lt c ops.inf = true := by
  induction ts generalizing l with
  | nil => cases h
  | cons t ts ih =>
    change (relaxAll ops par (relax ops par (l, false) t) ts).2 = true at h
    show ∃ (k : Nat) (c : C) (p : Option Nat),
      (relaxAll ops par (relax ops par (l, false) t) ts).1[k]? = some (c, p) ∧ ops.lt c ops.inf = true
    have hc : relax ops par (l, false) t = (l, false) ∨ ∃ x old, relax ops par (l, false) t =
        (l.set t.to (t.f x, some t.fr), true) ∧ l[t.to]? = some old ∧ ops.lt (t.f x) old.1 = true := by
      unfold relax
      split
      · rename_i c old h1 h2
        split
        · exact Or.inr ⟨c, old, rfl, h2, by assumption⟩
        · exact Or.inl rfl
      · exact Or.inl rfl
    rcases hc with hc | ⟨x, old, hc, ho, hlt⟩
    · rw [hc] at h ⊢; exact ih l h
    · have hl := (List.getElem?_eq_some_iff.mp ho).1
      have hlen := relaxAll_len ops par ts (relax ops par (l, false) t)
      rw [hc] at hlen ⊢
      simp only [List.length_set] at hlen
      obtain ⟨r, hr⟩ : ∃ r, (relaxAll ops par (l.set t.to (t.f x, some t.fr), true) ts).1[t.to]? = some r :=
        ⟨_, List.getElem?_eq_getElem (by omega)⟩
      obtain ⟨c, p⟩ := r
      refine ⟨t.to, c, p, hr, ?_⟩
      obtain ⟨c0, p0, h1, _, h3, _⟩ := relaxAll_spec L par ts _ t.to c p hr
      simp only [List.getElem?_set_self hl, Option.some.injEq, Prod.mk.injEq] at h1
      have hfin : ops.lt (t.f x) ops.inf = true := by
        cases hb : ops.lt (t.f x) ops.inf with
        | true => rfl
        | false =>
          have := L.trans old.1 ops.inf (t.f x) (L.inf_max _) hb
          rw [this] at hlt; cases hlt
      cases hb : ops.lt c ops.inf with
      | true => rfl
      | false =>
        have := L.trans ops.inf c c0 hb h3
        rw [← h1.1, hfin] at this; cases this

/-! ### the transitions tried -/

/-- All transitions tried for node `nid`. -/
def transOf (env : Env E C X D S) (nid : Nat) (f t : Nd P A) (ents : List (Ent D)) (fb : Option UInt32) :
    List (Tr C) :=
  if f.arr && !t.arr then depTrans env.ops (env.ecm nid)
  else matTrans env nid ents ++ match fb with
    | none => []
    | some mc => nullTrans env.ops (env.ecm t.parent).length (env.ecm nid) mc ++
        dummyTrans env.ops (env.ecm t.parent).length (env.ecm nid)

theorem tryLoop_spec (env : Env E C X D S) (par : List C) (nid : Nat) : ∀ (n : Nat) (s : S) (l : Layer C)
    (costM : List (Ent D)) (newMax mc : UInt32),
    relaxAll env.ops par (l, false) (matTrans env nid costM) = (l, false) →
    let r := tryLoop env par nid n s l costM newMax mc
    relaxAll env.ops par (l, false) (matTrans env nid r.2.2.2.1) = (r.1, r.2.1) := by
  intro n
  induction n with
  | zero => intro s l costM newMax mc h; exact h
  | succ n ih =>
    intro s l costM newMax mc h
    simp only [tryLoop]
    split
    · rfl
    · split
      · rename_i hf
        rw [← hf]
      · rename_i hf
        have := relaxAll_false env.ops par (matTrans env nid (costM ++ (env.hops s nid par newMax).1)) l
          (by simpa using hf)
        rw [this]
        exact ih _ _ _ _ _ this

/-- The maximum costs after `k` doublings. -/
def doubled (m : UInt32) : Nat → UInt32
  | 0 => m
  | k + 1 => double (doubled m k)

/-- The hop cache `s` can occur in a search that starts with `s0`: it is the result of calls with maximum costs that the loop tries. -/
inductive Reach (env : Env E C X D S) (s0 : S) : S → Prop where
  | init : Reach env s0 s0
  | call (s : S) (nid : Nat) (par : List C) (k : Nat) : Reach env s0 s → k < 4 →
      Reach env s0 (env.hops s nid par (doubled (env.maxCost0 nid) k)).2

/-- An entry that does not lead to finite costs. -/
def NoGain (env : Env E C X D S) (nid : Nat) (par : List C) (e : Ent D) : Prop :=
  ∀ x cand, par[e.fr]? = some x → (env.ecm nid)[e.to]? = some cand →
    env.ops.lt (env.ops.add (env.ops.add x cand.pen) (env.weight nid e)) env.ops.inf = false

/-- `l` are the calls for node `nid`: their results are `ents`, the maximum costs are doubled from call to call and are `mc` in the last one, and
another call is made only if the results do not lead to finite costs. `fb` tells whether this was so for the last one, too. -/
structure CallsOK (env : Env E C X D S) (s0 : S) (nid : Nat) (par : List C) (ents : List (Ent D)) (mc : UInt32) (fb : Bool)
    (l : List (S × UInt32)) : Prop where
  res : ents = l.flatMap (fun c => (env.hops c.1 nid par c.2).1)
  call : ∀ (i : Nat) c, l[i]? = some c → Reach env s0 c.1 ∧ c.2 = doubled (env.maxCost0 nid) i
  pos : 1 ≤ l.length
  four : l.length ≤ 4
  max : mc = doubled (env.maxCost0 nid) (l.length - 1)
  again : ∀ (i : Nat) c, l[i]? = some c → i + 1 < l.length → ∀ e ∈ (env.hops c.1 nid par c.2).1, NoGain env nid par e
  last : fb = true → (∀ e ∈ ents, NoGain env nid par e) ∧ (l.length = 4 ∨ double mc = mc)

theorem double_spec (m : UInt32) : m ≤ double m ∧ (double m).toNat ≤ 2 * m.toNat := by
  unfold double
  have := m.toNat_lt
  split
  · next h =>
    rw [UInt32.le_iff_toNat_le] at h
    have h' : m.toNat ≤ 2147483647 := h
    have e : (m * 2).toNat = m.toNat * 2 := by
      rw [UInt32.toNat_mul]
      show m.toNat * 2 % 2 ^ 32 = _
      omega
    rw [UInt32.le_iff_toNat_le, e]
    omega
  · next h =>
    rw [UInt32.le_iff_toNat_le] at h ⊢
    have h' : ¬ m.toNat ≤ 2147483647 := h
    have e : (4294967295 : UInt32).toNat = 4294967295 := rfl
    rw [e]
    omega

theorem noGain_of (env : Env E C X D S) (nid : Nat) (par : List C) (ents : List (Ent D))
    (h : (relaxAll env.ops par (initLayer env nid, false) (matTrans env nid ents)).2 = false) :
    ∀ e ∈ ents, NoGain env nid par e := by
  induction ents with
  | nil => intro e he; cases he
  | cons d ents ih =>
    intro e he
    have hsplit : matTrans env nid (d :: ents) = matTrans env nid [d] ++ matTrans env nid ents := by
      unfold matTrans
      rw [← List.filterMap_append]; rfl
    rw [hsplit, relaxAll_append] at h
    have h1 : relaxAll env.ops par (initLayer env nid, false) (matTrans env nid [d]) = (initLayer env nid, false) := by
      apply relaxAll_false
      cases hb : (relaxAll env.ops par (initLayer env nid, false) (matTrans env nid [d])).2 with
      | false => rfl
      | true =>
        generalize relaxAll env.ops par (initLayer env nid, false) (matTrans env nid [d]) = q at h hb
        obtain ⟨q1, q2⟩ := q
        simp only at hb
        subst hb
        rw [relaxAll_true] at h
        cases h
    rcases List.mem_cons.mp he with rfl | he
    · intro x cand hx hc
      simp only [matTrans, List.filterMap_cons, hc, List.filterMap_nil, relaxAll, List.foldl_cons, List.foldl_nil, relax, hx,
        initLayer, List.getElem?_map, Option.map_some] at h1
      cases hb : env.ops.lt (env.ops.add (env.ops.add x cand.pen) (env.weight nid e)) env.ops.inf with
      | false => rfl
      | true => rw [hb] at h1; simp at h1
    · rw [h1] at h
      exact ih h e he

theorem tryLoop_calls (env : Env E C X D S) (s0 : S) (par : List C) (nid : Nat) : ∀ (n k : Nat) (s : S)
    (costM : List (Ent D)) (mc : UInt32), n + k = 4 → Reach env s0 s →
    relaxAll env.ops par (initLayer env nid, false) (matTrans env nid costM) = (initLayer env nid, false) →
    let r := tryLoop env par nid n s (initLayer env nid) costM (doubled (env.maxCost0 nid) k) mc
    Reach env s0 r.2.2.2.2 ∧ ∃ calls : List (S × UInt32),
      r.2.2.2.1 = costM ++ calls.flatMap (fun c => (env.hops c.1 nid par c.2).1) ∧
      (∀ (i : Nat) c, calls[i]? = some c → Reach env s0 c.1 ∧ c.2 = doubled (env.maxCost0 nid) (k + i)) ∧
      calls.length + k ≤ 4 ∧
      (1 ≤ n → 1 ≤ calls.length ∧ r.2.2.1 = doubled (env.maxCost0 nid) (k + (calls.length - 1))) ∧
      (n = 0 → calls = [] ∧ r.2.2.1 = mc) ∧
      (∀ (i : Nat) c, calls[i]? = some c → i + 1 < calls.length → ∀ e ∈ (env.hops c.1 nid par c.2).1, NoGain env nid par e) ∧
      (r.2.1 = false → (∀ e ∈ r.2.2.2.1, NoGain env nid par e) ∧ (calls.length + k = 4 ∨ double r.2.2.1 = r.2.2.1)) := by
  intro n
  induction n with
  | zero =>
    intro k s costM mc hk hs hr
    refine ⟨hs, [], by simp [tryLoop], by simp, by simp only [List.length_nil]; omega, by simp, by simp [tryLoop], by simp, ?_⟩
    intro _
    refine ⟨?_, Or.inl (by simp only [List.length_nil]; omega)⟩
    simp only [tryLoop]
    exact noGain_of env nid par costM (by rw [hr])
  | succ n ih =>
    intro k s costM mc hk hs hr
    have hcall := Reach.call s nid par k hs (by omega)
    have hone : ∀ (i : Nat) (c : S × UInt32), [(s, doubled (env.maxCost0 nid) k)][i]? = some c →
        Reach env s0 c.1 ∧ c.2 = doubled (env.maxCost0 nid) (k + i) := by
      intro i c hc
      cases i with
      | zero => simp at hc; subst hc; exact ⟨hs, rfl⟩
      | succ i => simp at hc
    simp only [tryLoop]
    split
    · next hd =>
      refine ⟨hcall, [(s, doubled (env.maxCost0 nid) k)], by simp, hone, by simp only [List.length_singleton]; omega, by simp, by simp,
        by simp, ?_⟩
      intro hf
      exact ⟨noGain_of env nid par _ hf, Or.inr hd⟩
    · split
      · exact ⟨hcall, [(s, doubled (env.maxCost0 nid) k)], by simp, hone, by simp only [List.length_singleton]; omega, by simp, by simp,
          by simp, by simp⟩
      · next hf =>
        have hno := noGain_of env nid par (costM ++ (env.hops s nid par (doubled (env.maxCost0 nid) k)).1) (by simpa using hf)
        have hrel := relaxAll_false env.ops par (matTrans env nid (costM ++ (env.hops s nid par (doubled (env.maxCost0 nid) k)).1))
          (initLayer env nid) (by simpa using hf)
        rw [hrel]
        obtain ⟨i1, calls, i2, i3, i4, i5, i6, i7, i8⟩ := ih (k + 1) (env.hops s nid par (doubled (env.maxCost0 nid) k)).2
          (costM ++ (env.hops s nid par (doubled (env.maxCost0 nid) k)).1) (doubled (env.maxCost0 nid) k) (by omega) hcall hrel
        change Reach env s0 (tryLoop env par nid n _ (initLayer env nid) _ (double (doubled (env.maxCost0 nid) k)) _).2.2.2.2 at i1
        simp only [doubled] at i2 i5 i6 i8
        generalize tryLoop env par nid n (env.hops s nid par (doubled (env.maxCost0 nid) k)).2 (initLayer env nid) _
          (double (doubled (env.maxCost0 nid) k)) (doubled (env.maxCost0 nid) k) = r at *
        refine ⟨i1, (s, doubled (env.maxCost0 nid) k) :: calls, by simp [i2], ?_, by simp only [List.length_cons]; omega, ?_, by simp, ?_, ?_⟩
        · intro i c hc
          cases i with
          | zero => simp at hc; subst hc; exact ⟨hs, rfl⟩
          | succ i =>
            rw [List.getElem?_cons_succ] at hc
            have := i3 i c hc
            rw [show k + (i + 1) = k + 1 + i from by omega]
            exact this
        · intro _
          refine ⟨by simp, ?_⟩
          rcases Nat.eq_zero_or_pos n with hz | hz
          · rw [(i6 hz).2, (i6 hz).1]; rfl
          · obtain ⟨j1, j2⟩ := i5 hz
            rw [j2, List.length_cons]
            congr 1
            omega
        · intro i c hc hi
          cases i with
          | zero =>
            simp at hc; subst hc
            intro e he
            exact hno e (by simp [he])
          | succ i =>
            rw [List.getElem?_cons_succ] at hc
            exact i7 i c hc (by simp only [List.length_cons] at hi; omega)
        · intro h
          obtain ⟨j1, j2⟩ := i8 h
          refine ⟨j1, ?_⟩
          rw [List.length_cons]
          rcases j2 with j2 | j2
          · exact Or.inl (by omega)
          · exact Or.inr j2

/-- The layer of `nid` is the result of relaxing the recorded transitions, and these are what the hop calculation returned. -/
structure LayerOK (env : Env E C X D S) (nds : List (Nd P A)) (s0 : S) (st : St C D S) (nid : Nat) (t : Nd P A) :
    Prop where
  root : t.parent = 0 → st.layers nid = (env.ecm nid).map fun c => (c.pen, none)
  next : t.parent ≠ 0 → ∀ f, nds[t.parent]? = some f →
    let r := relaxAll env.ops (st.layers t.parent).costs (initLayer env nid, false)
      (transOf env nid f t (st.ents nid) (st.fb nid))
    st.layers nid = r.1 ∧ (¬ (f.arr && !t.arr) = true → st.fb nid = none → r.2 = true)
  calls : t.parent ≠ 0 → ∀ f, nds[t.parent]? = some f → ¬ (f.arr && !t.arr) = true →
    (∃ l, CallsOK env s0 nid (st.layers t.parent).costs (st.ents nid) (st.mc nid) (st.fb nid).isSome l) ∧
    ∀ m, st.fb nid = some m → m = st.mc nid

theorem child_spec (env : Env E C X D S) (nds : List (Nd P A)) (st : St C D S) (fr to : Nat) (f t : Nd P A)
    (hf : nds[fr]? = some f) (ht : nds[to]? = some t) (hp : t.parent = fr) (h0 : fr ≠ 0) (hne : fr ≠ to)
    (hfresh : st.layers to = initLayer env to) (s0 : S) (hs0 : Reach env s0 st.s) :
    LayerOK env nds s0 (child env nds fr st to) to t ∧ Reach env s0 (child env nds fr st to).s ∧
    ∀ i, i ≠ to → (child env nds fr st to).layers i = st.layers i ∧
      (child env nds fr st to).ents i = st.ents i ∧ (child env nds fr st to).fb i = st.fb i ∧
      (child env nds fr st to).mc i = st.mc i := by
  unfold child
  rw [hf, ht]
  simp only
  by_cases hs : (f.arr && !t.arr) = true
  · rw [if_pos hs]
    refine ⟨⟨fun h => absurd (hp ▸ h) h0, ?_, ?_⟩, hs0, ?_⟩
    · intro _ f' hf'
      rw [hp, hf] at hf'; cases hf'
      simp only [transOf, if_pos hs, hp, if_true, hne, if_false, hfresh, true_and]
      intro h; exact absurd hs h
    · intro _ f' hf' h
      rw [hp, hf] at hf'; cases hf'
      exact absurd hs h
    · intro i hi; simp [hi]
  · rw [if_neg hs]
    have htry := tryLoop_spec env (st.layers fr).costs to 4 st.s (st.layers to) [] (env.maxCost0 to)
      (env.maxCost0 to) rfl
    have hcalls := tryLoop_calls env s0 (st.layers fr).costs to 4 0 st.s [] (env.maxCost0 to) rfl hs0 rfl
    have hd0 : doubled (env.maxCost0 to) 0 = env.maxCost0 to := rfl
    rw [← hfresh, hd0] at hcalls
    generalize tryLoop env (st.layers fr).costs to 4 st.s (st.layers to) [] (env.maxCost0 to)
      (env.maxCost0 to) = r at htry hcalls
    simp only at htry hcalls
    obtain ⟨hreach, calls, hc1, hc2, hc3, hc4, _, hc5, hc6⟩ := hcalls
    refine ⟨⟨fun h => absurd (hp ▸ h) h0, ?_, ?_⟩, hreach, ?_⟩
    · intro _ f' hf'
      rw [hp, hf] at hf'; cases hf'
      simp only [transOf, if_neg hs, hp, if_true, hne, if_false]
      rw [hfresh] at htry
      cases hfound : r.2.1 with
      | true =>
        rw [hfound] at htry
        simp only [if_true, List.append_nil, htry, true_and]
        intros; trivial
      | false =>
        rw [hfound] at htry
        simp only [Bool.false_eq_true, if_false]
        rw [relaxAll_append, htry, relaxAll_append]
        refine ⟨rfl, fun _ h => by cases h⟩
    · intro _ f' hf' _
      simp only [hp, hne, if_false, if_true]
      obtain ⟨hc41, hc42⟩ := hc4 (by omega)
      refine ⟨⟨calls, by simpa using hc1, by simpa using hc2, hc41, by omega, by simpa using hc42, hc5, ?_⟩, ?_⟩
      · intro hb
        cases hf : r.2.1 with
        | true => simp [hf] at hb
        | false => simpa using hc6 hf
      intro m hm
      cases hb : r.2.1 <;> simp [hb] at hm
      exact hm.symm
    · intro i hi; simp [hi]

/-! ### the search visits every node once -/

structure J (env : Env E C X D S) (nds : List (Nd P A)) (s0 : S) (st : St C D S) (done stack : List Nat) : Prop where
  nod : (done ++ stack).Nodup
  bnd : ∀ x ∈ done ++ stack, x ≠ 0 ∧ ∃ t, nds[x]? = some t ∧ (t.parent = 0 ∨ t.parent ∈ done) ∧
    LayerOK env nds s0 st x t
  reach : Reach env s0 st.s
  fresh : ∀ x, x ∉ done ++ stack → st.layers x = initLayer env x

theorem LayerOK.congr {env : Env E C X D S} {nds : List (Nd P A)} {s0 : S} {st st' : St C D S} {nid : Nat} {t : Nd P A}
    (h : LayerOK env nds s0 st nid t) (h1 : st'.layers nid = st.layers nid)
    (h2 : t.parent ≠ 0 → st'.layers t.parent = st.layers t.parent)
    (h3 : st'.ents nid = st.ents nid) (h4 : st'.fb nid = st.fb nid) (h5 : st'.mc nid = st.mc nid) :
    LayerOK env nds s0 st' nid t := by
  refine ⟨fun hr => by rw [h1]; exact h.root hr, fun hr f hf => ?_, fun hr f hf hn => ?_⟩
  · have := h.next hr f hf
    simp only [h1, h2 hr, h3, h4]
    exact this
  · have := h.calls hr f hf hn
    simp only [h2 hr, h3, h4, h5]
    exact this

theorem J.child {env : Env E C X D S} {nds : List (Nd P A)} {s0 : S} {st : St C D S} {done stack : List Nat}
    (w : WF nds) (j : J env nds s0 st done stack) {fr to : Nat} (hfr : fr ∈ done) {f : Nd P A}
    (hf : nds[fr]? = some f) (hto : to ∈ f.childs) (hnew : to ∉ done ++ stack) :
    J env nds s0 (child env nds fr st to) done (to :: stack) := by
  obtain ⟨hlt, t, ht, hp⟩ := w.chi fr f to hf hto
  have h0 := (j.bnd fr (by simp [hfr])).1
  obtain ⟨hok, hre, hrest⟩ := child_spec env nds st fr to f t hf ht hp h0 (by omega) (j.fresh to hnew) s0 j.reach
  refine ⟨?_, ?_, hre, ?_⟩
  · exact List.perm_middle.nodup_iff.mpr (List.nodup_cons.mpr ⟨hnew, j.nod⟩)
  · intro x hx
    have hx' : x = to ∨ x ∈ done ++ stack := by
      have := List.perm_middle.mem_iff.mp hx
      simpa using this
    rcases hx' with rfl | hx'
    · exact ⟨by omega, t, ht, Or.inr (hp ▸ hfr), hok⟩
    · obtain ⟨h1, u, h2, h3, h4⟩ := j.bnd x hx'
      have hne : x ≠ to := fun e => hnew (e ▸ hx')
      refine ⟨h1, u, h2, h3, h4.congr (hrest x hne).1 ?_ (hrest x hne).2.1 (hrest x hne).2.2.1 (hrest x hne).2.2.2⟩
      intro hu
      have : u.parent ∈ done := h3.resolve_left hu
      exact (hrest _ (fun e => hnew (by rw [← e]; simp [this]))).1
  · intro x hx
    have : x ≠ to ∧ x ∉ done ++ stack := by
      constructor
      · rintro rfl; exact hx (by simp)
      · intro h
        apply hx
        rcases List.mem_append.mp h with h | h <;> simp [h]
    rw [(hrest x this.1).1]
    exact j.fresh x this.2

theorem J.childs {env : Env E C X D S} {nds : List (Nd P A)} {s0 : S} {done : List Nat} (w : WF nds) {fr : Nat}
    (hfr : fr ∈ done) {f : Nd P A} (hf : nds[fr]? = some f) : ∀ (cs : List Nat) (st : St C D S)
    (stack : List Nat), J env nds s0 st done stack → cs.Nodup → (∀ c ∈ cs, c ∈ f.childs ∧ c ∉ done ++ stack) →
    ∃ st' new, cs.foldl (fun p to => (Router.child env nds fr p.1 to, to :: p.2)) (st, stack) =
      (st', new ++ stack) ∧ J env nds s0 st' done (new ++ stack) ∧ ∀ c ∈ cs, c ∈ new := by
  intro cs
  induction cs with
  | nil => intro st stack j _ _; exact ⟨st, [], rfl, j, by simp⟩
  | cons c cs ih =>
    intro st stack j hnd hc
    obtain ⟨h1, h2⟩ := hc c (by simp)
    have j' := j.child w hfr hf h1 h2
    have hnd' := List.nodup_cons.mp hnd
    obtain ⟨st', new, e, j'', hn⟩ := ih _ _ j' hnd'.2 (by
      intro d hd
      obtain ⟨g1, g2⟩ := hc d (by simp [hd])
      refine ⟨g1, fun hm => ?_⟩
      have hm := List.perm_middle.mem_iff.mp hm
      rcases List.mem_cons.mp hm with rfl | hm
      · exact hnd'.1 hd
      · exact g2 hm)
    refine ⟨st', new ++ [c], by simpa using e, by simpa using j'', ?_⟩
    intro d hd
    rcases List.mem_cons.mp hd with rfl | hd
    · simp
    · simp [hn d hd]

/-- The children of all finished nodes and of the root are known. -/
def Closed (nds : List (Nd P A)) (done stack : List Nat) : Prop :=
  ∀ x ∈ 0 :: done, ∀ n, nds[x]? = some n → ∀ c ∈ n.childs, c ∈ done ++ stack

theorem loop_spec (env : Env E C X D S) {nds : List (Nd P A)} {s0 : S} (w : WF nds) : ∀ (n : Nat) (st : St C D S)
    (done stack : List Nat), J env nds s0 st done stack → Closed nds done stack → nds.length ≤ n + done.length →
    ∃ done', J env nds s0 (loop env nds n (st, stack)) done' [] ∧ Closed nds done' [] := by
  have bound : ∀ (st : St C D S) (done stack : List Nat), J env nds s0 st done stack →
      done.length + stack.length + 1 ≤ nds.length := by
    intro st done stack j
    have hnd : (0 :: (done ++ stack)).Nodup :=
      List.nodup_cons.mpr ⟨fun h => (j.bnd 0 h).1 rfl, j.nod⟩
    have := hnd.length_le_of_subset (l₂ := List.range nds.length) (by
      intro x hx
      rcases List.mem_cons.mp hx with rfl | hx
      · simp [w.pos]
      · obtain ⟨_, t, ht, _⟩ := j.bnd x hx
        simp [lt_of_get ht])
    simp at this
    omega
  intro n
  induction n with
  | zero =>
    intro st done stack j hc hl
    have := bound st done stack j
    omega
  | succ n ih =>
    intro st done stack j hc hl
    cases stack with
    | nil => exact ⟨done, j, hc⟩
    | cons fr stack =>
      obtain ⟨h0, f, hf, hpf, _⟩ := j.bnd fr (by simp)
      have hfrnd : fr ∉ done := by
        intro hm
        have := (List.nodup_append.mp j.nod).2.2 fr hm fr (by simp)
        exact this rfl
      have jmv : J env nds s0 st (done ++ [fr]) stack := by
        refine ⟨by simpa using j.nod, ?_, j.reach, ?_⟩
        · intro x hx
          obtain ⟨h1, t, h2, h3, h4⟩ := j.bnd x (by simpa using hx)
          refine ⟨h1, t, h2, ?_, h4⟩
          rcases h3 with h3 | h3
          · exact Or.inl h3
          · exact Or.inr (by simp [h3])
        · intro x hx; exact j.fresh x (by simpa using hx)
      obtain ⟨st', new, e, j', hn⟩ := J.childs w (fr := fr) (by simp) hf f.childs st stack jmv (w.nod fr f hf) (by
        intro c hcm
        refine ⟨hcm, fun hm => ?_⟩
        obtain ⟨_, t, ht, hp⟩ := w.chi fr f c hf hcm
        obtain ⟨_, u, hu, hup, _⟩ := j.bnd c (by simpa using hm)
        rw [ht] at hu; cases hu
        rw [hp] at hup
        rcases hup with hup | hup
        · exact h0 hup
        · exact hfrnd hup)
      have hpop : pop env nds fr (st, stack) = (st', new ++ stack) := by
        simp only [pop, hf, e]
      simp only [loop, hpop]
      refine ih st' (done ++ [fr]) (new ++ stack) j' ?_ (by simp; omega)
      intro x hx m hm c hcm
      by_cases hxf : x = fr
      · subst hxf
        rw [hf] at hm; cases hm
        simp [hn c hcm]
      · have : x ∈ 0 :: done := by
          rcases List.mem_cons.mp hx with rfl | hx
          · simp
          · rcases List.mem_append.mp hx with hx | hx
            · simp [hx]
            · simp only [List.mem_singleton] at hx; exact absurd hx hxf
        have := hc x this m hm c hcm
        simp only [List.mem_append, List.mem_cons] at this ⊢
        rcases this with h | rfl | h
        · simp [h]
        · simp
        · simp [h]

/-- Every node but the root is visited, and its layer is the result of relaxing the recorded
transitions. -/
theorem search_spec (env : Env E C X D S) {nds : List (Nd P A)} (w : WF nds) (s : S) (nid : Nat) (t : Nd P A)
    (h0 : nid ≠ 0) (ht : nds[nid]? = some t) : LayerOK env nds s (search env nds s) nid t := by
  obtain ⟨root, hr⟩ := get_of_lt w.pos
  have hinit : ∀ (cs : List Nat) (st : St C D S) (stack : List Nat), J env nds s st [] stack → cs.Nodup →
      (∀ c ∈ cs, c ∈ root.childs ∧ c ∉ stack) →
      ∃ st' new, cs.foldl (first env) (st, stack) = (st', new ++ stack) ∧ J env nds s st' [] (new ++ stack) ∧
        ∀ c ∈ cs, c ∈ new := by
    intro cs
    induction cs with
    | nil => intro st stack j _ _; exact ⟨st, [], rfl, j, by simp⟩
    | cons c cs ih =>
      intro st stack j hnd hc
      obtain ⟨h1, h2⟩ := hc c (by simp)
      obtain ⟨hlt, u, hu, hup⟩ := w.chi 0 root c hr h1
      have hnd' := List.nodup_cons.mp hnd
      obtain ⟨st', new, e, j', hn⟩ := ih (first env (st, stack) c).1 (c :: stack) (by
        refine ⟨List.nodup_cons.mpr ⟨h2, j.nod⟩, ?_, j.reach, ?_⟩
        · intro x hx
          rcases List.mem_cons.mp hx with rfl | hx
          · refine ⟨by omega, u, hu, Or.inl hup, ⟨fun _ => by simp [first], fun h => absurd hup h, fun h => absurd hup h⟩⟩
          · obtain ⟨g1, v, g2, g3, g4⟩ := j.bnd x hx
            have hne : x ≠ c := fun e => h2 (e ▸ hx)
            refine ⟨g1, v, g2, g3, g4.congr (by simp [first, hne]) ?_ rfl rfl rfl⟩
            intro hv
            rcases g3 with g3 | g3
            · exact absurd g3 hv
            · cases g3
        · intro x hx
          have : x ≠ c ∧ x ∉ stack := by simpa using hx
          simp only [first, this.1, if_false]
          exact j.fresh x this.2) hnd'.2 (by
        intro d hd
        obtain ⟨g1, g2⟩ := hc d (by simp [hd])
        refine ⟨g1, fun hm => ?_⟩
        rcases List.mem_cons.mp hm with rfl | hm
        · exact hnd'.1 hd
        · exact g2 hm)
      refine ⟨st', new ++ [c], ?_, by simpa using j', ?_⟩
      · simp only [List.foldl_cons]
        have : first env (st, stack) c = ((first env (st, stack) c).1, c :: stack) := rfl
        rw [this, e]; simp
      · intro d hd
        rcases List.mem_cons.mp hd with rfl | hd
        · simp
        · simp [hn d hd]
  obtain ⟨st', new, e, j, hn⟩ := hinit root.childs ⟨initLayer env, s, fun _ => [], fun _ => none, fun _ => 0⟩ []
    ⟨by simp, by simp, Reach.init, fun _ _ => rfl⟩ (w.nod 0 root hr) (fun c hc => ⟨hc, by simp⟩)
  rw [List.append_nil] at e j
  obtain ⟨done, jd, hcl⟩ := loop_spec env w nds.length st' [] new j (by
    intro x hx n hm c hc
    simp only [List.mem_singleton] at hx
    subst hx
    rw [hr] at hm; cases hm
    simp [hn c hc]) (by simp)
  have hse : search env nds s = loop env nds nds.length (st', new) := by
    simp only [search, hr, e]
  rw [hse]
  have hall : ∀ i, i ≠ 0 → i < nds.length → i ∈ done := by
    intro i
    induction i using Nat.strongRecOn with
    | _ i ih =>
      intro hi hlt
      cases i with
      | zero => exact absurd rfl hi
      | succ i =>
        obtain ⟨m, hm⟩ := get_of_lt hlt
        have hpl := w.par i m hm
        obtain ⟨q, hq, hqc⟩ := w.lnk i m hm
        have hmem : m.parent ∈ 0 :: done := by
          by_cases hz : m.parent = 0
          · simp [hz]
          · exact List.mem_cons_of_mem _ (ih m.parent hpl hz (by omega))
        simpa using hcl m.parent hmem q hq (i + 1) hqc
  obtain ⟨_, u, hu, _, hok⟩ := jd.bnd nid (by simp [hall nid h0 (lt_of_get ht)])
  rw [ht] at hu; cases hu
  exact hok

end Verif.Router
