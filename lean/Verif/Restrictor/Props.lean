import Verif.Restrictor.Model

/-!
# Turn restrictions (properties C18, C19, C20)
-/

set_option linter.unusedSectionVars false

namespace Verif.Restrictor
variable {N E W : Type} [DecidableEq N] [DecidableEq E] [DecidableEq W]

/-! ### specification -/

/-- The restrictions of one kind added at `v`: from edge and target way, in order. -/
def added (h : List (Op N E W)) (v : N) (pos : Bool) : List (E × W) :=
  h.filterMap fun
    | .add fr to via p => if via = v ∧ p = pos then some (fr, to) else none
    | .relax _ _ _ => none

/-- Some edge was announced for way `w` at `n`. -/
def Announced (h : List (Op N E W)) (n : N) (w : W) (e : E) : Prop := Op.relax w n e ∈ h

/-- At most one edge is announced for each node and way (any number of times). -/
def Consistent (h : List (Op N E W)) : Prop :=
  ∀ n w e e', Announced h n w e → Announced h n w e' → e = e'

/-- The stored rules at a node say what was read: same from edges in the same order, and
the target is the edge announced for the way at this node, if any was. -/
def Resolved (h : List (Op N E W)) (v : N) (raw : List (E × W)) (rules : RuleVec E) : Prop :=
  rules.length = raw.length ∧
  ∀ (i : Nat) fr to, raw[i]? = some (fr, to) → ∃ t, rules[i]? = some (fr, t) ∧
    ∀ e, t = some e ↔ Announced h v to e

/-! ### proofs -/

/-- Invariant for one kind of rules. -/
structure Inv (h : List (Op N E W)) (pos : Bool) (rules : N → RuleVec E) (dang : N × W → List (N × Nat)) :
    Prop where
  res : ∀ v, Resolved h v (added h v pos) (rules v)
  sub : ∀ n w m (i : Nat), (m, i) ∈ dang (n, w) → m = n ∧ ∃ fr, (added h n pos)[i]? = some (fr, w)
  dangling : ∀ n w, (∀ e, ¬ Announced h n w e) → ∀ (i : Nat) fr, (added h n pos)[i]? = some (fr, w) →
    (n, i) ∈ dang (n, w)

omit [DecidableEq E] [DecidableEq W] in
theorem patch_spec (paths : List (N × Nat)) (e : E) : ∀ (rules : N → RuleVec E) (v : N),
    (patch rules paths e v).length = (rules v).length ∧
    ∀ (i : Nat) r, (rules v)[i]? = some r →
      (patch rules paths e v)[i]? = some (if (v, i) ∈ paths then (r.1, some e) else r) := by
  induction paths with
  | nil => intro rules v; exact ⟨rfl, fun i r h => by simpa [patch] using h⟩
  | cons p paths ih =>
    intro rules v
    obtain ⟨m, j⟩ := p
    have hstep : patch rules ((m, j) :: paths) e = patch (match (rules m)[j]? with
      | some r => upd rules m ((rules m).set j (r.1, some e))
      | none => rules) paths e := rfl
    rw [hstep]
    cases hg : (rules m)[j]? with
    | none =>
      obtain ⟨l, k⟩ := ih rules v
      refine ⟨l, fun i r h => ?_⟩
      rw [show (match (none : Option (E × Option E)) with
        | some r => upd rules m ((rules m).set j (r.1, some e))
        | none => rules) = rules from rfl, k i r h]
      have : ¬ (v, i) = (m, j) := by
        intro hc
        simp only [Prod.mk.injEq] at hc
        rw [hc.1, hc.2, hg] at h; cases h
      simp [this]
    | some r0 =>
      simp only
      obtain ⟨l, k⟩ := ih (upd rules m ((rules m).set j (r0.1, some e))) v
      by_cases hv : v = m
      · subst hv
        have hlen : (upd rules v ((rules v).set j (r0.1, some e)) v) = (rules v).set j (r0.1, some e) := by
          simp [upd]
        rw [hlen] at l k
        refine ⟨by rw [l]; simp, fun i r h => ?_⟩
        by_cases hi : i = j
        · subst hi
          rw [hg] at h; cases h
          have hlt := (List.getElem?_eq_some_iff.mp hg).1
          rw [k i (r0.1, some e) (by simp [hlt])]
          simp
        · rw [k i r (by rw [List.getElem?_set_ne (fun e => hi e.symm)]; exact h)]
          simp [hi]
      · have hlen : (upd rules m ((rules m).set j (r0.1, some e)) v) = rules v := by
          simp [upd, hv]
        rw [hlen] at l k
        refine ⟨l, fun i r h => ?_⟩
        rw [k i r h]
        simp [hv]

theorem Inv.relax {h : List (Op N E W)} {pos : Bool} {rules : N → RuleVec E} {dang : N × W → List (N × Nat)}
    (I : Inv h pos rules dang) (w : W) (n : N) (e : E) (hc : Consistent (h ++ [.relax w n e])) :
    Inv (h ++ [.relax w n e]) pos (patch rules (dang (n, w)) e) dang := by
  have hadd : ∀ v, added (h ++ [Op.relax w n e]) v pos = added h v pos := by
    intro v; simp [added]
  have hann : ∀ m u x, Announced (h ++ [Op.relax w n e]) m u x ↔
      Announced h m u x ∨ (u = w ∧ m = n ∧ x = e) := by
    intro m u x; simp [Announced]
  refine ⟨?_, ?_, ?_⟩
  · intro v
    rw [hadd]
    obtain ⟨hl, hr⟩ := I.res v
    obtain ⟨pl, pk⟩ := patch_spec (dang (n, w)) e rules v
    refine ⟨pl.trans hl, ?_⟩
    intro i fr to hi
    obtain ⟨t, ht, hte⟩ := hr i fr to hi
    rw [pk i (fr, t) ht]
    by_cases hm : (v, i) ∈ dang (n, w)
    · obtain ⟨hv, fr', hfr⟩ := I.sub n w v i hm
      subst hv
      rw [hi] at hfr
      simp only [Option.some.injEq, Prod.mk.injEq] at hfr
      obtain ⟨_, hto⟩ := hfr
      refine ⟨some e, by simp [hm], ?_⟩
      intro x
      rw [hann, hto]
      simp only [Option.some.injEq, true_and]
      constructor
      · intro he; exact Or.inr he.symm
      · rintro (hx | hx)
        · exact hc v w e x (by simp [Announced]) (by rw [hann]; exact Or.inl hx)
        · exact hx.symm
    · refine ⟨t, by simp [hm], ?_⟩
      intro x
      rw [hte, hann]
      constructor
      · exact Or.inl
      · rintro (hx | ⟨hu, hv, hx⟩)
        · exact hx
        · subst hu; subst hv; subst hx
          -- the way was announced before, otherwise the rule would dangle
          by_cases hex : ∃ y, Announced h v to y
          · obtain ⟨y, hy⟩ := hex
            have := hc v to y x (by rw [hann]; exact Or.inl hy) (by simp [Announced])
            exact this ▸ hy
          · exact absurd (I.dangling v to (fun y hy => hex ⟨y, hy⟩) i fr hi) hm
  · intro a b m i hm
    rw [hadd]
    exact I.sub a b m i hm
  · intro a b hna i fr hi
    rw [hadd] at hi
    exact I.dangling a b (fun x hx => hna x (by rw [hann]; exact Or.inl hx)) i fr hi

theorem Inv.add_other {h : List (Op N E W)} {pos : Bool} {rules : N → RuleVec E}
    {dang : N × W → List (N × Nat)} (I : Inv h pos rules dang) (fr : E) (to : W) (via : N) (p : Bool)
    (hp : p ≠ pos) : Inv (h ++ [.add fr to via p]) pos rules dang := by
  have hadd : ∀ v, added (h ++ [Op.add fr to via p]) v pos = added h v pos := by
    intro v; simp [added, hp]
  have hann : ∀ m u x, Announced (h ++ [Op.add fr to via p]) m u x ↔ Announced h m u x := by
    intro m u x; simp [Announced]
  refine ⟨?_, ?_, ?_⟩
  · intro v
    rw [hadd]
    obtain ⟨hl, hr⟩ := I.res v
    refine ⟨hl, fun i a b hi => ?_⟩
    obtain ⟨t, ht, hte⟩ := hr i a b hi
    exact ⟨t, ht, fun x => by rw [hann]; exact hte x⟩
  · intro a b m i hm; rw [hadd]; exact I.sub a b m i hm
  · intro a b hna i x hi
    rw [hadd] at hi
    exact I.dangling a b (fun y hy => hna y (by rw [hann]; exact hy)) i x hi

theorem Inv.add {h : List (Op N E W)} {pos : Bool} {rules : N → RuleVec E}
    {dang : N × W → List (N × Nat)} (I : Inv h pos rules dang) (fr : E) (to : W) (via : N) (toE : Option E)
    (hto : ∀ e, toE = some e ↔ Announced h via to e) :
    Inv (h ++ [.add fr to via pos]) pos (upd rules via (rules via ++ [(fr, toE)]))
      (if toE.isNone then upd dang (via, to) (dang (via, to) ++ [(via, (rules via).length)]) else dang) := by
  have hadd : ∀ v, added (h ++ [Op.add fr to via pos]) v pos =
      if v = via then added h v pos ++ [(fr, to)] else added h v pos := by
    intro v
    by_cases hv : v = via
    · simp [added, hv]
    · have : ¬ via = v := fun e => hv e.symm
      simp [added, hv, this]
  have hann : ∀ m u x, Announced (h ++ [Op.add fr to via pos]) m u x ↔ Announced h m u x := by
    intro m u x; simp [Announced]
  obtain ⟨hlv, _⟩ := I.res via
  refine ⟨?_, ?_, ?_⟩
  · intro v
    rw [hadd]
    obtain ⟨hl, hr⟩ := I.res v
    by_cases hv : v = via
    · subst hv
      simp only [if_true, upd]
      refine ⟨by simp [hl], ?_⟩
      intro i a b hi
      by_cases hlt : i < (added h v pos).length
      · rw [List.getElem?_append_left hlt] at hi
        obtain ⟨t, ht, hte⟩ := hr i a b hi
        refine ⟨t, ?_, fun x => by rw [hann]; exact hte x⟩
        rw [List.getElem?_append_left (by omega)]; exact ht
      · have hieq : i = (added h v pos).length := by
          have := (List.getElem?_eq_some_iff.mp hi).1
          simp at this; omega
        subst hieq
        simp only [List.getElem?_concat_length, Option.some.injEq, Prod.mk.injEq] at hi
        obtain ⟨rfl, rfl⟩ := hi
        refine ⟨toE, ?_, fun x => by rw [hann]; exact hto x⟩
        rw [← hl]; simp
    · simp only [hv, if_false, upd]
      refine ⟨hl, fun i a b hi => ?_⟩
      obtain ⟨t, ht, hte⟩ := hr i a b hi
      exact ⟨t, ht, fun x => by rw [hann]; exact hte x⟩
  · -- stored paths point to rules with this target
    have old : ∀ n w m (i : Nat), (m, i) ∈ dang (n, w) → m = n ∧
        ∃ f, (added (h ++ [Op.add fr to via pos]) n pos)[i]? = some (f, w) := by
      intro n w m i hm
      obtain ⟨h1, f, h2⟩ := I.sub n w m i hm
      refine ⟨h1, f, ?_⟩
      rw [hadd]
      split
      · rw [List.getElem?_append_left (List.getElem?_eq_some_iff.mp h2).1]; exact h2
      · exact h2
    intro n w m i hm
    split at hm
    · simp only [upd] at hm
      split at hm
      · rename_i heq
        simp only [Prod.mk.injEq] at heq
        obtain ⟨rfl, rfl⟩ := heq
        rcases List.mem_append.mp hm with hm | hm
        · exact old n w m i hm
        · simp only [List.mem_singleton, Prod.mk.injEq] at hm
          obtain ⟨rfl, rfl⟩ := hm
          refine ⟨rfl, fr, ?_⟩
          rw [hadd, hlv]; simp
      · exact old n w m i hm
    · exact old n w m i hm
  · intro n w hna i f hi
    have hna' : ∀ x, ¬ Announced h n w x := fun x hx => hna x (by rw [hann]; exact hx)
    rw [hadd] at hi
    have keep : ∀ (d : N × Nat), d ∈ dang (n, w) → d ∈ (if toE.isNone then
        upd dang (via, to) (dang (via, to) ++ [(via, (rules via).length)]) else dang) (n, w) := by
      intro d hd
      split
      · simp only [upd]
        split
        · rename_i heq; rw [heq] at hd; exact List.mem_append_left _ hd
        · exact hd
      · exact hd
    by_cases hn : n = via
    · subst hn
      simp only [if_true] at hi
      by_cases hlt : i < (added h n pos).length
      · rw [List.getElem?_append_left hlt] at hi
        exact keep _ (I.dangling n w hna' i f hi)
      · have hieq : i = (added h n pos).length := by
          have := (List.getElem?_eq_some_iff.mp hi).1
          simp at this; omega
        subst hieq
        simp only [List.getElem?_concat_length, Option.some.injEq, Prod.mk.injEq] at hi
        obtain ⟨rfl, rfl⟩ := hi
        have hnone : toE = none := by
          cases ht : toE with
          | none => rfl
          | some x => exact absurd ((hto x).mp ht) (hna' x)
        simp [hnone, upd, hlv]
    · simp only [hn, if_false] at hi
      exact keep _ (I.dangling n w hna' i f hi)

structure RInv (h : List (Op N E W)) (r : R N E W) : Prop where
  rlx : ∀ n w e, r.rlx (n, w) = some e ↔ Announced h n w e
  pos : Inv h true r.pos r.posD
  neg : Inv h false r.neg r.negD

theorem run_inv (h : List (Op N E W)) (hc : Consistent h) : RInv h (run h) := by
  have key : ∀ k : List (Op N E W), Consistent k.reverse → RInv k.reverse (run k.reverse) := by
    intro k
    induction k with
    | nil =>
      intro _
      refine ⟨?_, ?_, ?_⟩
      · intro n w e; simp [run, R.init, Announced]
      · exact ⟨fun v => ⟨rfl, by simp [added]⟩, by simp [run, R.init], by simp [added]⟩
      · exact ⟨fun v => ⟨rfl, by simp [added]⟩, by simp [run, R.init], by simp [added]⟩
    | cons op k ih =>
      intro hc
      rw [List.reverse_cons] at hc ⊢
      have hc' : Consistent k.reverse := fun n w e e' h1 h2 =>
        hc n w e e' (List.mem_append_left _ h1) (List.mem_append_left _ h2)
      have I := ih hc'
      have hrun : run (k.reverse ++ [op]) = (run k.reverse).exec op := by
        simp [run, List.foldl_append]
      rw [hrun]
      cases op with
      | relax w n e =>
        refine ⟨?_, I.pos.relax w n e hc, I.neg.relax w n e hc⟩
        intro m u x
        simp only [R.exec, R.relax, upd, Prod.mk.injEq]
        by_cases hmu : m = n ∧ u = w
        · obtain ⟨rfl, rfl⟩ := hmu
          simp only [and_self, if_true, Option.some.injEq]
          constructor
          · rintro rfl; simp [Announced]
          · intro hx; exact hc m u e x (by simp [Announced]) hx
        · simp only [hmu, if_false]
          rw [I.rlx]
          constructor
          · exact List.mem_append_left _
          · intro hx
            rcases List.mem_append.mp hx with hx | hx
            · exact hx
            · simp only [List.mem_singleton, Op.relax.injEq] at hx
              exact absurd ⟨hx.2.1, hx.1⟩ hmu
      | add fr to via p =>
        have hrl : ∀ n w e, (run k.reverse).rlx (n, w) = some e ↔
            Announced (k.reverse ++ [Op.add fr to via p]) n w e := by
          intro n w e
          rw [I.rlx]; simp [Announced]
        cases p with
        | true =>
          refine ⟨hrl, ?_, ?_⟩
          · exact I.pos.add fr to via ((run k.reverse).rlx (via, to)) (fun e => I.rlx via to e)
          · exact I.neg.add_other fr to via true (by simp)
        | false =>
          refine ⟨hrl, ?_, ?_⟩
          · exact I.pos.add_other fr to via false (by simp)
          · exact I.neg.add fr to via ((run k.reverse).rlx (via, to)) (fun e => I.rlx via to e)
  have := key h.reverse (by simpa using hc)
  simpa using this

/-! ### C18 -/

/-- C18. For every interleaving of restrictions and edge announcements (at most one edge
per node and way), the stored rules are the restrictions read, in order, each with the
edge announced for its target way, whether that was announced before or after. -/
theorem C18_resolved (h : List (Op N E W)) (hc : Consistent h) (v : N) :
    Resolved h v (added h v true) ((run h).pos v) ∧ Resolved h v (added h v false) ((run h).neg v) :=
  ⟨(run_inv h hc).pos.res v, (run_inv h hc).neg.res v⟩

omit [DecidableEq N] [DecidableEq E] [DecidableEq W] in
theorem Resolved.unique {h h' : List (Op N E W)} {v : N} {raw : List (E × W)} {a b : RuleVec E}
    (ha : Resolved h v raw a) (hb : Resolved h' v raw b)
    (he : ∀ w e, Announced h v w e ↔ Announced h' v w e) : a = b := by
  apply List.ext_getElem?
  intro i
  cases hr : raw[i]? with
  | none =>
    have := List.getElem?_eq_none_iff.mp hr
    rw [List.getElem?_eq_none (by rw [ha.1]; exact this), List.getElem?_eq_none (by rw [hb.1]; exact this)]
  | some p =>
    obtain ⟨fr, to⟩ := p
    obtain ⟨t, h1, h2⟩ := ha.2 i fr to hr
    obtain ⟨u, g1, g2⟩ := hb.2 i fr to hr
    have : t = u := by
      apply Option.ext
      intro e
      rw [h2, g2, he]
    rw [h1, g1, this]

/-- C18. Two histories with the same restrictions per node and kind (in the same order)
and the same announcements allow the same turns, however restrictions and announcements,
different nodes and different target ways interleave. -/
theorem C18_interleaving (h h' : List (Op N E W)) (hc : Consistent h)
    (ha : ∀ v p, added h v p = added h' v p) (he : ∀ n w e, Announced h n w e ↔ Announced h' n w e)
    (fr to : E) (via : N) : (run h).may fr to via = (run h').may fr to via := by
  have hc' : Consistent h' := fun n w e e' h1 h2 =>
    hc n w e e' ((he n w e).mpr h1) ((he n w e').mpr h2)
  obtain ⟨p1, n1⟩ := C18_resolved h hc via
  obtain ⟨p2, n2⟩ := C18_resolved h' hc' via
  rw [← ha] at p2 n2
  have ep := p1.unique p2 (fun w e => he via w e)
  have en := n1.unique n2 (fun w e => he via w e)
  simp only [R.may, ep, en]

/-! ### C19 -/

/-- A rule of `fr` whose target is known. -/
def Decides (fr : E) (r : E × Option E) : Prop := r.1 = fr ∧ r.2 ≠ none

omit [DecidableEq N] [DecidableEq W] in
theorem mayNeg_iff (fr to : E) (rs : RuleVec E) : mayNeg fr to rs = true ↔ (fr, some to) ∉ rs := by
  induction rs with
  | nil => simp [mayNeg]
  | cons r rs ih =>
    obtain ⟨a, b⟩ := r
    simp only [mayNeg]
    split
    · rename_i h; simp [h.1, h.2]
    · rename_i h
      rw [ih]
      simp only [List.mem_cons, Prod.mk.injEq, not_or, iff_and_self]
      intro _ hh
      exact h ⟨hh.1.symm, hh.2.symm⟩

omit [DecidableEq N] [DecidableEq W] in
theorem mayPos_spec (fr to : E) (rs : RuleVec E) :
    (mayPos fr to rs = none ↔ ∀ r ∈ rs, ¬ Decides fr r) ∧
    ∀ b, mayPos fr to rs = some b ↔ ∃ pre t post, rs = pre ++ (fr, some t) :: post ∧
      (∀ r ∈ pre, ¬ Decides fr r) ∧ (b = true ↔ t = to) := by
  induction rs with
  | nil => simp [mayPos]
  | cons r rs ih =>
    obtain ⟨a, c⟩ := r
    by_cases hd : Decides fr (a, c)
    · obtain ⟨h1, h2⟩ := hd
      simp only at h1 h2
      obtain ⟨t, ht⟩ := Option.ne_none_iff_exists'.mp h2
      subst h1; subst ht
      have hval : mayPos a to ((a, some t) :: rs) = some (decide (t = to)) := by
        by_cases hto : t = to
        · simp [mayPos, hto]
        · simp [mayPos, hto]
      rw [hval]
      constructor
      · simp [Decides]
      · intro b
        constructor
        · intro hb
          refine ⟨[], t, rs, rfl, by simp, ?_⟩
          simp only [Option.some.injEq] at hb
          rw [← hb]; simp
        · rintro ⟨pre, t', post, he, hpre, hb⟩
          cases pre with
          | nil =>
            simp only [List.nil_append, List.cons.injEq, Prod.mk.injEq, Option.some.injEq, true_and] at he
            rw [he.1]
            congr 1
            rw [Bool.eq_iff_iff, hb]; simp
          | cons p pre =>
            simp only [List.cons_append, List.cons.injEq] at he
            exact absurd ⟨rfl, by simp⟩ (he.1 ▸ hpre p (by simp))
    · have hval : mayPos fr to ((a, c) :: rs) = mayPos fr to rs := by
        simp only [mayPos]
        have n1 : ¬ (a = fr ∧ c.isSome = true ∧ c ≠ some to) := by
          rintro ⟨x, y, _⟩; exact hd ⟨x, by cases c <;> simp_all⟩
        have n2 : ¬ (a = fr ∧ c = some to) := by
          rintro ⟨x, y⟩; exact hd ⟨x, by simp [y]⟩
        rw [if_neg n1, if_neg n2]
      rw [hval]
      constructor
      · rw [ih.1]; simp [hd]
      · intro b
        rw [ih.2]
        constructor
        · rintro ⟨pre, t, post, he, hpre, hb⟩
          refine ⟨(a, c) :: pre, t, post, by rw [he]; rfl, ?_, hb⟩
          intro r hr
          rcases List.mem_cons.mp hr with rfl | hr
          · exact hd
          · exact hpre r hr
        · rintro ⟨pre, t, post, he, hpre, hb⟩
          cases pre with
          | nil =>
            simp only [List.nil_append, List.cons.injEq] at he
            exact absurd ⟨by rw [he.1], by rw [he.1]; simp⟩ hd
          | cons p pre =>
            simp only [List.cons_append, List.cons.injEq] at he
            exact ⟨pre, t, post, he.2, fun r hr => hpre r (by simp [hr]), hb⟩

omit [DecidableEq N] [DecidableEq W] in
/-- C19. A turn is allowed iff the first mandatory rule of the from edge with a known
target demands this very edge, or there is no such rule and no prohibition of the turn.
Rules without known target have no effect. -/
theorem C19_meaning (r : R N E W) (fr to : E) (via : N) :
    r.may fr to via = true ↔
      (∃ pre post, r.pos via = pre ++ (fr, some to) :: post ∧ ∀ x ∈ pre, ¬ Decides fr x) ∨
      ((∀ x ∈ r.pos via, ¬ Decides fr x) ∧ (fr, some to) ∉ r.neg via) := by
  obtain ⟨h1, h2⟩ := mayPos_spec fr to (r.pos via)
  unfold R.may
  cases hm : mayPos fr to (r.pos via) with
  | none =>
    have hno := h1.mp hm
    simp only
    rw [mayNeg_iff]
    constructor
    · intro h; exact Or.inr ⟨hno, h⟩
    · rintro (⟨pre, post, he, _⟩ | ⟨_, h⟩)
      · exact absurd ⟨rfl, by simp⟩ (hno (fr, some to) (by rw [he]; simp))
      · exact h
  | some b =>
    obtain ⟨pre, t, post, he, hpre, hb⟩ := (h2 b).mp hm
    simp only
    rw [hb]
    constructor
    · rintro rfl; exact Or.inl ⟨pre, post, he, hpre⟩
    · rintro (⟨pre', post', he', hpre'⟩ | ⟨hno, _⟩)
      · have : some b = some true := by
          rw [← hm]
          exact (h2 true).mpr ⟨pre', to, post', he', hpre', by simp⟩
        simp only [Option.some.injEq] at this
        exact hb.mp this
      · exact absurd ⟨rfl, by simp⟩ (hno (fr, some t) (by rw [he]; simp))

/-- C18/C19. Without two mandatory rules of one edge with different targets at the node,
the answer depends only on the sets of rules, not on their order. -/
theorem C18_set_partial (r r' : R N E W) (fr to : E) (via : N)
    (hone : ∀ t t', (fr, some t) ∈ r.pos via → (fr, some t') ∈ r.pos via → t = t')
    (hp : ∀ x, x ∈ r.pos via ↔ x ∈ r'.pos via) (hn : ∀ x, x ∈ r.neg via ↔ x ∈ r'.neg via) :
    r.may fr to via = r'.may fr to via := by
  have key : ∀ q : R N E W, (∀ t t', (fr, some t) ∈ q.pos via → (fr, some t') ∈ q.pos via → t = t') →
      (q.may fr to via = true ↔ (fr, some to) ∈ q.pos via ∨
        ((∀ x ∈ q.pos via, ¬ Decides fr x) ∧ (fr, some to) ∉ q.neg via)) := by
    intro q hone
    rw [C19_meaning]
    constructor
    · rintro (⟨pre, post, he, _⟩ | h)
      · exact Or.inl (by rw [he]; simp)
      · exact Or.inr h
    · rintro (h | h)
      · left
        -- the first deciding rule demands `to` as well
        cases hm : mayPos fr to (q.pos via) with
        | none =>
          exact absurd ⟨rfl, by simp⟩ ((mayPos_spec fr to (q.pos via)).1.mp hm (fr, some to) h)
        | some b =>
          obtain ⟨pre, t, post, he, hpre, _⟩ := ((mayPos_spec fr to (q.pos via)).2 b).mp hm
          have : t = to := hone t to (by rw [he]; simp) h
          subst this
          exact ⟨pre, post, he, hpre⟩
      · exact Or.inr h
  rw [Bool.eq_iff_iff, key r hone, key r' (fun t t' h1 h2 => hone t t' ((hp _).mpr h1) ((hp _).mpr h2)),
    hp, hn]
  have : (∀ x ∈ r.pos via, ¬ Decides fr x) ↔ ∀ x ∈ r'.pos via, ¬ Decides fr x :=
    ⟨fun h x hx => h x ((hp x).mpr hx), fun h x hx => h x ((hp x).mp hx)⟩
  rw [this]

/-- C18, negation of the full claim: of two mandatory rules of one edge the one read first
wins. Edges 1 → 2 and 1 → 3 are demanded at node 0. -/
theorem C18_negation :
    ∃ (h h' : List (Op Nat Nat Nat)), Consistent h ∧ h.Perm h' ∧
      (run h).may 1 2 0 ≠ (run h').may 1 2 0 := by
  refine ⟨[.relax 20 0 2, .relax 30 0 3, .add 1 20 0 true, .add 1 30 0 true],
    [.relax 20 0 2, .relax 30 0 3, .add 1 30 0 true, .add 1 20 0 true], ?_, ?_, by decide⟩
  · intro n w e e' h1 h2
    simp [Announced] at h1 h2
    omega
  · exact List.Perm.cons _ (List.Perm.cons _ (List.Perm.swap _ _ _))

/-- C18, the proviso of one edge per node and way is needed: if the target way runs
through the node, two edges are announced and the order decides which one is meant. -/
theorem C18_limit_two_edges :
    ∃ (h h' : List (Op Nat Nat Nat)), h.Perm h' ∧ (∀ v p, added h v p = added h' v p) ∧
      (run h).may 1 2 0 ≠ (run h').may 1 2 0 := by
  refine ⟨[.add 1 20 0 false, .relax 20 0 2, .relax 20 0 3],
    [.relax 20 0 2, .add 1 20 0 false, .relax 20 0 3], List.Perm.swap _ _ _, ?_, by decide⟩
  intro v p
  by_cases h : 0 = v ∧ false = p <;> simp [added, List.filterMap_cons]

/-- C19, finding: a restriction from a way to the same way (no U-turn) is never resolved:
if at the node every restriction to `w` also comes from `w`, processing edges never
announces an edge for `w`, so by `C19_meaning` the rule has no effect. -/
theorem C19_u_turns_ignored (raws : List (Raw W)) (pos : Bool) (w : W)
    (hu : ∀ kv ∈ raws, kv.eTo = w → kv.eFrom = w) (w' : W) (e : E) (n n' : N) (e' : E) :
    Op.relax w n' e' ∉ (processRestr raws pos w' e n : List (Op N E W)) := by
  intro hm
  simp only [processRestr, List.mem_flatMap] at hm
  obtain ⟨kv, hkv, hm⟩ := hm
  by_cases h1 : kv.eFrom = w'
  · simp [h1] at hm
  · by_cases h2 : kv.eTo = w'
    · simp only [h1, if_false, h2, if_true, List.mem_singleton, Op.relax.injEq] at hm
      have := hu kv hkv (by rw [h2]; exact hm.1.symm)
      exact h1 (this.trans hm.1)
    · simp [h1, h2] at hm

/-! ### C20 -/

/-- `e` does not occur in the rules. -/
abbrev Unused (e : E) (rs : RuleVec E) : Prop := ∀ r ∈ rs, r.1 ≠ e ∧ r.2 ≠ some e

/-- Renaming of the rules by two maps (for from and target) that are injective on what
occurs does not change the answer. -/
theorem mayPos_map (f g : E → E) (fr to : E) (rs : RuleVec E)
    (hf : ∀ r ∈ rs, f r.1 = f fr → r.1 = fr) (hg : ∀ r ∈ rs, ∀ t, r.2 = some t → g t = g to → t = to) :
    mayPos (f fr) (g to) (rs.map fun r => (f r.1, r.2.map g)) = mayPos fr to rs := by
  induction rs with
  | nil => rfl
  | cons r rs ih =>
    have ih := ih (fun x hx => hf x (by simp [hx])) (fun x hx => hg x (by simp [hx]))
    obtain ⟨a, b⟩ := r
    have h1 : f a = f fr ↔ a = fr := ⟨hf (a, b) (by simp), fun h => by rw [h]⟩
    cases b with
    | none => simp [mayPos, ih]
    | some t =>
      have h2 : g t = g to ↔ t = to := ⟨hg (a, some t) (by simp) t rfl, fun h => by rw [h]⟩
      simp [mayPos, ih, h1, h2]

theorem mayNeg_map (f g : E → E) (fr to : E) (rs : RuleVec E)
    (hf : ∀ r ∈ rs, f r.1 = f fr → r.1 = fr) (hg : ∀ r ∈ rs, ∀ t, r.2 = some t → g t = g to → t = to) :
    mayNeg (f fr) (g to) (rs.map fun r => (f r.1, r.2.map g)) = mayNeg fr to rs := by
  induction rs with
  | nil => rfl
  | cons r rs ih =>
    have ih := ih (fun x hx => hf x (by simp [hx])) (fun x hx => hg x (by simp [hx]))
    obtain ⟨a, b⟩ := r
    have h1 : f a = f fr ↔ a = fr := ⟨hf (a, b) (by simp), fun h => by rw [h]⟩
    cases b with
    | none => simp [mayNeg, ih]
    | some t =>
      have h2 : g t = g to ↔ t = to := ⟨hg (a, some t) (by simp) t rfl, fun h => by rw [h]⟩
      simp [mayNeg, ih, h1, h2]

/-- `new` instead of `old`. -/
def subst (old new e : E) : E := if e = old then new else e

theorem subst_inj {old new a b : E} (ha : a ≠ new) (hb : b ≠ new) (h : subst old new a = subst old new b) :
    a = b := by
  unfold subst at h
  by_cases h1 : a = old
  · by_cases h2 : b = old
    · rw [h1, h2]
    · simp only [h1, if_true, h2, if_false] at h; exact absurd h.symm hb
  · by_cases h2 : b = old
    · simp only [h1, if_false, h2, if_true] at h; exact absurd h ha
    · simpa [h1, h2] using h

theorem replaceIn_eq (old new : E) (rs : RuleVec E) :
    replaceIn old new rs = rs.map fun r => (subst old new r.1, r.2.map (subst old new)) := by
  apply List.map_congr_left
  intro r _
  obtain ⟨a, b⟩ := r
  cases b with
  | none => simp [subst]
  | some t => by_cases h : t = old <;> simp [subst, h]

theorem replaceIn_may {rp rn : RuleVec E} (old new fr to : E) (hp : Unused new rp) (hn : Unused new rn)
    (hfr : fr ≠ new) (hto : to ≠ new) :
    (match mayPos (subst old new fr) (subst old new to) (replaceIn old new rp) with
      | some b => b
      | none => mayNeg (subst old new fr) (subst old new to) (replaceIn old new rn)) =
    match mayPos fr to rp with
      | some b => b
      | none => mayNeg fr to rn := by
  rw [replaceIn_eq, replaceIn_eq, mayPos_map, mayNeg_map]
  · intro r hr h; exact subst_inj (hn r hr).1 hfr h
  · intro r hr t ht h
    exact subst_inj (fun e => (hn r hr).2 (by rw [ht, e])) hto h
  · intro r hr h; exact subst_inj (hp r hr).1 hfr h
  · intro r hr t ht h
    exact subst_inj (fun e => (hp r hr).2 (by rw [ht, e])) hto h

/-- C20. After the edge `old` (not a loop) was split into `newA`, `newB`, at each end point
of `old` the part touching that end point is allowed and refused the same turns as `old`
was; other turns and other nodes are not affected. The new edges are new, i.e. do not occur
in rules. -/
theorem C20_split (g : Ends N E) (r : R N E W) (old newA newB : E) (hloop : g.src old ≠ g.dst old)
    (hA : ∀ v, Unused newA (r.pos v) ∧ Unused newA (r.neg v))
    (hB : ∀ v, Unused newB (r.pos v) ∧ Unused newB (r.neg v)) :
    let part (v : N) : E :=
      if (g.src old = g.src newA ∨ g.src old = g.dst newA) = (v = g.src old) then newA else newB
    let r' := r.replaceEdge g old newA newB
    (∀ v, v = g.src old ∨ v = g.dst old → ∀ fr to, fr ≠ part v → to ≠ part v →
      r'.may (subst old (part v) fr) (subst old (part v) to) v = r.may fr to v) ∧
    ∀ v, v ≠ g.src old → v ≠ g.dst old → ∀ fr to, r'.may fr to v = r.may fr to v := by
  intro part r'
  have hne : ¬ g.dst old = g.src old := fun e => hloop e.symm
  refine ⟨?_, ?_⟩
  · intro v hv fr to hfr hto
    have hU : Unused (part v) (r.pos v) ∧ Unused (part v) (r.neg v) := by
      simp only [part]
      split
      · exact hA v
      · exact hB v
    have hpos : r'.pos v = replaceIn old (part v) (r.pos v) ∧ r'.neg v = replaceIn old (part v) (r.neg v) := by
      simp only [r', R.replaceEdge, R.replaceAt, part]
      rcases hv with rfl | rfl
      · by_cases hc : g.src old = g.src newA ∨ g.src old = g.dst newA
        · simp [hc, upd, hloop]
        · simp [hc, upd, hloop]
      · by_cases hc : g.src old = g.src newA ∨ g.src old = g.dst newA
        · simp [hc, upd, hne]
        · simp [hc, upd, hne]
    simp only [R.may, hpos.1, hpos.2]
    exact replaceIn_may old (part v) fr to hU.1 hU.2 hfr hto
  · intro v h1 h2 fr to
    have : r'.pos v = r.pos v ∧ r'.neg v = r.neg v := by
      simp [r', R.replaceEdge, R.replaceAt, upd, h1, h2]
    simp only [R.may, this.1, this.2]

/-- `v` is an end point of `e`. -/
def Touches (g : Ends N E) (e : E) (v : N) : Prop := g.src e = v ∨ g.dst e = v

/-- C20. As `C20_split`, for the part `e` that touches the end point `v`: one part touches
one end point of `old`, the other part the other one. -/
theorem C20_split_touching (g : Ends N E) (r : R N E W) (old newA newB : E) (hloop : g.src old ≠ g.dst old)
    (hA : ∀ v, Unused newA (r.pos v) ∧ Unused newA (r.neg v))
    (hB : ∀ v, Unused newB (r.pos v) ∧ Unused newB (r.neg v))
    (hparts : ∃ s t, (s = newA ∧ t = newB ∨ s = newB ∧ t = newA) ∧
      Touches g s (g.src old) ∧ ¬ Touches g s (g.dst old) ∧
      Touches g t (g.dst old) ∧ ¬ Touches g t (g.src old))
    (v : N) (hv : v = g.src old ∨ v = g.dst old) (e : E) (he : e = newA ∨ e = newB) (ht : Touches g e v)
    (fr to : E) (hfr : fr ≠ e) (hto : to ≠ e) :
    (r.replaceEdge g old newA newB).may (subst old e fr) (subst old e to) v = r.may fr to v := by
  have hs := (C20_split g r old newA newB hloop hA hB).1 v hv
  have hs := hs fr to
  have ht1 : (g.src old = g.src newA ∨ g.src old = g.dst newA) ↔ Touches g newA (g.src old) := by
    unfold Touches
    constructor
    · rintro (h | h)
      · exact Or.inl h.symm
      · exact Or.inr h.symm
    · rintro (h | h)
      · exact Or.inl h.symm
      · exact Or.inr h.symm
  have hne : ¬ g.dst old = g.src old := fun e => hloop e.symm
  have hcond : ((g.src old = g.src newA ∨ g.src old = g.dst newA) = (v = g.src old)) ↔ e = newA := by
    rw [eq_iff_iff, ht1]
    obtain ⟨s, t, hst, h1, h2, h3, h4⟩ := hparts
    have hdiff : newA ≠ newB := by
      rintro rfl
      rcases hst with ⟨rfl, rfl⟩ | ⟨rfl, rfl⟩ <;> exact h2 h3
    have hdiff' : newB ≠ newA := fun h => hdiff h.symm
    rcases hst with ⟨rfl, rfl⟩ | ⟨rfl, rfl⟩ <;> rcases hv with rfl | rfl <;> rcases he with rfl | rfl <;>
      first
        | exact absurd ht (by assumption)
        | simp [h1, h4, hne, hdiff']
  by_cases hc : e = newA
  · have hc' := hcond.mpr hc
    simp only [if_pos hc'] at hs
    rw [hc]
    exact hs (hc ▸ hfr) (hc ▸ hto)
  · have hc' := fun h => hc (hcond.mp h)
    simp only [if_neg hc'] at hs
    have heB : e = newB := he.resolve_left hc
    rw [heB]
    exact hs (heB ▸ hfr) (heB ▸ hto)

/-- The edge to use instead of `e` for arriving at `v`, when `old` has the reverse twin
`new`: the one of the two that points to `v`. -/
def arrive (g : Ends N E) (old new : E) (v : N) (e : E) : E := if e = old ∧ g.dst old ≠ v then new else e

/-- The edge to use for leaving `v`: the one that starts at `v`. -/
def leave (g : Ends N E) (old new : E) (v : N) (e : E) : E := if e = old ∧ g.src old ≠ v then new else e

theorem duplicateIn_eq (g : Ends N E) (old : E) (via : N) (new : E) (rs : RuleVec E) :
    duplicateIn g old via new rs =
      rs.map fun r => (arrive g old new via r.1, r.2.map (leave g old new via)) := by
  apply List.map_congr_left
  intro r _
  obtain ⟨a, b⟩ := r
  have h1 : (if a = old then (if g.dst a ≠ via then new else a) else a) = arrive g old new via a := by
    by_cases h : a = old
    · subst h; by_cases h' : g.dst a = via <;> simp [arrive, h']
    · simp [arrive, h]
  have h2 : (if b = some old then (if g.src old ≠ via then some new else b) else b) = b.map (leave g old new via) := by
    cases b with
    | none => simp
    | some t =>
      by_cases h : t = old
      · subst h; by_cases h' : g.src t = via <;> simp [leave, h']
      · simp [leave, h]
  rw [h1, h2]

/-- C20. After `old` (not a loop) got the reverse twin `new`, at each end point a turn is
allowed for the edges in their driving direction exactly if it was allowed for `old`;
other nodes are not affected. -/
theorem C20_twin (g : Ends N E) (r : R N E W) (old new : E) (hloop : g.src old ≠ g.dst old)
    (hU : ∀ v, Unused new (r.pos v) ∧ Unused new (r.neg v)) :
    let r' := r.duplicateEdge g old new
    (∀ v, v = g.src old ∨ v = g.dst old → ∀ fr to, fr ≠ new → to ≠ new →
      r'.may (arrive g old new v fr) (leave g old new v to) v = r.may fr to v) ∧
    ∀ v, v ≠ g.src old → v ≠ g.dst old → ∀ fr to, r'.may fr to v = r.may fr to v := by
  intro r'
  have hne : ¬ g.dst old = g.src old := fun e => hloop e.symm
  have inj : ∀ (P : Prop) [Decidable P] (a b : E), a ≠ new → b ≠ new →
      (if a = old ∧ P then new else a) = (if b = old ∧ P then new else b) → a = b := by
    intro P _ a b ha hb h
    by_cases h1 : a = old ∧ P
    · by_cases h2 : b = old ∧ P
      · rw [h1.1, h2.1]
      · rw [if_pos h1, if_neg h2] at h; exact absurd h.symm hb
    · by_cases h2 : b = old ∧ P
      · rw [if_neg h1, if_pos h2] at h; exact absurd h ha
      · simpa [h1, h2] using h
  refine ⟨?_, ?_⟩
  · intro v hv fr to hfr hto
    have hpos : r'.pos v = duplicateIn g old v new (r.pos v) ∧ r'.neg v = duplicateIn g old v new (r.neg v) := by
      simp only [r', R.duplicateEdge, R.duplicateAt]
      rcases hv with rfl | rfl
      · simp [upd, hloop]
      · simp [upd, hne]
    simp only [R.may, hpos.1, hpos.2, duplicateIn_eq]
    rw [mayPos_map, mayNeg_map]
    · intro x hx h; exact inj _ x.1 fr ((hU v).2 x hx).1 hfr h
    · intro x hx t ht h
      exact inj _ t to (fun e => ((hU v).2 x hx).2 (by rw [ht, e])) hto h
    · intro x hx h; exact inj _ x.1 fr ((hU v).1 x hx).1 hfr h
    · intro x hx t ht h
      exact inj _ t to (fun e => ((hU v).1 x hx).2 (by rw [ht, e])) hto h
  · intro v h1 h2 fr to
    have : r'.pos v = r.pos v ∧ r'.neg v = r.neg v := by
      simp [r', R.duplicateEdge, R.duplicateAt, upd, h1, h2]
    simp only [R.may, this.1, this.2]

/-- C20, loops are excluded for a reason: splitting a loop gives all its rules to one of
the two parts. Edge 1 is a loop at node 0; the turn from 1 to 5 is prohibited; the parts are
2 (0 → 9) and 3 (9 → 0). After the split the arriving part 3 may turn into 5. -/
theorem C20_limit_loop :
    ∃ (g : Ends Nat Nat) (r : R Nat Nat Nat), g.src 1 = g.dst 1 ∧ g.src 2 = 0 ∧ g.dst 3 = 0 ∧
      r.may 1 5 0 = false ∧ (r.replaceEdge g 1 2 3).may 3 5 0 = true :=
  ⟨⟨fun e => if e = 3 then 9 else 0, fun e => if e = 2 then 9 else 0⟩,
    run [.relax 50 0 5, .add 1 50 0 false], by decide⟩

/-! ### examples -/

/-- A prohibition read before and a mandatory rule read after the edges of their targets. -/
def exHist : List (Op Nat Nat Nat) :=
  [.add 1 20 0 false, .relax 20 0 2, .relax 30 0 3, .add 4 30 0 true, .add 1 99 0 true]

example : Consistent exHist := by
  intro n w e e' h1 h2
  simp [Announced, exHist] at h1 h2
  omega

example : ((run exHist).may 1 2 0, (run exHist).may 1 3 0, (run exHist).may 4 3 0,
    (run exHist).may 4 2 0, (run exHist).may 1 2 7) = (false, true, true, false, true) := by
  decide

/-- Edge 1 (0 → 8) is split into 2 (0 → 9) and 3 (9 → 8); 4 is the reverse twin of 1. -/
def exEnds : Ends Nat Nat :=
  ⟨fun e => if e = 3 then 9 else if e = 4 then 8 else 0, fun e => if e = 2 then 9 else if e = 4 then 0 else 8⟩

/-- Turning from 1 into 5 is prohibited at 8, from 6 into 1 at 0, from 5 into 1 at 8. -/
def exRules : R Nat Nat Nat :=
  run [.relax 50 8 5, .add 1 50 8 false, .add 6 10 0 false, .relax 10 0 1, .relax 10 8 1, .add 5 10 8 false]

example : ∀ v, Unused 4 (exRules.pos v) ∧ Unused 4 (exRules.neg v) := by
  intro v
  by_cases h0 : v = 0
  · subst h0; exact ⟨by decide, by decide⟩
  · by_cases h8 : v = 8
    · subst h8; exact ⟨by decide, by decide⟩
    · simp [exRules, run, R.exec, R.relax, R.add, R.init, patch, upd, Unused, h0, h8]

example : Touches exEnds 2 (exEnds.src 1) ∧ ¬ Touches exEnds 2 (exEnds.dst 1) ∧
    Touches exEnds 3 (exEnds.dst 1) ∧ ¬ Touches exEnds 3 (exEnds.src 1) := by
  simp [Touches, exEnds]

/-- The prohibition at 8 goes to part 3, the one at 0 to part 2. -/
example : ((exRules.replaceEdge exEnds 1 2 3).may 3 5 8, (exRules.replaceEdge exEnds 1 2 3).may 6 2 0,
    (exRules.replaceEdge exEnds 1 2 3).may 6 3 0) = (false, false, true) := by decide

/-- With the twin 4 the prohibition of leaving 8 towards 0 is one for 4. -/
example : ((exRules.duplicateEdge exEnds 1 4).may 1 5 8, (exRules.duplicateEdge exEnds 1 4).may 5 4 8,
    (exRules.duplicateEdge exEnds 1 4).may 6 1 0) = (false, false, false) := by decide

end Verif.Restrictor
