import Verif.Restrictor.Props

/-!
# Turn restrictions if several edges are announced

As the invariant of C18, without the proviso that at most one edge is announced for a node and a
way: the target of a rule is one of the edges announced for its way at the node, and there is one
if any was announced.
-/

set_option linter.unusedSectionVars false

namespace Verif.Restrictor
variable {N E W : Type} [DecidableEq N] [DecidableEq E] [DecidableEq W]

/-- The stored rules at a node: same from edges in the same order, the target is one of the
edges announced for the way, if there is one. -/
def Fits (h : List (Op N E W)) (v : N) (raw : List (E × W)) (rules : RuleVec E) : Prop :=
  rules.length = raw.length ∧
  ∀ (i : Nat) fr to, raw[i]? = some (fr, to) → ∃ t, rules[i]? = some (fr, t) ∧
    (∀ e, t = some e → Announced h v to e) ∧ (t = none → ∀ e, ¬ Announced h v to e)

structure Weak (h : List (Op N E W)) (pos : Bool) (rules : N → RuleVec E) (dang : N × W → List (N × Nat)) :
    Prop where
  res : ∀ v, Fits h v (added h v pos) (rules v)
  sub : ∀ n w m (i : Nat), (m, i) ∈ dang (n, w) → m = n ∧ ∃ fr, (added h n pos)[i]? = some (fr, w)
  dangling : ∀ n w, (∀ e, ¬ Announced h n w e) → ∀ (i : Nat) fr, (added h n pos)[i]? = some (fr, w) →
    (n, i) ∈ dang (n, w)

theorem Weak.relax {h : List (Op N E W)} {pos : Bool} {rules : N → RuleVec E} {dang : N × W → List (N × Nat)}
    (I : Weak h pos rules dang) (w : W) (n : N) (e : E) :
    Weak (h ++ [.relax w n e]) pos (patch rules (dang (n, w)) e) dang := by
  have hadd : ∀ v, added (h ++ [Op.relax w n e]) v pos = added h v pos := by
    intro v; simp [added]
  have hann : ∀ m u x, Announced (h ++ [Op.relax w n e]) m u x ↔
      Announced h m u x ∨ (u = w ∧ m = n ∧ x = e) := by
    intro m u x; simp [Announced]
  refine ⟨?_, ?_, ?_⟩
  · intro v
    rw [hadd]
    obtain ⟨hl, hr⟩ := I.res v
    obtain ⟨pl, pk⟩ := patch_spec (dang (n, w)) e rules v
    refine ⟨pl.trans hl, ?_⟩
    intro i fr to hi
    obtain ⟨t, ht, hte⟩ := hr i fr to hi
    rw [pk i (fr, t) ht]
    by_cases hm : (v, i) ∈ dang (n, w)
    · obtain ⟨hv, fr', hfr⟩ := I.sub n w v i hm
      subst hv
      rw [hi] at hfr
      simp only [Option.some.injEq, Prod.mk.injEq] at hfr
      obtain ⟨_, hto⟩ := hfr
      refine ⟨some e, by simp [hm], ?_⟩
      refine ⟨?_, by simp⟩
      intro x hx
      cases hx
      rw [hann, hto]
      exact Or.inr ⟨rfl, rfl, rfl⟩
    · refine ⟨t, by simp [hm], ?_⟩
      refine ⟨fun x hx => (hann _ _ _).2 (Or.inl (hte.1 x hx)), ?_⟩
      intro hn x hx
      rcases (hann _ _ _).1 hx with hx | ⟨hu, hv, hx⟩
      · exact hte.2 hn x hx
      · subst hu; subst hv
        exact hm (I.dangling v to (hte.2 hn) i fr hi)
  · intro a b m i hm
    rw [hadd]
    exact I.sub a b m i hm
  · intro a b hna i fr hi
    rw [hadd] at hi
    exact I.dangling a b (fun x hx => hna x (by rw [hann]; exact Or.inl hx)) i fr hi

theorem Weak.add_other {h : List (Op N E W)} {pos : Bool} {rules : N → RuleVec E}
    {dang : N × W → List (N × Nat)} (I : Weak h pos rules dang) (fr : E) (to : W) (via : N) (p : Bool)
    (hp : p ≠ pos) : Weak (h ++ [.add fr to via p]) pos rules dang := by
  have hadd : ∀ v, added (h ++ [Op.add fr to via p]) v pos = added h v pos := by
    intro v; simp [added, hp]
  have hann : ∀ m u x, Announced (h ++ [Op.add fr to via p]) m u x ↔ Announced h m u x := by
    intro m u x; simp [Announced]
  refine ⟨?_, ?_, ?_⟩
  · intro v
    rw [hadd]
    obtain ⟨hl, hr⟩ := I.res v
    refine ⟨hl, fun i a b hi => ?_⟩
    obtain ⟨t, ht, hte⟩ := hr i a b hi
    exact ⟨t, ht, fun x hx => (hann _ _ _).2 (hte.1 x hx), fun hn x hx => hte.2 hn x ((hann _ _ _).1 hx)⟩
  · intro a b m i hm; rw [hadd]; exact I.sub a b m i hm
  · intro a b hna i x hi
    rw [hadd] at hi
    exact I.dangling a b (fun y hy => hna y (by rw [hann]; exact hy)) i x hi

theorem Weak.add {h : List (Op N E W)} {pos : Bool} {rules : N → RuleVec E}
    {dang : N × W → List (N × Nat)} (I : Weak h pos rules dang) (fr : E) (to : W) (via : N) (toE : Option E)
    (hto : ∀ e, toE = some e → Announced h via to e) (hto' : toE = none → ∀ e, ¬ Announced h via to e) :
    Weak (h ++ [.add fr to via pos]) pos (upd rules via (rules via ++ [(fr, toE)]))
      (if toE.isNone then upd dang (via, to) (dang (via, to) ++ [(via, (rules via).length)]) else dang) := by
  have hadd : ∀ v, added (h ++ [Op.add fr to via pos]) v pos =
      if v = via then added h v pos ++ [(fr, to)] else added h v pos := by
    intro v
    by_cases hv : v = via
    · simp [added, hv]
    · have : ¬ via = v := fun e => hv e.symm
      simp [added, hv, this]
  have hann : ∀ m u x, Announced (h ++ [Op.add fr to via pos]) m u x ↔ Announced h m u x := by
    intro m u x; simp [Announced]
  obtain ⟨hlv, _⟩ := I.res via
  refine ⟨?_, ?_, ?_⟩
  · intro v
    rw [hadd]
    obtain ⟨hl, hr⟩ := I.res v
    by_cases hv : v = via
    · subst hv
      simp only [if_true, upd]
      refine ⟨by simp [hl], ?_⟩
      intro i a b hi
      by_cases hlt : i < (added h v pos).length
      · rw [List.getElem?_append_left hlt] at hi
        obtain ⟨t, ht, hte⟩ := hr i a b hi
        refine ⟨t, ?_, fun x hx => (hann _ _ _).2 (hte.1 x hx), fun hn x hx => hte.2 hn x ((hann _ _ _).1 hx)⟩
        rw [List.getElem?_append_left (by omega)]; exact ht
      · have hieq : i = (added h v pos).length := by
          have := (List.getElem?_eq_some_iff.mp hi).1
          simp at this; omega
        subst hieq
        simp only [List.getElem?_concat_length, Option.some.injEq, Prod.mk.injEq] at hi
        obtain ⟨rfl, rfl⟩ := hi
        refine ⟨toE, ?_, fun x hx => (hann _ _ _).2 (hto x hx), fun hn x hx => hto' hn x ((hann _ _ _).1 hx)⟩
        rw [← hl]; simp
    · simp only [hv, if_false, upd]
      refine ⟨hl, fun i a b hi => ?_⟩
      obtain ⟨t, ht, hte⟩ := hr i a b hi
      exact ⟨t, ht, fun x hx => (hann _ _ _).2 (hte.1 x hx), fun hn x hx => hte.2 hn x ((hann _ _ _).1 hx)⟩
  · -- stored paths point to rules with this target
    have old : ∀ n w m (i : Nat), (m, i) ∈ dang (n, w) → m = n ∧
        ∃ f, (added (h ++ [Op.add fr to via pos]) n pos)[i]? = some (f, w) := by
      intro n w m i hm
      obtain ⟨h1, f, h2⟩ := I.sub n w m i hm
      refine ⟨h1, f, ?_⟩
      rw [hadd]
      split
      · rw [List.getElem?_append_left (List.getElem?_eq_some_iff.mp h2).1]; exact h2
      · exact h2
    intro n w m i hm
    split at hm
    · simp only [upd] at hm
      split at hm
      · rename_i heq
        simp only [Prod.mk.injEq] at heq
        obtain ⟨rfl, rfl⟩ := heq
        rcases List.mem_append.mp hm with hm | hm
        · exact old n w m i hm
        · simp only [List.mem_singleton, Prod.mk.injEq] at hm
          obtain ⟨rfl, rfl⟩ := hm
          refine ⟨rfl, fr, ?_⟩
          rw [hadd, hlv]; simp
      · exact old n w m i hm
    · exact old n w m i hm
  · intro n w hna i f hi
    have hna' : ∀ x, ¬ Announced h n w x := fun x hx => hna x (by rw [hann]; exact hx)
    rw [hadd] at hi
    have keep : ∀ (d : N × Nat), d ∈ dang (n, w) → d ∈ (if toE.isNone then
        upd dang (via, to) (dang (via, to) ++ [(via, (rules via).length)]) else dang) (n, w) := by
      intro d hd
      split
      · simp only [upd]
        split
        · rename_i heq; rw [heq] at hd; exact List.mem_append_left _ hd
        · exact hd
      · exact hd
    by_cases hn : n = via
    · subst hn
      simp only [if_true] at hi
      by_cases hlt : i < (added h n pos).length
      · rw [List.getElem?_append_left hlt] at hi
        exact keep _ (I.dangling n w hna' i f hi)
      · have hieq : i = (added h n pos).length := by
          have := (List.getElem?_eq_some_iff.mp hi).1
          simp at this; omega
        subst hieq
        simp only [List.getElem?_concat_length, Option.some.injEq, Prod.mk.injEq] at hi
        obtain ⟨rfl, rfl⟩ := hi
        have hnone : toE = none := by
          cases ht : toE with
          | none => rfl
          | some x => exact absurd (hto x ht) (hna' x)
        simp [hnone, upd, hlv]
    · simp only [hn, if_false] at hi
      exact keep _ (I.dangling n w hna' i f hi)

structure RWeak (h : List (Op N E W)) (r : R N E W) : Prop where
  rlx : ∀ n w e, r.rlx (n, w) = some e → Announced h n w e
  non : ∀ n w, r.rlx (n, w) = none → ∀ e, ¬ Announced h n w e
  pos : Weak h true r.pos r.posD
  neg : Weak h false r.neg r.negD

theorem run_weak (h : List (Op N E W)) : RWeak h (run h) := by
  have key : ∀ k : List (Op N E W), RWeak k.reverse (run k.reverse) := by
    intro k
    induction k with
    | nil =>
      refine ⟨?_, ?_, ?_, ?_⟩
      · intro n w e; simp [run, R.init]
      · intro n w; simp [Announced]
      · exact ⟨fun v => ⟨rfl, by simp [added]⟩, by simp [run, R.init], by simp [added]⟩
      · exact ⟨fun v => ⟨rfl, by simp [added]⟩, by simp [run, R.init], by simp [added]⟩
    | cons op k I =>
      rw [List.reverse_cons]
      have hrun : run (k.reverse ++ [op]) = (run k.reverse).exec op := by
        simp [run, List.foldl_append]
      rw [hrun]
      cases op with
      | relax w n e =>
        refine ⟨?_, ?_, I.pos.relax w n e, I.neg.relax w n e⟩
        · intro m u x
          simp only [R.exec, R.relax, upd, Prod.mk.injEq]
          by_cases hmu : m = n ∧ u = w
          · obtain ⟨rfl, rfl⟩ := hmu
            simp only [and_self, if_true, Option.some.injEq]
            rintro rfl; simp [Announced]
          · simp only [hmu, if_false]
            intro hx
            exact List.mem_append_left _ (I.rlx _ _ _ hx)
        · intro m u
          simp only [R.exec, R.relax, upd, Prod.mk.injEq]
          by_cases hmu : m = n ∧ u = w
          · simp [hmu]
          · simp only [hmu, if_false]
            intro hx y hy
            rcases List.mem_append.mp hy with hy | hy
            · exact I.non _ _ hx y hy
            · simp only [List.mem_singleton, Op.relax.injEq] at hy
              exact hmu ⟨hy.2.1, hy.1⟩
      | add fr to via p =>
        have hrl : ∀ n w e, (run k.reverse).rlx (n, w) = some e →
            Announced (k.reverse ++ [Op.add fr to via p]) n w e :=
          fun n w e h => List.mem_append_left _ (I.rlx n w e h)
        have hno : ∀ n w, (run k.reverse).rlx (n, w) = none → ∀ e,
            ¬ Announced (k.reverse ++ [Op.add fr to via p]) n w e := by
          intro n w h e he
          refine I.non n w h e ?_
          simpa [Announced] using he
        cases p with
        | true =>
          refine ⟨hrl, hno, ?_, ?_⟩
          · exact I.pos.add fr to via ((run k.reverse).rlx (via, to)) (fun e => I.rlx via to e) (I.non via to)
          · exact I.neg.add_other fr to via true (by simp)
        | false =>
          refine ⟨hrl, hno, ?_, ?_⟩
          · exact I.pos.add_other fr to via false (by simp)
          · exact I.neg.add fr to via ((run k.reverse).rlx (via, to)) (fun e => I.rlx via to e) (I.non via to)
  have := key h.reverse
  simpa using this

theorem mem_added {h : List (Op N E W)} {v : N} {pos : Bool} {fr : E} {to : W} :
    (fr, to) ∈ added h v pos ↔ Op.add fr to v pos ∈ h := by
  simp only [added, List.mem_filterMap]
  constructor
  · rintro ⟨op, hop, h1⟩
    cases op with
    | relax => simp at h1
    | add a b c d =>
      simp only [Option.ite_none_right_eq_some, Option.some.injEq, Prod.mk.injEq] at h1
      obtain ⟨⟨rfl, rfl⟩, rfl, rfl⟩ := h1
      exact hop
  · intro hop
    exact ⟨_, hop, by simp⟩

/-- The rules stored at `v`, in terms of the history. -/
theorem rules_from {h : List (Op N E W)} {v : N} {pos : Bool} {rules : RuleVec E} (hf : Fits h v (added h v pos) rules)
    {fr : E} {t : Option E} (hm : (fr, t) ∈ rules) :
    ∃ to, Op.add fr to v pos ∈ h ∧ (∀ e, t = some e → Announced h v to e) ∧ (t = none → ∀ e, ¬ Announced h v to e) := by
  obtain ⟨i, hi, he⟩ := List.getElem_of_mem hm
  have hi' : i < (added h v pos).length := by rw [← hf.1]; exact hi
  obtain ⟨t', h1, h2⟩ := hf.2 i _ _ (List.getElem?_eq_getElem hi')
  rw [List.getElem?_eq_getElem hi, he] at h1
  have h1' := Option.some.inj h1
  obtain ⟨rfl, rfl⟩ := Prod.mk.inj h1'
  refine ⟨(added h v pos)[i].2, mem_added.1 ?_, h2⟩
  exact List.getElem_mem hi'

theorem rules_to {h : List (Op N E W)} {v : N} {pos : Bool} {rules : RuleVec E} (hf : Fits h v (added h v pos) rules)
    {fr : E} {to : W} (hm : Op.add fr to v pos ∈ h) :
    ∃ t, (fr, t) ∈ rules ∧ (∀ e, t = some e → Announced h v to e) ∧ (t = none → ∀ e, ¬ Announced h v to e) := by
  obtain ⟨i, hi, he⟩ := List.getElem_of_mem (mem_added.2 hm)
  obtain ⟨t, h1, h2⟩ := hf.2 i fr to (by rw [List.getElem?_eq_getElem hi, he])
  exact ⟨t, List.mem_of_getElem? h1, h2⟩

end Verif.Restrictor
