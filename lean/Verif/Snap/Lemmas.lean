import Verif.Snap.Model
import Verif.Graph.CollapseProps
import Verif.Restrictor.Props

/-!
# Placing stations on tracks (lemmas)
-/

set_option linter.unusedSectionVars false

namespace Verif.Snap
open Verif.Collapse Verif.Payload Verif.Restrictor

variable {P S W D : Type} [DecidableEq W]

/-- `f` has the attributes of `e`, its costs excepted. -/
structure Keeps (e f : Edg Nat P) : Prop where
  oneWay : f.a.oneWay = e.a.oneWay
  restr : f.a.restr = e.a.restr
  rev : f.a.rev = e.a.rev
  lvl : f.a.lvl = e.a.lvl
  lines : f.lines = e.lines
  geom : f.geom = e.geom

theorem Keeps.refl (e : Edg Nat P) : Keeps e e := ⟨rfl, rfl, rfl, rfl, rfl, rfl⟩
theorem Keeps.trans {e f g : Edg Nat P} (h : Keeps e f) (h' : Keeps f g) : Keeps e g :=
  ⟨h'.oneWay.trans h.oneWay, h'.restr.trans h.restr, h'.rev.trans h.rev, h'.lvl.trans h.lvl, h'.lines.trans h.lines, h'.geom.trans h.geom⟩

/-- Edges in rules are old. -/
def OldRules (n : Nat) (rs : RuleVec (Nat × Nat)) : Prop :=
  ∀ r ∈ rs, (r.1.1 < n ∧ r.1.2 < n) ∧ ∀ x, r.2 = some x → x.1 < n ∧ x.2 < n

structure Inv (st : St P S W) : Prop where
  uniq : Uniq st.es
  lt : ∀ e ∈ st.es, e.src < st.next ∧ e.dst < st.next
  loop : ∀ e ∈ st.es, e.src ≠ e.dst
  old : ∀ v, OldRules st.next (st.res.pos v) ∧ OldRules st.next (st.res.neg v)

/-- What one state has to do with a later one; `cur e v` is the edge that took the place of `e` at its end `v`. -/
structure Later (s s' : St P S W) (cur : Nat × Nat → Nat → Nat × Nat) : Prop where
  next : s.next ≤ s'.next
  pos : ∀ u, u < s.next → s'.pos u = s.pos u
  reach : ∀ u w, u < s.next → w < s.next → (Reach s.es u w ↔ Reach s'.es u w)
  part : ∀ f ∈ s'.es, ∃ e ∈ s.es, Keeps e f ∧ (f.src = e.src ∨ s.next ≤ f.src) ∧ (f.dst = e.dst ∨ s.next ≤ f.dst)
  curE : ∀ e ∈ s.es, ∀ v, v = e.src ∨ v = e.dst →
    ∃ f ∈ s'.es, cur (e.src, e.dst) v = (f.src, f.dst) ∧ Keeps e f ∧ (v = e.src → f.src = v) ∧ (v = e.dst → f.dst = v)
  turns : ∀ v, ∀ e ∈ s.es, ∀ f ∈ s.es, (v = e.src ∨ v = e.dst) → (v = f.src ∨ v = f.dst) →
    s'.res.may (cur (e.src, e.dst) v) (cur (f.src, f.dst) v) v = s.res.may (e.src, e.dst) (f.src, f.dst) v
  onto : ∀ f ∈ s'.es, ∀ v, v < s.next → (v = f.src ∨ v = f.dst) →
    ∃ e ∈ s.es, (v = e.src ∨ v = e.dst) ∧ cur (e.src, e.dst) v = (f.src, f.dst)
  empt : ∀ v, s.res.pos v = [] ∧ s.res.neg v = [] → s'.res.pos v = [] ∧ s'.res.neg v = []

/-- Nothing but payloads has changed. -/
theorem Later.same {s s' : St P S W} (h1 : s'.es = s.es) (h2 : s'.pos = s.pos) (h3 : s'.next = s.next) (h4 : s'.res = s.res) :
    Later s s' (fun e _ => e) := by
  refine ⟨by omega, fun _ _ => by rw [h2], fun _ _ _ _ => by rw [h1], ?_, ?_, fun _ _ _ _ _ _ _ => by rw [h4],
    fun f hf v _ hv => ⟨f, h1 ▸ hf, hv, rfl⟩, fun _ => by rw [h4]; exact id⟩
  · intro f hf; exact ⟨f, h1 ▸ hf, .refl f, Or.inl rfl, Or.inl rfl⟩
  · intro e he v hv; exact ⟨e, h1 ▸ he, rfl, .refl e, fun h => h.symm, fun h => h.symm⟩

theorem Later.trans {s s' s'' : St P S W} {c c' : Nat × Nat → Nat → Nat × Nat} (h : Later s s' c) (h' : Later s' s'' c') :
    Later s s'' (fun e v => c' (c e v) v) := by
  refine ⟨Nat.le_trans h.next h'.next, ?_, ?_, ?_, ?_, ?_, ?_, fun v hv => h'.empt v (h.empt v hv)⟩
  · intro u hu
    rw [h'.pos u (Nat.lt_of_lt_of_le hu h.next), h.pos u hu]
  · intro u w hu hw
    rw [h.reach u w hu hw]
    exact h'.reach u w (Nat.lt_of_lt_of_le hu h.next) (Nat.lt_of_lt_of_le hw h.next)
  · intro f hf
    obtain ⟨e', he', k1, k2, k3⟩ := h'.part f hf
    obtain ⟨e, he, k4, k5, k6⟩ := h.part e' he'
    refine ⟨e, he, k4.trans k1, ?_, ?_⟩
    · rcases k2 with k | k
      · rw [k]; exact k5
      · exact Or.inr (Nat.le_trans h.next k)
    · rcases k3 with k | k
      · rw [k]; exact k6
      · exact Or.inr (Nat.le_trans h.next k)
  · intro e he v hv
    obtain ⟨f, hf, k1, k2, k3, k4⟩ := h.curE e he v hv
    obtain ⟨g, hg, l1, l2, l3, l4⟩ := h'.curE f hf v (by rcases hv with hv | hv; exact Or.inl (k3 hv).symm; exact Or.inr (k4 hv).symm)
    refine ⟨g, hg, ?_, k2.trans l2, fun hh => l3 (k3 hh).symm, fun hh => l4 (k4 hh).symm⟩
    simp only [k1, l1]
  · intro v e he f hf hv hv'
    obtain ⟨e', he', k1, _, k3, k4⟩ := h.curE e he v hv
    obtain ⟨f', hf', l1, _, l3, l4⟩ := h.curE f hf v hv'
    have := h.turns v e he f hf hv hv'
    rw [← this, k1, l1]
    exact h'.turns v e' he' f' hf' (by rcases hv with hv | hv; exact Or.inl (k3 hv).symm; exact Or.inr (k4 hv).symm)
      (by rcases hv' with hv | hv; exact Or.inl (l3 hv).symm; exact Or.inr (l4 hv).symm)
  · intro f hf v hlt hv
    obtain ⟨e', he', k1, k2⟩ := h'.onto f hf v (Nat.lt_of_lt_of_le hlt h.next) hv
    obtain ⟨e, he, l1, l2⟩ := h.onto e' he' v hlt k1
    exact ⟨e, he, l1, by simp only [l2, k2]⟩

/-! ### splitting -/

/-- The two parts. -/
def neOf (v : Env P S W D) (st : St P S W) (e : Edg Nat P) (g : P) : Edg Nat P :=
  { e with dst := st.next, a := { e.a with cost := v.cost (if e.src = st.next then g else st.pos e.src) g e.a.lvl } }
def nfOf (v : Env P S W D) (st : St P S W) (e : Edg Nat P) (g : P) : Edg Nat P :=
  { e with src := st.next, a := { e.a with cost := v.cost g (if e.dst = st.next then g else st.pos e.dst) e.a.lvl } }

theorem getEdg_none {es : List (Edg Nat P)} {u w : Nat} (h : ∀ e ∈ es, ¬ (e.src = u ∧ e.dst = w)) : getEdg es u w = none := by
  unfold getEdg
  rw [List.find?_eq_none]
  intro e he hh
  exact h e he (by simpa using hh)

theorem split_es (v : Env P S W D) (o : Nat) (st : St P S W) (hI : Inv st) (e : Edg Nat P) (he : e ∈ st.es) (g : P) :
    (split v o st e g).es = (st.es.filter fun x => !(decide (x.src = e.src) && decide (x.dst = e.dst))) ++ [neOf v st e g, nfOf v st e g] := by
  have hlt := hI.lt e he
  have h1 : getEdg st.es e.src st.next = none := getEdg_none fun x hx hh => by have := hI.lt x hx; omega
  have h2 : getEdg (st.es ++ [neOf v st e g]) st.next e.dst = none := by
    apply getEdg_none
    intro x hx hh
    rcases List.mem_append.1 hx with hx | hx
    · have := hI.lt x hx; omega
    · simp only [List.mem_singleton] at hx
      subst hx
      have : e.src = st.next := hh.1
      omega
  unfold split
  simp only [if_true]
  have e1 : addEdg st.es (neOf v st e g) = st.es ++ [neOf v st e g] := by
    unfold addEdg
    rw [show (neOf v st e g).src = e.src from rfl, show (neOf v st e g).dst = st.next from rfl, h1]
  have e2 : addEdg (st.es ++ [neOf v st e g]) (nfOf v st e g) = st.es ++ [neOf v st e g] ++ [nfOf v st e g] := by
    unfold addEdg
    rw [show (nfOf v st e g).src = st.next from rfl, show (nfOf v st e g).dst = e.dst from rfl, h2]
  show delEdg (addEdg (addEdg st.es (neOf v st e g)) (nfOf v st e g)) e.src e.dst = _
  rw [e1, e2]
  unfold delEdg
  rw [List.filter_append, List.filter_append]
  have e3 : [neOf v st e g].filter (fun x => !(decide (x.src = e.src) && decide (x.dst = e.dst))) = [neOf v st e g] := by
    rw [List.filter_eq_self]
    intro x hx
    simp only [List.mem_singleton] at hx
    subst hx
    have : ¬ st.next = e.dst := by omega
    simp [neOf, this]
  have e4 : [nfOf v st e g].filter (fun x => !(decide (x.src = e.src) && decide (x.dst = e.dst))) = [nfOf v st e g] := by
    rw [List.filter_eq_self]
    intro x hx
    simp only [List.mem_singleton] at hx
    subst hx
    have : ¬ st.next = e.src := by omega
    simp [nfOf, this]
  rw [e3, e4, List.append_assoc]
  rfl

theorem uniq_eq {es : List (Edg Nat P)} (hu : Uniq es) {e f : Edg Nat P} (he : e ∈ es) (hf : f ∈ es) (h1 : e.src = f.src)
    (h2 : e.dst = f.dst) : e = f := by
  unfold Uniq at hu
  induction es with
  | nil => cases he
  | cons x es ih =>
    rw [List.pairwise_cons] at hu
    rcases List.mem_cons.1 he with he' | he'
    · rcases List.mem_cons.1 hf with hf' | hf'
      · rw [he', hf']
      · rw [he'] at h1 h2; exact absurd ⟨h1, h2⟩ (hu.1 f hf')
    · rcases List.mem_cons.1 hf with hf' | hf'
      · rw [hf'] at h1 h2; exact absurd ⟨h1.symm, h2.symm⟩ (hu.1 e he')
      · exact ih hu.2 he' hf'

theorem mem_split (v : Env P S W D) (o : Nat) (st : St P S W) (hI : Inv st) (e : Edg Nat P) (he : e ∈ st.es) (g : P) (x : Edg Nat P) :
    x ∈ (split v o st e g).es ↔ (x ∈ st.es ∧ x ≠ e) ∨ x = neOf v st e g ∨ x = nfOf v st e g := by
  rw [split_es v o st hI e he g]
  simp only [List.mem_append, List.mem_filter, List.mem_cons, List.not_mem_nil, or_false]
  have : x ∈ st.es → ((!(decide (x.src = e.src) && decide (x.dst = e.dst))) = true ↔ x ≠ e) := by
    intro hx
    constructor
    · rintro h rfl; simp at h
    · intro hne
      cases hh : (!(decide (x.src = e.src) && decide (x.dst = e.dst))) with
      | true => rfl
      | false =>
        simp at hh
        exact absurd (uniq_eq hI.uniq hx he hh.1 hh.2) hne
  constructor
  · rintro (⟨h1, h2⟩ | h)
    · exact Or.inl ⟨h1, (this h1).1 h2⟩
    · exact Or.inr h
  · rintro (⟨h1, h2⟩ | h)
    · exact Or.inl ⟨h1, (this h1).2 h2⟩
    · exact Or.inr h

/-- Travel over the new node. -/
theorem split_reach (v : Env P S W D) (o : Nat) (st : St P S W) (hI : Inv st) (e : Edg Nat P) (he : e ∈ st.es) (g : P) (u w : Nat)
    (hu : u < st.next) (hw : w < st.next) : Reach st.es u w ↔ Reach (split v o st e g).es u w := by
  have hm := mem_split v o st hI e he g
  have hlt := hI.lt e he
  constructor
  · intro h
    induction h with
    | refl => exact .refl u
    | @step a b h1 h2 ih =>
      obtain ⟨x, hx, hp⟩ := h2
      have ha : a < st.next := by
        rcases hp with ⟨k1, _, _⟩ | ⟨k1, _, _⟩
        · rw [← k1]; exact (hI.lt x hx).1
        · rw [← k1]; exact (hI.lt x hx).2
      have ih := ih ha
      by_cases hxe : x = e
      · subst hxe
        rcases hp with ⟨k1, k2, k3⟩ | ⟨k1, k2, k3⟩
        · exact .step (.step ih ⟨neOf v st x g, (hm _).2 (Or.inr (Or.inl rfl)), Or.inl ⟨k1, rfl, k3⟩⟩)
            ⟨nfOf v st x g, (hm _).2 (Or.inr (Or.inr rfl)), Or.inl ⟨rfl, k2, k3⟩⟩
        · exact .step (.step ih ⟨nfOf v st x g, (hm _).2 (Or.inr (Or.inr rfl)), Or.inr ⟨k1, rfl, k3⟩⟩)
            ⟨neOf v st x g, (hm _).2 (Or.inr (Or.inl rfl)), Or.inr ⟨rfl, k2, k3⟩⟩
      · exact .step ih ⟨x, (hm _).2 (Or.inl ⟨hx, hxe⟩), hp⟩
  · intro h
    have main : ∀ w, Reach (split v o st e g).es u w → (w < st.next → Reach st.es u w) ∧
        (w = st.next → (e.a.oneWay ≠ 2 ∧ Reach st.es u e.src) ∨ (e.a.oneWay ≠ 1 ∧ Reach st.es u e.dst)) ∧ w ≤ st.next := by
      intro w h
      induction h with
      | refl => exact ⟨fun _ => .refl u, fun h => by omega, by omega⟩
      | @step a b h1 h2 ih =>
        obtain ⟨i1, i2, i3⟩ := ih
        obtain ⟨x, hx, hp⟩ := h2
        rcases (hm x).1 hx with ⟨hx1, _⟩ | rfl | rfl
        · have hb := hI.lt x hx1
          have hab : a < st.next ∧ b < st.next := by
            rcases hp with ⟨k1, k2, _⟩ | ⟨k1, k2, _⟩ <;> omega
          exact ⟨fun _ => .step (i1 hab.1) ⟨x, hx1, hp⟩, fun h => by omega, by omega⟩
        · rcases hp with ⟨k1, k2, k3⟩ | ⟨k1, k2, k3⟩
          · -- from the start to the new node
            have k1 : e.src = a := k1
            have k2 : st.next = b := k2
            subst k1 k2
            exact ⟨fun h => by omega, fun _ => Or.inl ⟨k3, i1 hlt.1⟩, by omega⟩
          · -- from the new node to the start
            have k1 : st.next = a := k1
            have k2 : e.src = b := k2
            subst k1 k2
            refine ⟨fun _ => ?_, fun h => by omega, by omega⟩
            rcases i2 rfl with ⟨j1, j2⟩ | ⟨j1, j2⟩
            · exact j2
            · exact .step j2 ⟨e, he, Or.inr ⟨rfl, rfl, j1⟩⟩
        · rcases hp with ⟨k1, k2, k3⟩ | ⟨k1, k2, k3⟩
          · have k1 : st.next = a := k1
            have k2 : e.dst = b := k2
            subst k1 k2
            refine ⟨fun _ => ?_, fun h => by omega, by omega⟩
            rcases i2 rfl with ⟨j1, j2⟩ | ⟨j1, j2⟩
            · exact .step j2 ⟨e, he, Or.inl ⟨rfl, rfl, j1⟩⟩
            · exact j2
          · have k1 : e.dst = a := k1
            have k2 : st.next = b := k2
            subst k1 k2
            exact ⟨fun h => by omega, fun _ => Or.inr ⟨k3, i1 hlt.2⟩, by omega⟩
    exact (main w h).1 hw

theorem oldRules_replaceIn {n : Nat} {old new : Nat × Nat} {rs : RuleVec (Nat × Nat)} (h : OldRules n rs) (hn : new.1 < n + 1 ∧ new.2 < n + 1) :
    OldRules (n + 1) (replaceIn old new rs) := by
  intro r hr
  unfold replaceIn at hr
  rw [List.mem_map] at hr
  obtain ⟨x, hx, rfl⟩ := hr
  obtain ⟨h1, h2⟩ := h x hx
  refine ⟨?_, ?_⟩
  · simp only
    split
    · exact hn
    · omega
  · intro y hy
    simp only at hy
    split at hy
    · cases hy; exact hn
    · have := h2 y hy; omega

theorem oldRules_mono {n : Nat} {rs : RuleVec (Nat × Nat)} (h : OldRules n rs) : OldRules (n + 1) rs := by
  intro r hr
  obtain ⟨h1, h2⟩ := h r hr
  refine ⟨by omega, fun x hx => ?_⟩
  have := h2 x hx
  omega

theorem replaceEdge_pos (r : R Nat (Nat × Nat) W) (a b n : Nat) (hab : a ≠ b) (w : Nat) :
    (r.replaceEdge ends (a, b) (a, n) (n, b)).pos w =
      (if w = a then replaceIn (a, b) (a, n) (r.pos w) else if w = b then replaceIn (a, b) (n, b) (r.pos w) else r.pos w) ∧
    (r.replaceEdge ends (a, b) (a, n) (n, b)).neg w =
      (if w = a then replaceIn (a, b) (a, n) (r.neg w) else if w = b then replaceIn (a, b) (n, b) (r.neg w) else r.neg w) := by
  have hba : ¬ b = a := fun h => hab h.symm
  unfold R.replaceEdge R.replaceAt
  simp only [ends, true_or, if_true, Restrictor.upd]
  by_cases h1 : w = a
  · subst h1
    simp [hab]
  · by_cases h2 : w = b
    · subst h2
      simp [hba]
    · simp [h1, h2]

theorem unused_of_old {n : Nat} {x : Nat × Nat} (hx : ¬ (x.1 < n ∧ x.2 < n)) {rs : RuleVec (Nat × Nat)} (h : OldRules n rs) : Unused x rs := by
  intro r hr
  obtain ⟨h1, h2⟩ := h r hr
  refine ⟨?_, fun hh => hx (h2 x hh)⟩
  intro hh
  rw [hh] at h1
  exact hx h1

theorem split_inv (v : Env P S W D) (o : Nat) (st : St P S W) (hI : Inv st) (e : Edg Nat P) (he : e ∈ st.es) (g : P) :
    Inv (split v o st e g) := by
  have hlt := hI.lt e he
  have hm := mem_split v o st hI e he g
  have hnx : (split v o st e g).next = st.next + 1 := rfl
  refine ⟨?_, ?_, ?_, ?_⟩
  · unfold Uniq
    rw [split_es v o st hI e he g, List.pairwise_append]
    refine ⟨hI.uniq.filter _, ?_, ?_⟩
    · simp only [List.pairwise_cons, List.mem_singleton, forall_eq, List.not_mem_nil, false_implies, implies_true, List.Pairwise.nil,
        and_true]
      rintro ⟨h1, h2⟩
      have : e.src = st.next := h1
      omega
    · intro a ha b hb
      have hal := hI.lt a (List.mem_filter.1 ha).1
      simp only [List.mem_cons, List.not_mem_nil, or_false] at hb
      rintro ⟨h1, h2⟩
      rcases hb with rfl | rfl
      · have : a.dst = st.next := h2
        omega
      · have : a.src = st.next := h1
        omega
  · intro x hx
    rw [hnx]
    rcases (hm x).1 hx with ⟨hx, _⟩ | rfl | rfl
    · have := hI.lt x hx; omega
    · exact ⟨show e.src < _ by omega, show st.next < _ by omega⟩
    · exact ⟨show st.next < _ by omega, show e.dst < _ by omega⟩
  · intro x hx
    rcases (hm x).1 hx with ⟨hx, _⟩ | rfl | rfl
    · exact hI.loop x hx
    · show e.src ≠ st.next
      omega
    · show st.next ≠ e.dst
      omega
  · intro w
    rw [hnx]
    obtain ⟨h1, h2⟩ := replaceEdge_pos st.res e.src e.dst st.next (hI.loop e he) w
    show OldRules _ ((st.res.replaceEdge ends (e.src, e.dst) (e.src, st.next) (st.next, e.dst)).pos w) ∧
      OldRules _ ((st.res.replaceEdge ends (e.src, e.dst) (e.src, st.next) (st.next, e.dst)).neg w)
    rw [h1, h2]
    constructor
    · split
      · exact oldRules_replaceIn (hI.old w).1 ⟨show e.src < _ by omega, show st.next < _ by omega⟩
      · split
        · exact oldRules_replaceIn (hI.old w).1 ⟨show st.next < _ by omega, show e.dst < _ by omega⟩
        · exact oldRules_mono (hI.old w).1
    · split
      · exact oldRules_replaceIn (hI.old w).2 ⟨show e.src < _ by omega, show st.next < _ by omega⟩
      · split
        · exact oldRules_replaceIn (hI.old w).2 ⟨show st.next < _ by omega, show e.dst < _ by omega⟩
        · exact oldRules_mono (hI.old w).2

theorem split_later (v : Env P S W D) (o : Nat) (st : St P S W) (hI : Inv st) (e : Edg Nat P) (he : e ∈ st.es) (g : P) :
    Later st (split v o st e g) (fun x w => if x = (e.src, e.dst) then (if w = e.src then (e.src, st.next) else (st.next, e.dst)) else x) := by
  have hlt := hI.lt e he
  have hm := mem_split v o st hI e he g
  have hloop := hI.loop e he
  have hK1 : Keeps e (neOf v st e g) := ⟨rfl, rfl, rfl, rfl, rfl, rfl⟩
  have hK2 : Keeps e (nfOf v st e g) := ⟨rfl, rfl, rfl, rfl, rfl, rfl⟩
  refine ⟨Nat.le_succ _, ?_, fun u w hu hw => split_reach v o st hI e he g u w hu hw, ?_, ?_, ?_, ?_, ?_⟩
  · intro u hu
    show (if u = st.next then g else st.pos u) = st.pos u
    rw [if_neg (by omega)]
  · intro f hf
    rcases (hm f).1 hf with ⟨hf, _⟩ | rfl | rfl
    · exact ⟨f, hf, .refl f, Or.inl rfl, Or.inl rfl⟩
    · exact ⟨e, he, hK1, Or.inl rfl, Or.inr (Nat.le_refl _)⟩
    · exact ⟨e, he, hK2, Or.inr (Nat.le_refl _), Or.inl rfl⟩
  · intro x hx w hw
    by_cases hxe : x = e
    · subst hxe
      simp only [if_true]
      rcases hw with rfl | rfl
      · rw [if_pos rfl]
        exact ⟨_, (hm _).2 (Or.inr (Or.inl rfl)), rfl, hK1, fun _ => rfl, fun h => absurd h hloop⟩
      · rw [if_neg (fun h => hloop h.symm)]
        exact ⟨_, (hm _).2 (Or.inr (Or.inr rfl)), rfl, hK2, fun h => absurd h.symm hloop, fun _ => rfl⟩
    · rw [if_neg (fun h => hxe (uniq_eq hI.uniq hx he (Prod.mk.inj h).1 (Prod.mk.inj h).2))]
      exact ⟨x, (hm _).2 (Or.inl ⟨hx, hxe⟩), rfl, .refl x, fun h => h.symm, fun h => h.symm⟩
  · intro w x hx y hy hwx hwy
    have hxl := hI.lt x hx
    have hyl := hI.lt y hy
    have hU1 : ∀ z, Unused (e.src, st.next) (st.res.pos z) ∧ Unused (e.src, st.next) (st.res.neg z) := fun z =>
      ⟨unused_of_old (by simp) (hI.old z).1, unused_of_old (by simp) (hI.old z).2⟩
    have hU2 : ∀ z, Unused (st.next, e.dst) (st.res.pos z) ∧ Unused (st.next, e.dst) (st.res.neg z) := fun z =>
      ⟨unused_of_old (by simp) (hI.old z).1, unused_of_old (by simp) (hI.old z).2⟩
    have hC := C20_split ends st.res (e.src, e.dst) (e.src, st.next) (st.next, e.dst) hloop hU1 hU2
    show (st.res.replaceEdge ends (e.src, e.dst) (e.src, st.next) (st.next, e.dst)).may _ _ w = _
    simp only [ends, true_or] at hC
    by_cases hwe : w = e.src ∨ w = e.dst
    · have h1 := hC.1 w hwe (x.src, x.dst) (y.src, y.dst)
      have hpart : (if True = (w = e.src) then (e.src, st.next) else (st.next, e.dst)) =
          if w = e.src then (e.src, st.next) else (st.next, e.dst) := by
        by_cases hh : w = e.src
        · rw [if_pos hh, if_pos (by simp [hh])]
        · rw [if_neg hh, if_neg (by simp [hh])]
      rw [hpart] at h1
      have hne : ∀ z : Edg Nat P, z.src < st.next ∧ z.dst < st.next →
          (z.src, z.dst) ≠ if w = e.src then (e.src, st.next) else (st.next, e.dst) := by
        intro z hz hh
        split at hh
        · have := (Prod.mk.inj hh).2; omega
        · have := (Prod.mk.inj hh).1; omega
      exact h1 (hne x hxl) (hne y hyl)
    · have hx1 : (x.src, x.dst) ≠ (e.src, e.dst) := by
        intro hh
        obtain ⟨k1, k2⟩ := Prod.mk.inj hh
        apply hwe
        rcases hwx with h | h
        · exact Or.inl (h.trans k1)
        · exact Or.inr (h.trans k2)
      have hy1 : (y.src, y.dst) ≠ (e.src, e.dst) := by
        intro hh
        obtain ⟨k1, k2⟩ := Prod.mk.inj hh
        apply hwe
        rcases hwy with h | h
        · exact Or.inl (h.trans k1)
        · exact Or.inr (h.trans k2)
      rw [if_neg hx1, if_neg hy1]
      exact hC.2 w (fun h => hwe (Or.inl h)) (fun h => hwe (Or.inr h)) _ _
  · intro f hf w hlt' hw
    rcases (hm f).1 hf with ⟨hf, hne⟩ | rfl | rfl
    · refine ⟨f, hf, hw, ?_⟩
      rw [if_neg (fun h => hne (uniq_eq hI.uniq hf he (Prod.mk.inj h).1 (Prod.mk.inj h).2))]
    · have : w = e.src := by
        rcases hw with h | h
        · exact h
        · have : w = st.next := h
          omega
      exact ⟨e, he, Or.inl this, by rw [if_pos rfl, if_pos this]; rfl⟩
    · have : w = e.dst := by
        rcases hw with h | h
        · have : w = st.next := h
          omega
        · exact h
      refine ⟨e, he, Or.inr this, ?_⟩
      rw [if_pos rfl, if_neg (fun h => hloop (h.symm.trans this))]
      rfl
  · rintro w ⟨h1, h2⟩
    obtain ⟨k1, k2⟩ := replaceEdge_pos st.res e.src e.dst st.next hloop w
    show (st.res.replaceEdge ends (e.src, e.dst) (e.src, st.next) (st.next, e.dst)).pos w = [] ∧
      (st.res.replaceEdge ends (e.src, e.dst) (e.src, st.next) (st.next, e.dst)).neg w = []
    rw [k1, k2, h1, h2]
    simp [replaceIn]

end Verif.Snap
