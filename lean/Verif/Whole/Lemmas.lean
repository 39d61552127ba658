import Verif.Whole.Model
import Verif.Whole.Places
import Verif.Turns.Props
import Verif.Gaps.Props
import Verif.Finish.Props

/-!
# The graph before gaps are closed
-/

set_option linter.unusedSectionVars false

namespace Verif.Whole
open Verif.Osm Verif.Collapse Verif.Payload Verif.Snap Verif.Turns
open Verif.Restrictor (run R Op)
open Verif.Finish (RulesIn Marked)

variable {P S T D : Type}

/-! ### edges -/

/-- The one-way mark of a way. -/
def mk1 (o : Opts) (w : Way) : Fin 4 := if fOnewayrev o w.attrs ≠ 0 then 2 else if fOneway o w.attrs ≠ 0 then 1 else 0

theorem mk1_iff {o : Opts} (ho : FlaggedOpts o) (w : Way) : (mk1 o w = 2 ↔ Against o w) ∧ (mk1 o w = 1 ↔ Along o w) := by
  obtain ⟨_, _, h1, h2, _⟩ := C28_decisions o ho w.attrs
  unfold mk1 Along Against
  have e8 : WAY = 8 := rfl
  rw [e8]
  rw [← h2]
  by_cases ha : fOnewayrev o w.attrs ≠ 0
  · rw [if_pos ha]
    simp [ha]
  · rw [if_neg ha]
    by_cases hb : fOneway o w.attrs ≠ 0
    · rw [if_pos hb]
      obtain ⟨q1, q2⟩ := h1.1 hb
      simp only [ha, iff_false, not_false_eq_true, and_true]
      exact ⟨by decide, by simp [q1, q2]⟩
    · rw [if_neg hb]
      simp only [ha, iff_false, not_false_eq_true, and_true]
      exact ⟨by decide, fun h => absurd h (by decide), fun h => absurd (h1.2 h) hb⟩

/-- The edges made of the calls `gs`. -/
structure Made (p : Par P S T D) (es : List (Edg Nat P)) (gs : List GEdge) : Prop where
  uniq : Uniq es
  back : ∀ e ∈ es, ∃ g ∈ gs, g.src = e.src ∧ g.dst = e.dst ∧ e.a.lvl = Fin.ofNat 16 (fLevel p.o g.way.attrs)
  to : ∀ g ∈ gs, ∃ e ∈ es, e.src = g.src ∧ e.dst = g.dst
  lines : ∀ e ∈ es, ∀ x, x ∈ e.lines ↔ ∃ g ∈ gs, g.src = e.src ∧ g.dst = e.dst ∧ x ∈ p.lines g.way
  way : (∀ g ∈ gs, ∀ h ∈ gs, g.src = h.src → g.dst = h.dst → mk1 p.o g.way ≠ 0 → mk1 p.o h.way ≠ 0 → mk1 p.o g.way = mk1 p.o h.way) →
    ∀ e ∈ es, (∀ g ∈ gs, g.src = e.src → g.dst = e.dst → mk1 p.o g.way ≠ 0 → e.a.oneWay = mk1 p.o g.way) ∧
      ((∀ g ∈ gs, g.src = e.src → g.dst = e.dst → mk1 p.o g.way = 0) → e.a.oneWay = 0)
  plain : ∀ e ∈ es, e.a.restr = false ∧ e.a.rev = false ∧ e.geom = none

theorem mem_insertPtr {l x : Nat} {xs : List Nat} : x ∈ insertPtr l xs ↔ x = l ∨ x ∈ xs := by
  induction xs with
  | nil => simp [insertPtr]
  | cons y ys ih =>
    unfold insertPtr
    split
    · simp only [List.mem_cons, ih]
      constructor
      · rintro (h | h | h) <;> simp [h]
      · rintro (h | h | h) <;> simp [h]
    · simp

theorem mem_addLine {ls : List Nat} {l x : Nat} : x ∈ addLine ls l ↔ x = l ∨ x ∈ ls := by
  unfold addLine
  split
  · constructor
    · exact Or.inr
    · rintro (rfl | h)
      · assumption
      · exact h
  · exact mem_insertPtr

theorem mem_insertAll {ls xs : List Nat} {x : Nat} : x ∈ ls.foldl addLine xs ↔ x ∈ ls ∨ x ∈ xs := by
  induction ls generalizing xs with
  | nil => simp
  | cons y ls ih =>
    rw [List.foldl_cons, ih, mem_addLine]
    simp only [List.mem_cons]
    constructor
    · rintro (h | h | h) <;> simp [h]
    · rintro ((h | h) | h) <;> simp [h]

theorem made_step {p : Par P S T D} {es : List (Edg Nat P)} {gs : List GEdge} (h : Made p es gs) (g : GEdge) :
    Made p (readEdge p es g) (gs ++ [g]) := by
  let up : Edg Nat P → Edg Nat P := fun e => if e.src = g.src ∧ e.dst = g.dst then wayOn p g.way e else e
  have us : ∀ e, (up e).src = e.src ∧ (up e).dst = e.dst := by
    intro e; simp only [up]; split <;> exact ⟨rfl, rfl⟩
  have hres : readEdge p es g = (addEdg es ⟨g.src, g.dst, attrs0, [], none⟩).map up := rfl
  -- the edge before the attributes are set: an old one, or a new one if there was none
  have hmem : ∀ e ∈ addEdg es ⟨g.src, g.dst, attrs0, [], none⟩, e ∈ es ∨ (e = ⟨g.src, g.dst, attrs0, [], none⟩ ∧ ∀ x ∈ es, ¬ (x.src = g.src ∧ x.dst = g.dst)) := by
    intro e he
    unfold addEdg at he
    cases hg : getEdg es g.src g.dst with
    | some x => rw [hg] at he; exact Or.inl he
    | none =>
      rw [hg] at he
      rcases List.mem_append.1 he with he | he
      · exact Or.inl he
      · refine Or.inr ⟨by simpa using he, fun x hx hh => ?_⟩
        have := getEdg_isSome.2 ⟨x, hx, hh⟩
        rw [hg] at this; cases this
  have hnone : ∀ e, (∀ x ∈ es, ¬ (x.src = g.src ∧ x.dst = g.dst)) → ∀ g' ∈ gs, ¬ (g'.src = g.src ∧ g'.dst = g.dst) ∨ e = g := by
    intro e hx g' hg'
    obtain ⟨x, hx', h1, h2⟩ := h.to g' hg'
    exact Or.inl fun hh => hx x hx' ⟨h1.trans hh.1, h2.trans hh.2⟩
  refine ⟨?_, ?_, ?_, ?_, ?_, ?_⟩
  · rw [hres]
    have hu : Uniq (addEdg es ⟨g.src, g.dst, attrs0, [], none⟩) := by
      unfold addEdg
      cases hg : getEdg es g.src g.dst with
      | some x => exact h.uniq
      | none =>
        refine List.pairwise_append.2 ⟨h.uniq, List.pairwise_singleton _ _, ?_⟩
        intro x hx y hy
        rw [List.mem_singleton] at hy
        subst hy
        intro hh
        have := getEdg_isSome.2 ⟨x, hx, hh⟩
        rw [hg] at this; cases this
    unfold Uniq
    rw [List.pairwise_map]
    exact hu.imp fun hh => by rw [(us _).1, (us _).1, (us _).2, (us _).2]; exact hh
  · intro e he
    rw [hres] at he
    obtain ⟨x, hx, rfl⟩ := List.mem_map.1 he
    by_cases hc : x.src = g.src ∧ x.dst = g.dst
    · refine ⟨g, by simp, ?_⟩
      simp only [up, if_pos hc]
      exact ⟨hc.1.symm, hc.2.symm, rfl⟩
    · simp only [up, if_neg hc]
      rcases hmem x hx with hx | ⟨rfl, _⟩
      · obtain ⟨g', hg', h1⟩ := h.back x hx
        exact ⟨g', by simp [hg'], h1⟩
      · exact absurd ⟨rfl, rfl⟩ hc
  · intro g' hg'
    rw [hres]
    rcases List.mem_append.1 hg' with hg' | hg'
    · obtain ⟨e, he, h1, h2⟩ := h.to g' hg'
      exact ⟨up e, List.mem_map.2 ⟨e, Gaps.mem_addEdg_of_mem he, rfl⟩, (us e).1.trans h1, (us e).2.trans h2⟩
    · rw [List.mem_singleton] at hg'
      subst hg'
      obtain ⟨e, he, h1, h2⟩ := Gaps.addEdg_adj es (⟨g'.src, g'.dst, attrs0, [], none⟩ : Edg Nat P)
      exact ⟨up e, List.mem_map.2 ⟨e, he, rfl⟩, (us e).1.trans h1, (us e).2.trans h2⟩
  · intro e he x
    rw [hres] at he
    obtain ⟨y, hy, rfl⟩ := List.mem_map.1 he
    rw [(us y).1, (us y).2]
    have old : x ∈ y.lines ↔ ∃ g' ∈ gs, g'.src = y.src ∧ g'.dst = y.dst ∧ x ∈ p.lines g'.way := by
      rcases hmem y hy with hy | ⟨rfl, hno⟩
      · exact h.lines y hy x
      · constructor
        · intro hh; cases hh
        · rintro ⟨g', hg', h1, h2, _⟩
          rcases hnone g' hno g' hg' with h3 | h3
          · exact absurd ⟨h1, h2⟩ h3
          · obtain ⟨z, hz, z1, z2⟩ := h.to g' hg'
            exact absurd ⟨z1.trans h1, z2.trans h2⟩ (hno z hz)
    by_cases hc : y.src = g.src ∧ y.dst = g.dst
    · simp only [up, if_pos hc, wayOn, mem_insertAll, old]
      constructor
      · rintro (h1 | ⟨g', hg', h1⟩)
        · exact ⟨g, by simp, hc.1.symm, hc.2.symm, h1⟩
        · exact ⟨g', by simp [hg'], h1⟩
      · rintro ⟨g', hg', h1, h2, h3⟩
        rcases List.mem_append.1 hg' with hg' | hg'
        · exact Or.inr ⟨g', hg', h1, h2, h3⟩
        · rw [List.mem_singleton] at hg'
          subst hg'
          exact Or.inl h3
    · simp only [up, if_neg hc, old]
      constructor
      · rintro ⟨g', hg', h1⟩
        exact ⟨g', by simp [hg'], h1⟩
      · rintro ⟨g', hg', h1, h2, h3⟩
        rcases List.mem_append.1 hg' with hg' | hg'
        · exact ⟨g', hg', h1, h2, h3⟩
        · rw [List.mem_singleton] at hg'
          subst hg'
          exact absurd ⟨h1.symm, h2.symm⟩ hc
  · intro hag e he
    have hag' : ∀ g ∈ gs, ∀ h ∈ gs, g.src = h.src → g.dst = h.dst → mk1 p.o g.way ≠ 0 → mk1 p.o h.way ≠ 0 →
        mk1 p.o g.way = mk1 p.o h.way := fun a ha b hb => hag a (by simp [ha]) b (by simp [hb])
    rw [hres] at he
    obtain ⟨y, hy, rfl⟩ := List.mem_map.1 he
    rw [(us y).1, (us y).2]
    have old : (∀ g ∈ gs, g.src = y.src → g.dst = y.dst → mk1 p.o g.way ≠ 0 → y.a.oneWay = mk1 p.o g.way) ∧
        ((∀ g ∈ gs, g.src = y.src → g.dst = y.dst → mk1 p.o g.way = 0) → y.a.oneWay = 0) := by
      rcases hmem y hy with hy | ⟨rfl, hno⟩
      · exact h.way hag' y hy
      · refine ⟨fun g' hg' h1 h2 => ?_, fun _ => rfl⟩
        obtain ⟨z, hz, z1, z2⟩ := h.to g' hg'
        exact absurd ⟨z1.trans h1, z2.trans h2⟩ (hno z hz)
    by_cases hc : y.src = g.src ∧ y.dst = g.dst
    · have hnew : (up y).a.oneWay = if mk1 p.o g.way ≠ 0 then mk1 p.o g.way else y.a.oneWay := by
        simp only [up, if_pos hc, wayOn]
        unfold mk1
        by_cases k1 : fOnewayrev p.o g.way.attrs ≠ 0
        · simp [k1]
        · by_cases k2 : fOneway p.o g.way.attrs ≠ 0 <;> simp [k1, k2]
      rw [hnew]
      by_cases hz : mk1 p.o g.way ≠ 0
      · rw [if_pos hz]
        refine ⟨fun g' hg' h1 h2 h3 => hag g (by simp) g' hg' (hc.1.symm.trans h1.symm) (hc.2.symm.trans h2.symm) hz h3, fun hall => ?_⟩
        exact absurd (hall g (by simp) hc.1.symm hc.2.symm) hz
      · rw [if_neg hz]
        refine ⟨fun g' hg' h1 h2 h3 => ?_, fun hall => old.2 fun g' hg' => hall g' (by simp [hg'])⟩
        rcases List.mem_append.1 hg' with hg' | hg'
        · exact old.1 g' hg' h1 h2 h3
        · rw [List.mem_singleton] at hg'
          subst hg'
          exact absurd h3 hz
    · simp only [up, if_neg hc]
      refine ⟨fun g' hg' h1 h2 h3 => ?_, fun hall => old.2 fun g' hg' => hall g' (by simp [hg'])⟩
      rcases List.mem_append.1 hg' with hg' | hg'
      · exact old.1 g' hg' h1 h2 h3
      · rw [List.mem_singleton] at hg'
        subst hg'
        exact absurd ⟨h1.symm, h2.symm⟩ hc
  · intro e he
    rw [hres] at he
    obtain ⟨y, hy, rfl⟩ := List.mem_map.1 he
    have old : y.a.restr = false ∧ y.a.rev = false ∧ y.geom = none := by
      rcases hmem y hy with hy | ⟨rfl, _⟩
      · exact h.plain y hy
      · exact ⟨rfl, rfl, rfl⟩
    by_cases hc : y.src = g.src ∧ y.dst = g.dst
    · simp only [up, if_pos hc, wayOn]; exact old
    · simp only [up, if_neg hc]; exact old

theorem made_all (p : Par P S T D) (gs done : List GEdge) (es : List (Edg Nat P)) (h : Made p es done) :
    Made p (gs.foldl (readEdge p) es) (done ++ gs) := by
  induction gs generalizing done es with
  | nil => simpa using h
  | cons g gs ih =>
    rw [List.foldl_cons]
    have := ih (done ++ [g]) _ (made_step h g)
    simpa using this

theorem made (p : Par P S T D) (gs : List GEdge) : Made p (gs.foldl (readEdge p) []) gs := by
  have := made_all p gs [] [] ⟨List.Pairwise.nil, by simp, by simp, by simp, by simp, by simp⟩
  simpa using this

/-! ### travel -/

theorem match_to {A B : Type} {R : A → B → Prop} {l : List A} {m : List B} (h : Match R l m) : ∀ a ∈ l, ∃ b ∈ m, R a b := by
  induction h with
  | nil => simp
  | cons h1 _ ih =>
    intro a ha
    rcases List.mem_cons.1 ha with rfl | ha
    · exact ⟨_, List.mem_cons_self, h1⟩
    · obtain ⟨b, hb, h2⟩ := ih a ha
      exact ⟨b, List.mem_cons_of_mem _ hb, h2⟩

theorem match_from {A B : Type} {R : A → B → Prop} {l : List A} {m : List B} (h : Match R l m) : ∀ b ∈ m, ∃ a ∈ l, R a b := by
  induction h with
  | nil => simp
  | cons h1 _ ih =>
    intro a ha
    rcases List.mem_cons.1 ha with rfl | ha
    · exact ⟨_, List.mem_cons_self, h1⟩
    · obtain ⟨b, hb, h2⟩ := ih a ha
      exact ⟨b, List.mem_cons_of_mem _ hb, h2⟩

/-- Edges of the graph, calls and pieces. -/
structure Ties (p : Par P S T D) (own : List Place) (es : List (Edg Nat P)) (ss : List Seg) : Prop where
  inj : ∀ (g g' : Nat) (p : Place), own[g]? = some p → own[g']? = some p → g = g'
  uniq : Uniq es
  to : ∀ s ∈ ss, ∃ e ∈ es, own[e.src]? = some s.a ∧ own[e.dst]? = some s.b
  back : ∀ e ∈ es, ∃ s ∈ ss, own[e.src]? = some s.a ∧ own[e.dst]? = some s.b ∧ e.a.lvl = Fin.ofNat 16 (fLevel p.o s.way.attrs)
  lines : ∀ e ∈ es, ∀ x, x ∈ e.lines ↔ ∃ s ∈ ss, own[e.src]? = some s.a ∧ own[e.dst]? = some s.b ∧ x ∈ p.lines s.way
  way : (∀ s ∈ ss, ∀ t ∈ ss, s.a = t.a → s.b = t.b → mk1 p.o s.way ≠ 0 → mk1 p.o t.way ≠ 0 → mk1 p.o s.way = mk1 p.o t.way) →
    ∀ e ∈ es, (∀ s ∈ ss, own[e.src]? = some s.a → own[e.dst]? = some s.b → mk1 p.o s.way ≠ 0 → e.a.oneWay = mk1 p.o s.way) ∧
      ((∀ s ∈ ss, own[e.src]? = some s.a → own[e.dst]? = some s.b → mk1 p.o s.way = 0) → e.a.oneWay = 0)
  plain : ∀ e ∈ es, e.a.rev = false ∧ e.geom = none

theorem ties {p : Par P S T D} {own : List Place} {gs : List GEdge} {ss : List Seg}
    (inj : ∀ (g g' : Nat) (p : Place), own[g]? = some p → own[g']? = some p → g = g') (hm : Match (Is own) gs ss) (flags : List (Nat × Nat)) :
    Ties p own ((gs.foldl (readEdge p) []).map (flag flags)) ss := by
  have M := made p gs
  have same : ∀ {g : GEdge} {s : Seg} {a b : Nat}, Is own g s → (own[a]? = some s.a ∧ own[b]? = some s.b ↔ g.src = a ∧ g.dst = b) := by
    intro g s a b h
    constructor
    · rintro ⟨h1, h2⟩; exact ⟨inj _ _ _ h.1 h1, inj _ _ _ h.2.1 h2⟩
    · rintro ⟨h1, h2⟩; exact ⟨h1 ▸ h.1, h2 ▸ h.2.1⟩
  have fwd := match_to hm
  have bwd := match_from hm
  refine ⟨inj, ?_, ?_, ?_, ?_, ?_, ?_⟩
  · unfold Uniq
    rw [List.pairwise_map]
    exact M.uniq
  · intro s hs
    obtain ⟨g, hg, hi⟩ := bwd s hs
    obtain ⟨e, he, h1, h2⟩ := M.to g hg
    exact ⟨flag flags e, List.mem_map.2 ⟨e, he, rfl⟩, (same hi).2 ⟨h1.symm, h2.symm⟩⟩
  · intro e he
    obtain ⟨x, hx, rfl⟩ := List.mem_map.1 he
    obtain ⟨g, hg, h1, h2, h3⟩ := M.back x hx
    obtain ⟨s, hs, hi⟩ := fwd g hg
    obtain ⟨q1, q2⟩ := (same hi).2 ⟨h1, h2⟩
    exact ⟨s, hs, q1, q2, by rw [← hi.2.2]; exact h3⟩
  · intro e he x
    obtain ⟨y, hy, rfl⟩ := List.mem_map.1 he
    show x ∈ y.lines ↔ _
    rw [M.lines y hy x]
    constructor
    · rintro ⟨g, hg, h1, h2, h3⟩
      obtain ⟨s, hs, hi⟩ := fwd g hg
      obtain ⟨q1, q2⟩ := (same hi).2 ⟨h1, h2⟩
      exact ⟨s, hs, q1, q2, by rw [← hi.2.2]; exact h3⟩
    · rintro ⟨s, hs, h1, h2, h3⟩
      obtain ⟨g, hg, hi⟩ := bwd s hs
      obtain ⟨q1, q2⟩ := (same hi).1 ⟨h1, h2⟩
      exact ⟨g, hg, q1, q2, by rw [hi.2.2]; exact h3⟩
  · intro hag e he
    obtain ⟨y, hy, rfl⟩ := List.mem_map.1 he
    have hag' : ∀ g ∈ gs, ∀ h ∈ gs, g.src = h.src → g.dst = h.dst → mk1 p.o g.way ≠ 0 → mk1 p.o h.way ≠ 0 →
        mk1 p.o g.way = mk1 p.o h.way := by
      intro g hg h hh e1 e2
      obtain ⟨s, hs, hi⟩ := fwd g hg
      obtain ⟨t, ht, hj⟩ := fwd h hh
      obtain ⟨q1, q2⟩ := (same hj).2 ⟨e1.symm, e2.symm⟩
      rw [hi.1] at q1
      rw [hi.2.1] at q2
      rw [hi.2.2, hj.2.2]
      exact hag s hs t ht (Option.some.inj q1) (Option.some.inj q2)
    obtain ⟨k1, k2⟩ := M.way hag' y hy
    refine ⟨fun s hs h1 h2 h3 => ?_, fun hall => k2 fun g hg h1 h2 => ?_⟩
    · obtain ⟨g, hg, hi⟩ := bwd s hs
      obtain ⟨q1, q2⟩ := (same hi).1 ⟨h1, h2⟩
      rw [← hi.2.2] at h3 ⊢
      exact k1 g hg q1 q2 h3
    · obtain ⟨s, hs, hi⟩ := fwd g hg
      obtain ⟨q1, q2⟩ := (same hi).2 ⟨h1, h2⟩
      rw [hi.2.2]
      exact hall s hs q1 q2
  · intro e he
    obtain ⟨y, hy, rfl⟩ := List.mem_map.1 he
    exact (M.plain y hy).2

theorem mk1_cases (o : Opts) (w : Way) : mk1 o w = 0 ∨ mk1 o w = 1 ∨ mk1 o w = 2 := by
  unfold mk1
  split
  · exact Or.inr (Or.inr rfl)
  · split
    · exact Or.inr (Or.inl rfl)
    · exact Or.inl rfl

theorem oneWay_iff {o : Opts} (ho : FlaggedOpts o) (s : Seg) : OneWay o s ↔ mk1 o s.way ≠ 0 := by
  obtain ⟨h1, h2⟩ := mk1_iff ho s.way
  unfold OneWay
  rw [← h1, ← h2]
  rcases mk1_cases o s.way with h | h | h <;> rw [h] <;> decide

section
variable {p : Par P S T D} {own : List Place} {es : List (Edg Nat P)} {ss : List Seg} (ho : FlaggedOpts p.o) (h : Ties p own es ss)
  (hmeet : ∀ s ∈ ss, ∀ t ∈ ss, Meet s t → OneWay p.o s → OneWay p.o t → (Against p.o s.way ↔ Against p.o t.way))
include ho h hmeet

theorem Ties.agree : ∀ s ∈ ss, ∀ t ∈ ss, Meet s t → mk1 p.o s.way ≠ 0 → mk1 p.o t.way ≠ 0 → mk1 p.o s.way = mk1 p.o t.way := by
  intro s hs t ht hmt h1 h2
  have := hmeet s hs t ht hmt ((oneWay_iff ho s).2 h1) ((oneWay_iff ho t).2 h2)
  rw [← (mk1_iff ho s.way).1, ← (mk1_iff ho t.way).1] at this
  revert this h1 h2
  rcases mk1_cases p.o s.way with h3 | h3 | h3 <;> rcases mk1_cases p.o t.way with h4 | h4 | h4 <;> rw [h3, h4] <;> decide

/-- The mark of an edge and the pieces. -/
theorem Ties.mark (e : Edg Nat P) (he : e ∈ es) (s : Seg) (h1 : own[e.src]? = some s.a) (h2 : own[e.dst]? = some s.b) :
    (e.a.oneWay = 2 ↔ ∃ t ∈ ss, t.a = s.a ∧ t.b = s.b ∧ Against p.o t.way) ∧
    (e.a.oneWay = 1 ↔ ∃ t ∈ ss, t.a = s.a ∧ t.b = s.b ∧ Along p.o t.way) ∧
    (e.a.oneWay ≠ 0 → ∃ t ∈ ss, t.a = s.a ∧ t.b = s.b ∧ mk1 p.o t.way = e.a.oneWay) := by
  obtain ⟨k1, k2⟩ := h.way (fun s hs t ht e1 _ => h.agree ho hmeet s hs t ht (Or.inl e1)) e he
  have key : e.a.oneWay ≠ 0 → ∃ t ∈ ss, t.a = s.a ∧ t.b = s.b ∧ mk1 p.o t.way = e.a.oneWay := by
    intro hne
    apply Classical.byContradiction
    intro hno
    refine hne (k2 fun t ht e1 e2 => ?_)
    apply Classical.byContradiction
    intro hz
    refine hno ⟨t, ht, ?_, ?_, (k1 t ht e1 e2 hz).symm⟩
    · rw [h1] at e1; exact (Option.some.inj e1).symm
    · rw [h2] at e2; exact (Option.some.inj e2).symm
  refine ⟨⟨fun hh => ?_, ?_⟩, ⟨fun hh => ?_, ?_⟩, key⟩
  · obtain ⟨t, ht, e1, e2, e3⟩ := key (by rw [hh]; decide)
    exact ⟨t, ht, e1, e2, (mk1_iff ho t.way).1.1 (e3.trans hh)⟩
  · rintro ⟨t, ht, e1, e2, e3⟩
    have := (mk1_iff ho t.way).1.2 e3
    rw [k1 t ht (by rw [e1]; exact h1) (by rw [e2]; exact h2) (by rw [this]; decide), this]
  · obtain ⟨t, ht, e1, e2, e3⟩ := key (by rw [hh]; decide)
    exact ⟨t, ht, e1, e2, (mk1_iff ho t.way).2.1 (e3.trans hh)⟩
  · rintro ⟨t, ht, e1, e2, e3⟩
    have := (mk1_iff ho t.way).2.2 e3
    rw [k1 t ht (by rw [e1]; exact h1) (by rw [e2]; exact h2) (by rw [this]; decide), this]

theorem Ties.reach (a b : Nat) (pa pb : Place) (ha : own[a]? = some pa) (hb : own[b]? = some pb) : Reach es a b ↔ Strict p.o ss pa pb := by
  constructor
  · intro hr
    have : ∀ b, Reach es a b → ∃ pb, own[b]? = some pb ∧ Strict p.o ss pa pb := by
      intro b hr
      induction hr with
      | refl => exact ⟨pa, ha, .refl _⟩
      | @step v w _ hex ih =>
        obtain ⟨pv, hv, hs⟩ := ih
        obtain ⟨e, he, hp⟩ := hex
        obtain ⟨s, hs', s1, s2, _⟩ := h.back e he
        obtain ⟨m2, m1, _⟩ := h.mark ho hmeet e he s s1 s2
        rcases hp with ⟨p1, p2, p3⟩ | ⟨p1, p2, p3⟩
        · subst p1; subst p2
          rw [s1] at hv
          cases hv
          exact ⟨s.b, s2, .ahead hs hs' fun t ht e1 e2 e3 => p3 (m2.2 ⟨t, ht, e1, e2, e3⟩)⟩
        · subst p1; subst p2
          rw [s2] at hv
          cases hv
          exact ⟨s.a, s1, .back hs hs' fun t ht e1 e2 e3 => p3 (m1.2 ⟨t, ht, e1, e2, e3⟩)⟩
    obtain ⟨pb', h1, h2⟩ := this b hr
    rw [hb] at h1
    cases h1
    exact h2
  · intro hs
    induction hs generalizing b with
    | refl => rw [h.inj a b pa ha hb]; exact .refl _
    | @ahead s _ hs hall ih =>
      obtain ⟨e, he, e1, e2⟩ := h.to s hs
      obtain ⟨m2, _, _⟩ := h.mark ho hmeet e he s e1 e2
      refine .step (ih e.src e1) ⟨e, he, Or.inl ⟨rfl, h.inj _ _ _ e2 hb, fun h2 => ?_⟩⟩
      obtain ⟨t, ht, t1, t2, t3⟩ := m2.1 h2
      exact hall t ht t1 t2 t3
    | @back s _ hs hall ih =>
      obtain ⟨e, he, e1, e2⟩ := h.to s hs
      obtain ⟨_, m1, _⟩ := h.mark ho hmeet e he s e1 e2
      refine .step (ih e.dst e2) ⟨e, he, Or.inr ⟨rfl, h.inj _ _ _ e1 hb, fun h2 => ?_⟩⟩
      obtain ⟨t, ht, t1, t2, t3⟩ := m1.1 h2
      exact hall t ht t1 t2 t3

/-- One-way edges that meet are drawn in the same sense. -/
theorem Ties.marks (e f : Edg Nat P) (he : e ∈ es) (hf : f ∈ es) (hm : e.src = f.src ∨ e.src = f.dst ∨ e.dst = f.src ∨ e.dst = f.dst)
    (h1 : e.a.oneWay ≠ 0) (h2 : f.a.oneWay ≠ 0) : e.a.oneWay = f.a.oneWay := by
  obtain ⟨s, hs, s1, s2, _⟩ := h.back e he
  obtain ⟨t, ht, t1, t2, _⟩ := h.back f hf
  obtain ⟨s', hs', q1, q2, q3⟩ := (h.mark ho hmeet e he s s1 s2).2.2 h1
  obtain ⟨t', ht', r1, r2, r3⟩ := (h.mark ho hmeet f hf t t1 t2).2.2 h2
  rw [← q3, ← r3]
  refine h.agree ho hmeet s' hs' t' ht' ?_ (by rw [q3]; exact h1) (by rw [r3]; exact h2)
  unfold Meet
  rw [q1, q2, r1, r2]
  rcases hm with k | k | k | k
  · left; rw [k, t1] at s1; exact (Option.some.inj s1).symm
  · right; left; rw [k, t2] at s1; exact (Option.some.inj s1).symm
  · right; right; left; rw [k, t1] at s2; exact (Option.some.inj s2).symm
  · right; right; right; rw [k, t2] at s2; exact (Option.some.inj s2).symm

end

end Verif.Whole
