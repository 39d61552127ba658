import Verif.Whole.Spec

/-!
# The nodes of the graph and the places of the map
-/

set_option linter.unusedSectionVars false

namespace Verif.Whole
open Verif.Osm

variable {P : Type}

/-- `own` lists for which place the nodes of the graph have been created; reference number `j` of way number `k` is next. -/
structure PInv (nohup box : Nat → Bool) (own : List Place) (k j : Nat) (s : GSt P) : Prop where
  len : own.length = s.next
  inj : ∀ (g g' : Nat) (p : Place), own[g]? = some p → own[g']? = some p → g = g'
  nd : ∀ (i g : Nat), s.nodes.get i = some g ↔ own[g]? = some (.shared i)
  sh : ∀ (i g : Nat), own[g]? = some (.shared i) → nohup i = false ∧ box i = true
  al : ∀ (i g k' j' : Nat), own[g]? = some (.alone i k' j') → nohup i = true ∧ (k' < k ∨ k' = k ∧ j' < j) ∧ ∃ l, s.multi.get i = some l ∧ g ∈ l
  mu : ∀ (i : Nat) (l : List Nat), s.multi.get i = some l → ∀ g ∈ l, ∃ k' j', own[g]? = some (.alone i k' j')

theorem pinv_init (nohup box : Nat → Bool) : PInv nohup box [] 0 0 (GSt.init : GSt P) :=
  ⟨rfl, by simp, by intro i g; simp [GSt.init, FMap.get], by simp, by simp, by intro i l h; simp [GSt.init, FMap.get] at h⟩

theorem pl_snoc {own : List Place} {g : Nat} {p q : Place} : (own ++ [q])[g]? = some p ↔ own[g]? = some p ∨ (g = own.length ∧ p = q) := by
  rcases Nat.lt_trichotomy g own.length with h | h | h
  · rw [List.getElem?_append_left h]
    exact ⟨Or.inl, fun h' => h'.elim id (fun h' => by omega)⟩
  · subst h
    simp only [List.getElem?_concat_length, Option.some.injEq, true_and]
    constructor
    · intro h; exact Or.inr h.symm
    · rintro (h | h)
      · simp at h
      · exact h.symm
  · rw [List.getElem?_eq_none (by simp; omega), List.getElem?_eq_none (by omega)]
    simp
    omega

theorem pl_fresh {own : List Place} {p : Place} {g : Nat} (h : own[g]? = some p) : g ≠ own.length := by
  intro hg
  rw [hg] at h
  simp at h

theorem PInv.weaken {nohup box : Nat → Bool} {own : List Place} {k j : Nat} {s : GSt P} (h : PInv nohup box own k j s) (k1 j1 : Nat)
    (hk : ∀ k' j', (k' < k ∨ k' = k ∧ j' < j) → (k' < k1 ∨ k' = k1 ∧ j' < j1)) : PInv nohup box own k1 j1 s :=
  ⟨h.len, h.inj, h.nd, h.sh, fun i g k' j' hg => by obtain ⟨a, b, c⟩ := h.al i g k' j' hg; exact ⟨a, hk _ _ b, c⟩, h.mu⟩

/-- The place of reference number `j` of way number `k`. -/
def placeOf (nohup : Nat → Bool) (k j i : Nat) : Place := if nohup i then .alone i k j else .shared i

theorem ndFor_place {nohup box : Nat → Bool} {own : List Place} {k j : Nat} {s : GSt P} (h : PInv nohup box own k j s) (nid : Nat) :
    ((nohup nid || box nid) = false ∧ ndFor nohup box s nid = (none, s)) ∨
    ((nohup nid || box nid) = true ∧ ∃ (own' : List Place) (g : Nat) (s' : GSt P), ndFor nohup box s nid = (some g, s') ∧
      PInv nohup box own' k (j + 1) s' ∧ (∃ e, own' = own ++ e) ∧ s'.edges = s.edges ∧ s'.geom = s.geom ∧
      own'[g]? = some (placeOf nohup k j nid)) := by
  have hw : PInv nohup box own k (j + 1) s := h.weaken k (j + 1) (fun _ _ h => by omega)
  unfold ndFor placeOf
  by_cases hu : nohup nid = true
  · rw [if_pos hu, if_pos hu]
    refine Or.inr ⟨by simp [hu], own ++ [.alone nid k j], s.next, _, rfl, ?_, ⟨_, rfl⟩, rfl, rfl, pl_snoc.2 (Or.inr ⟨h.len.symm, rfl⟩)⟩
    have hnew : ∀ g : Nat, own[g]? ≠ some (.alone nid k j) := by
      intro g hg
      obtain ⟨_, h1, _⟩ := h.al _ _ _ _ hg
      omega
    refine ⟨by simp [h.len], ?_, ?_, ?_, ?_, ?_⟩
    · intro g g' p hg hg'
      rcases pl_snoc.1 hg with h1 | ⟨h1, h2⟩ <;> rcases pl_snoc.1 hg' with h3 | ⟨h3, h4⟩
      · exact h.inj g g' p h1 h3
      · subst h4; exact absurd h1 (hnew _)
      · subst h2; exact absurd h3 (hnew _)
      · omega
    · intro i g
      simp only [h.nd, pl_snoc]
      simp
    · intro i g hg
      rcases pl_snoc.1 hg with h1 | ⟨_, h1⟩
      · exact h.sh i g h1
      · cases h1
    · intro i g k' j' hg
      simp only [pushTo, FMap.get_put]
      rcases pl_snoc.1 hg with h1 | ⟨h1, h2⟩
      · obtain ⟨a, b, l, hl, hgl⟩ := hw.al i g k' j' h1
        refine ⟨a, b, ?_⟩
        by_cases hi : i = nid
        · subst hi
          exact ⟨_, by rw [if_pos rfl], by rw [hl]; simp [hgl]⟩
        · exact ⟨l, by rw [if_neg hi]; exact hl, hgl⟩
      · cases h2
        exact ⟨hu, by omega, _, by rw [if_pos rfl], by simp [h1, h.len]⟩
    · intro i l hl g hg
      simp only [pushTo, FMap.get_put] at hl
      split at hl
      · rename_i hi
        subst hi
        cases hl
        rcases List.mem_append.1 hg with hg | hg
        · cases hm : s.multi.get i with
          | none => rw [hm] at hg; cases hg
          | some l' =>
            rw [hm] at hg
            obtain ⟨k', j', h1⟩ := h.mu i l' hm g hg
            exact ⟨k', j', pl_snoc.2 (Or.inl h1)⟩
        · rw [List.mem_singleton] at hg
          exact ⟨k, j, pl_snoc.2 (Or.inr ⟨hg.trans h.len.symm, rfl⟩)⟩
      · obtain ⟨k', j', h1⟩ := h.mu i l hl g hg
        exact ⟨k', j', pl_snoc.2 (Or.inl h1)⟩
  · rw [if_neg hu, if_neg hu]
    have hu' : nohup nid = false := by simpa using hu
    cases hn : s.nodes.get nid with
    | some n =>
      have h1 := (h.nd nid n).1 hn
      exact Or.inr ⟨by simp [(h.sh _ _ h1).2], own, n, s, rfl, hw, ⟨[], by simp⟩, rfl, rfl, h1⟩
    | none =>
      simp only
      by_cases hb : box nid = true
      · rw [if_pos hb]
        refine Or.inr ⟨by simp [hb], own ++ [.shared nid], s.next, _, rfl, ?_, ⟨_, rfl⟩, rfl, rfl, pl_snoc.2 (Or.inr ⟨h.len.symm, rfl⟩)⟩
        have hnew : ∀ g : Nat, own[g]? ≠ some (.shared nid) := by
          intro g hg
          rw [← h.nd, hn] at hg
          cases hg
        refine ⟨by simp [h.len], ?_, ?_, ?_, ?_, ?_⟩
        · intro g g' p hg hg'
          rcases pl_snoc.1 hg with h1 | ⟨h1, h2⟩ <;> rcases pl_snoc.1 hg' with h3 | ⟨h3, h4⟩
          · exact h.inj g g' p h1 h3
          · subst h4; exact absurd h1 (hnew _)
          · subst h2; exact absurd h3 (hnew _)
          · omega
        · intro i g
          simp only [FMap.get_put, pl_snoc]
          by_cases hi : i = nid
          · subst hi
            rw [if_pos rfl]
            simp only [Option.some.injEq, and_true]
            constructor
            · intro h'; right; rw [h.len]; exact h'.symm
            · rintro (h' | h')
              · exact absurd h' (hnew g)
              · rw [h', h.len]
          · rw [if_neg hi, h.nd]
            simp [hi]
        · intro i g hg
          rcases pl_snoc.1 hg with h1 | ⟨_, h1⟩
          · exact h.sh i g h1
          · cases h1; exact ⟨hu', hb⟩
        · intro i g k' j' hg
          rcases pl_snoc.1 hg with h1 | ⟨_, h1⟩
          · exact hw.al i g k' j' h1
          · cases h1
        · intro i l hl g hg
          obtain ⟨k', j', h1⟩ := h.mu i l hl g hg
          exact ⟨k', j', pl_snoc.2 (Or.inl h1)⟩
      · rw [if_neg hb]
        exact Or.inl ⟨by simp [hu', hb], rfl⟩

/-- The edge belongs to the piece. -/
def Is (own : List Place) (e : GEdge) (x : Seg) : Prop := own[e.src]? = some x.a ∧ own[e.dst]? = some x.b ∧ e.way = x.way

theorem Is.append {own : List Place} {e : GEdge} {x : Seg} (h : Is own e x) (ext : List Place) : Is (own ++ ext) e x := by
  refine ⟨?_, ?_, h.2.2⟩
  · rw [List.getElem?_append_left (List.getElem?_eq_some_iff.1 h.1).1]; exact h.1
  · rw [List.getElem?_append_left (List.getElem?_eq_some_iff.1 h.2.1).1]; exact h.2.1

theorem edgesGo_place {nohup box : Nat → Bool} (w : Way) (k : Nat) (nids : List Nat) (own : List Place) (j : Nat) (s : GSt P)
    (h : PInv nohup box own k j s) (last : Option Nat) (lp : Option Place)
    (hl : ∀ g, last = some g → ∃ p, lp = some p ∧ own[g]? = some p) (hl' : last = none → lp = none)
    (done : List Seg) (hd : Match (Is own) s.edges done) :
    ∃ (own' : List Place) (j' : Nat), PInv nohup box own' k j' (edgesGo nohup box w nids s last) ∧
      (edgesGo nohup box w nids s last).geom = s.geom ∧
      Match (Is own') (edgesGo nohup box w nids s last).edges
        (done ++ pieces w (lp.toList ++ places nohup k j (nids.filter fun i => nohup i || box i))) := by
  induction nids generalizing own j s last lp done with
  | nil =>
    refine ⟨own, j, h, rfl, ?_⟩
    have : pieces w (lp.toList ++ places nohup k j ([].filter fun i => nohup i || box i)) = [] := by cases lp <;> rfl
    rw [this, List.append_nil]
    exact hd
  | cons nid nids ih =>
    rw [edgesGo]
    rcases ndFor_place h nid with ⟨hp, hr⟩ | ⟨hp, own1, g, s', hr, h1, ⟨e1, he1⟩, h2, h3, h4⟩
    · rw [hr, List.filter_cons, if_neg (by simp [hp])]
      exact ih own j s h last lp hl hl' done hd
    · rw [hr, List.filter_cons, if_pos hp]
      have hd1 : Match (Is own1) s.edges done := by
        rw [he1]; exact hd.mono fun a b hab => hab.append e1
      cases last with
      | none =>
        simp only
        obtain ⟨own2, j2, g1, g2, g3⟩ := ih own1 (j + 1) s' h1 (some g) (some (placeOf nohup k j nid))
          (fun g' hg' => by cases hg'; exact ⟨_, rfl, h4⟩) (by simp) done (by rw [h2]; exact hd1)
        refine ⟨own2, j2, g1, by rw [g2, h3], ?_⟩
        rw [hl' rfl]
        exact g3
      | some l =>
        simp only
        obtain ⟨p0, hp0, ho0⟩ := hl l rfl
        have ho1 : own1[l]? = some p0 := by
          rw [he1, List.getElem?_append_left (List.getElem?_eq_some_iff.1 ho0).1]; exact ho0
        obtain ⟨own2, j2, g1, g2, g3⟩ := ih own1 (j + 1) { s' with edges := s'.edges ++ [⟨l, g, w⟩] }
          ⟨h1.len, h1.inj, h1.nd, h1.sh, h1.al, h1.mu⟩ (some g) (some (placeOf nohup k j nid))
          (fun g' hg' => by cases hg'; exact ⟨_, rfl, h4⟩) (by simp) (done ++ [⟨p0, placeOf nohup k j nid, w⟩])
          (by
            rw [h2]
            exact hd1.append (.cons ⟨ho1, h4, rfl⟩ .nil))
        refine ⟨own2, j2, g1, by rw [g2, h3], ?_⟩
        rw [hp0]
        have : done ++ pieces w ((some p0).toList ++ places nohup k j (nid :: nids.filter fun i => nohup i || box i)) =
            (done ++ [⟨p0, placeOf nohup k j nid, w⟩]) ++
              pieces w ((some (placeOf nohup k j nid)).toList ++ places nohup k (j + 1) (nids.filter fun i => nohup i || box i)) := by
          simp [places, pieces, placeOf]
        rw [this]
        exact g3

/-- The nodes of the graph are places, and its edges are the pieces of the ways. -/
theorem addWays_place {nohup box : Nat → Bool} (ws : List Way) (k : Nat) (own : List Place) (s : GSt P) (h : PInv nohup box own k 0 s)
    (done : List Seg) (hd : Match (Is own) s.edges done) :
    ∃ (own' : List Place) (k' : Nat), PInv nohup box own' k' 0 (ws.foldl (addWay nohup box) s) ∧
      (ws.foldl (addWay nohup box) s).geom = s.geom ∧
      Match (Is own') (ws.foldl (addWay nohup box) s).edges (done ++ segs nohup (fun i => nohup i || box i) k ws) := by
  induction ws generalizing k own s done with
  | nil => exact ⟨own, k, h, rfl, by simpa [segs] using hd⟩
  | cons w ws ih =>
    obtain ⟨own1, j1, h1, h2, h3⟩ := edgesGo_place w k w.nodes own 0 s h none none (by simp) (by simp) done hd
    obtain ⟨own2, k2, g1, g2, g3⟩ := ih (k + 1) own1 (addWay nohup box s w) (h1.weaken (k + 1) 0 (fun _ _ h => by omega)) _ h3
    refine ⟨own2, k2, g1, by rw [List.foldl_cons, g2]; exact h2, ?_⟩
    rw [List.foldl_cons]
    simpa [segs, List.append_assoc] using g3

end Verif.Whole
