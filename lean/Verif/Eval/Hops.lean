import Verif.Eval.Limits
set_option linter.unusedSimpArgs false
/-!
# Properties of the evaluation: the distances between stops (C44)
-/
namespace Verif.Eval

variable {S : Type}

/-! ## Specification -/

/-- The shapes of both trips are cut: there is an old shape, all stops have a measure, and anchor points are at most 1000 m apart on average. -/
def cut (g : Geo S) (x : Cmp S) : Bool :=
  x.1.shape.any fun oldS => (x.1.sts.all fun st => decide (0 ≤ st.2)) && (x.2.1.sts.all fun st => decide (0 ≤ st.2)) &&
    decide (g.len (oldS.map (·.1)) ≤ 1000 * (oldS.length : Rat)) && decide (g.len (x.2.2.map (·.1)) ≤ 1000 * (x.2.2.length : Rat))

/-- The hops of the evaluated trip: for each two consecutive stops their distance as the crow flies, and by how much the length of the shape between
them differs from it. -/
def HopsOf (g : Geo S) (x : Cmp S) (hops : List (Rat × Rat)) : Prop :=
  ∃ ps, Cuts x.2.2 x.2.1.sts ps ∧ hops.length = x.2.1.sts.length - 1 ∧
    ∀ (i : Nat) (a b : ST S) (p q : Pt), x.2.1.sts[i]? = some a → x.2.1.sts[i + 1]? = some b → ps[i]? = some p → ps[i + 1]? = some q →
      ∃ d, hops[i]? = some (g.hav a.1 b.1, d) ∧ 0 ≤ d ∧
        (d = g.hav a.1 b.1 - g.len (g.seg (x.2.2.map (·.1)) p q) ∨ d = g.len (g.seg (x.2.2.map (·.1)) p q) - g.hav a.1 b.1)

/-! ## Lemmas -/

theorem sparse_iff_len (g : Geo S) (s : Shp) (hs : s ≠ []) : sparse g (s.map (·.1)) = false ↔ g.len (s.map (·.1)) ≤ 1000 * (s.length : Rat) := by
  have hq : (0 : Rat) < (s.length : Rat) := by exact_mod_cast List.length_pos_iff.2 hs
  unfold sparse
  rw [decide_eq_false_iff_not, List.length_map]
  constructor
  · intro h; exact Rat.not_lt.1 fun hl => h ((Rat.lt_div_iff hq).2 hl)
  · intro h hl; have := (Rat.lt_div_iff hq).1 hl; grind

theorem noDist_iff_all (t : Trip S) : noDist t = false ↔ t.sts.all (fun st => decide (0 ≤ st.2)) = true := by
  simp only [noDist, List.any_eq_false, decide_eq_true_eq, List.all_eq_true, Rat.not_lt]

theorem segmentize_hops (g : Geo S) (s : Shp) (hs : s ≠ []) (sts : List (ST S)) (h2 : 2 ≤ sts.length) (o n : Trip S) (hn : n.sts = sts)
    (segs : List Ln) (lens : List (Rat × Rat)) (h : segmentize g sts (s.map (·.1)) (s.map (·.2)) = some (segs, lens)) :
    HopsOf g (o, n, s) (lens.map fun p => (p.1, (p.1 - p.2).abs)) := by
  obtain ⟨segs', lens', ps, h1, h3, h4, h5, h6, h7⟩ := C63_cut g s hs sts h2
  rw [h] at h1
  cases h1
  subst hn
  refine ⟨ps, h3, by simpa using h5, ?_⟩
  intro i a b p q ha hb hp hq
  have := h7 i a b _ ha hb (h6 i p q hp hq)
  refine ⟨_, by rw [List.getElem?_map, this]; rfl, Rat.abs_nonneg, ?_⟩
  simp only [Rat.abs]
  split <;> grind

/-- What a comparison adds to the two lists. -/
theorem add_hops (g : Geo S) (asserts : Bool) (c c' : Coll) (o n : Trip S) (s : Shp) (ho : ∀ oldS, o.shape = some oldS → oldS ≠ []) (hs : s ≠ [])
    (h2 : 2 ≤ n.sts.length) (h : add g asserts c o n s = some c') :
    ∃ hs : List (Rat × Rat), c'.hopDists = c.hopDists ++ hs.map (·.1) ∧ c'.distDiffs = c.distDiffs ++ hs.map (·.2) ∧
      (cut g (o, n, s) = true → HopsOf g (o, n, s) hs) ∧ (cut g (o, n, s) = false → hs = []) := by
  unfold add at h
  simp only at h
  cases hos : o.shape with
  | none =>
    rw [hos] at h
    cases h
    exact ⟨[], by simp [Coll.skip], by simp [Coll.skip], by simp [cut, hos], fun _ => rfl⟩
  | some oldS =>
    rw [hos] at h
    have hne := ho oldS hos
    simp only at h
    have hc : cut g (o, n, s) = (!noDist o && !noDist n && !sparse g (oldS.map (·.1)) && !sparse g (s.map (·.1))) := by
      simp only [cut, hos, Option.any_some]
      have e1 : (o.sts.all fun st => decide (0 ≤ st.2)) = !noDist o := by
        rw [Bool.eq_iff_iff, ← noDist_iff_all o]; simp
      have e2 : (n.sts.all fun st => decide (0 ≤ st.2)) = !noDist n := by
        rw [Bool.eq_iff_iff, ← noDist_iff_all n]; simp
      have e3 : decide (g.len (oldS.map (·.1)) ≤ 1000 * (oldS.length : Rat)) = !sparse g (oldS.map (·.1)) := by
        rw [Bool.eq_iff_iff, decide_eq_true_iff, ← sparse_iff_len g oldS hne]; simp
      have e4 : decide (g.len (s.map (·.1)) ≤ 1000 * (s.length : Rat)) = !sparse g (s.map (·.1)) := by
        rw [Bool.eq_iff_iff, decide_eq_true_iff, ← sparse_iff_len g s hs]; simp
      rw [e1, e2, e3, e4]
    rw [hc]
    split at h
    · rename_i hd; cases h; exact ⟨[], by simp [Coll.skip], by simp [Coll.skip], by simp [hd], fun _ => rfl⟩
    rename_i hd1
    split at h
    · rename_i hd; cases h; exact ⟨[], by simp [Coll.skip], by simp [Coll.skip], by simp [hd], fun _ => rfl⟩
    rename_i hd2
    split at h
    · rename_i hd; cases h; exact ⟨[], by simp [Coll.skip], by simp [Coll.skip], by simp [hd], fun _ => rfl⟩
    rename_i hd3
    split at h
    · rename_i hd; cases h; exact ⟨[], by simp [Coll.skip], by simp [Coll.skip], by simp [hd], fun _ => rfl⟩
    rename_i hd4
    split at h
    · rename_i oldSegs _ newSegs lens he1 he2
      refine ⟨lens.map fun p => (p.1, (p.1 - p.2).abs), ?_, ?_, fun _ => segmentize_hops g s hs n.sts h2 o n rfl _ _ he2, by simp [hd1, hd2, hd3, hd4]⟩
      all_goals
        unfold compareSegs at h
        split at h
        · cases h
        · simp only at h
          split at h
          · cases h
          · split at h <;> cases h <;> simp [Coll.skip, Coll.record, Coll.lens, Function.comp_def]
    · cases h

theorem run_hops (g : Geo S) (asserts : Bool) : ∀ (xs : List (Cmp S)) (c c' : Coll),
    (∀ x ∈ xs, (∀ oldS, x.1.shape = some oldS → oldS ≠ []) ∧ x.2.2 ≠ [] ∧ 2 ≤ x.2.1.sts.length) → run g asserts c xs = some c' →
    ∃ hs : List (List (Rat × Rat)), c'.hopDists = c.hopDists ++ hs.flatten.map (·.1) ∧ c'.distDiffs = c.distDiffs ++ hs.flatten.map (·.2) ∧
      hs.length = (xs.filter (cut g)).length ∧
      ∀ (i : Nat) (x : Cmp S) (h : List (Rat × Rat)), (xs.filter (cut g))[i]? = some x → hs[i]? = some h → HopsOf g x h := by
  intro xs
  induction xs with
  | nil => intro c c' _ h; rw [run] at h; cases h; exact ⟨[], by simp, by simp, rfl, by simp⟩
  | cons x xs ih =>
    intro c c' hx h
    obtain ⟨o, n, s⟩ := x
    rw [run] at h
    split at h
    · cases h
    · rename_i c1 h1
      obtain ⟨a1, a2, a3⟩ := hx _ (List.mem_cons_self ..)
      obtain ⟨hs, b1, b2, b3, b4⟩ := add_hops g asserts c c1 o n s a1 a2 a3 h1
      obtain ⟨hss, d1, d2, d3, d4⟩ := ih c1 c' (fun x hx' => hx x (List.mem_cons_of_mem _ hx')) h
      cases hc : cut g (o, n, s) with
      | true =>
        refine ⟨hs :: hss, by simp [d1, b1], by simp [d2, b2], by simp [List.filter_cons, hc, d3], ?_⟩
        intro i x h hi hh
        rw [List.filter_cons, if_pos hc] at hi
        cases i with
        | zero => simp only [List.getElem?_cons_zero, Option.some.injEq] at hi hh; subst hi; subst hh; exact b3 hc
        | succ i => exact d4 i x h (by simpa using hi) (by simpa using hh)
      | false =>
        have := b4 hc
        subst this
        refine ⟨hss, by simp [d1, b1], by simp [d2, b2], by simp [List.filter_cons, hc, d3], ?_⟩
        intro i x h hi hh
        rw [List.filter_cons, if_neg (by simp [hc])] at hi
        exact d4 i x h hi hh

theorem sorted_split (l : List Rat) (h : l.Pairwise (· ≤ ·)) (k : Nat) (m : Rat) (hm : l[k]? = some m) :
    (l.countP fun x => decide (x < m)) ≤ k ∧ (l.countP fun x => decide (m < x)) ≤ l.length - k - 1 := by
  have hk : k < l.length := (List.getElem?_eq_some_iff.1 hm).1
  have e : l = l.take k ++ m :: l.drop (k + 1) := by
    have h1 := (List.take_append_drop k l).symm
    rw [List.drop_eq_getElem_cons hk] at h1
    rw [List.getElem?_eq_getElem hk] at hm
    cases hm
    exact h1
  rw [e] at h
  obtain ⟨_, h1, h2⟩ := List.pairwise_append.1 h
  obtain ⟨h3, _⟩ := List.pairwise_cons.1 h1
  have z1 : (l.take k).countP (fun x => decide (m < x)) = 0 := by
    rw [List.countP_eq_zero]
    intro a ha
    have := h2 a ha m (List.mem_cons_self ..)
    simp only [decide_eq_true_eq]; grind
  have z2 : (l.drop (k + 1)).countP (fun x => decide (x < m)) = 0 := by
    rw [List.countP_eq_zero]
    intro a ha
    have := h3 a ha
    simp only [decide_eq_true_eq]; grind
  have l1 : ((l.take k).countP fun x => decide (x < m)) ≤ (l.take k).length := List.countP_le_length
  have l2 : ((l.drop (k + 1)).countP fun x => decide (m < x)) ≤ (l.drop (k + 1)).length := List.countP_le_length
  simp only [List.length_take, List.length_drop] at l1 l2
  have c1 := congrArg (List.countP fun x => decide (x < m)) e
  have c2 := congrArg (List.countP fun x => decide (m < x)) e
  rw [List.countP_append, List.countP_cons, z2] at c1
  rw [List.countP_append, List.countP_cons, z1] at c2
  have i1 : ¬ m < m := Rat.lt_irrefl
  simp only [i1, decide_false, Bool.false_eq_true, if_false] at c1 c2
  omega

/-! ## Property C44 -/

/-- **C44 (distances between stops).** The distances that are averaged and the differences of which the median is taken are those of the hops of
exactly the evaluated trips whose shapes could be cut, in order. -/
theorem C44_hops (g : Geo S) (asserts : Bool) (xs : List (Cmp S))
    (hx : ∀ x ∈ xs, (∀ oldS, x.1.shape = some oldS → oldS ≠ []) ∧ x.2.2 ≠ [] ∧ 2 ≤ x.2.1.sts.length) (c : Coll)
    (h : run g asserts {} xs = some c) :
    ∃ hs : List (List (Rat × Rat)), c.hopDists = hs.flatten.map (·.1) ∧ c.distDiffs = hs.flatten.map (·.2) ∧
      hs.length = (xs.filter (cut g)).length ∧
      ∀ (i : Nat) (x : Cmp S) (h : List (Rat × Rat)), (xs.filter (cut g))[i]? = some x → hs[i]? = some h → HopsOf g x h := by
  obtain ⟨hs, h1, h2, h3⟩ := run_hops g asserts xs {} c hx h
  exact ⟨hs, by simpa using h1, by simpa using h2, h3⟩

/-- **C44 (median, average).** The median is one of the differences; at most half of them are smaller, and at most half are greater. The average
distance of stops times their number is the sum. Without any hop both are -1. -/
theorem C44_median (c : Coll) :
    (c.distDiffs ≠ [] → c.median ∈ c.distDiffs ∧ 2 * (c.distDiffs.countP fun x => decide (x < c.median)) ≤ c.distDiffs.length ∧
      2 * (c.distDiffs.countP fun x => decide (c.median < x)) ≤ c.distDiffs.length) ∧
    (c.hopDists ≠ [] → c.avgHop * (c.hopDists.length : Rat) = sumOf c.hopDists) ∧
    (c.distDiffs = [] → c.median = -1) ∧ (c.hopDists = [] → c.avgHop = -1) := by
  refine ⟨?_, ?_, ?_, ?_⟩
  · intro hne
    have hp := List.mergeSort_perm c.distDiffs (fun a b => decide (a ≤ b))
    have hs : (c.distDiffs.mergeSort fun a b => decide (a ≤ b)).Pairwise fun a b => decide (a ≤ b) = true :=
      List.pairwise_mergeSort (fun a b c h1 h2 => by simp only [decide_eq_true_eq] at *; grind)
        (fun a b => by simp only [Bool.or_eq_true, decide_eq_true_eq]; exact Rat.le_total) _
    have hlen := hp.length_eq
    have hpos := List.length_pos_iff.2 hne
    have hk : c.distDiffs.length / 2 < (c.distDiffs.mergeSort fun a b => decide (a ≤ b)).length := by omega
    have hm := List.getElem?_eq_getElem hk
    have e : c.median = (c.distDiffs.mergeSort fun a b => decide (a ≤ b))[c.distDiffs.length / 2] := by
      unfold Coll.median; rw [hm]
    rw [← e] at hm
    obtain ⟨a, b⟩ := sorted_split _ (hs.imp fun h => by simpa using h) _ _ hm
    rw [hp.countP_eq] at a b
    refine ⟨hp.mem_iff.1 (List.mem_of_getElem? hm), by omega, by omega⟩
  · intro hne
    unfold Coll.avgHop
    have hpos := List.length_pos_iff.2 hne
    rw [if_neg (by omega)]
    have hq : (c.hopDists.length : Rat) ≠ 0 := by
      have : (0 : Rat) < (c.hopDists.length : Rat) := by exact_mod_cast hpos
      grind
    rw [Rat.div_mul_cancel hq]; rfl
  · intro h; simp [Coll.median, h]
  · intro h; simp [Coll.avgHop, h]

/-- Four comparisons with two that are cut (one of them is too short to be a result). -/
example : ((run exGrid true {} exRun).map fun c => (c.hopDists.length, c.distDiffs.length, exRun.map (cut exGrid))) =
    some (6, 6, [false, true, true, true]) := by decide +kernel

end Verif.Eval
