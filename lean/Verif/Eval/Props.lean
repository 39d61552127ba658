import Verif.Eval.Collect
set_option linter.unusedSimpArgs false
/-!
# Properties of the evaluation: counts (C44), statistics, independence of the order (C64)
-/
namespace Verif.Eval

variable {S : Type}

/-! ## Specification -/

/-- The segments of a trip: a piece of the shape between each two consecutive stops. -/
def Segs (g : Geo S) (s : Shp) (sts : List (ST S)) (segs : List Ln) : Prop :=
  ∃ ps, Cuts s sts ps ∧ segs.length = sts.length - 1 ∧
    ∀ (i : Nat) (a b : Pt), ps[i]? = some a → ps[i + 1]? = some b → segs[i]? = some (g.seg (s.map (·.1)) a b)

/-- The sum of a list. -/
def sumOf (l : List Rat) : Rat := l.foldl (· + ·) 0

/-- Two trips can be compared: the old one has a shape, all stops have a measure, anchor points are at most 1000 m apart on average, and the
old shape is at least 5 m long between the first and the last stop. -/
def Comparable (g : Geo S) (x : Cmp S) : Prop :=
  ∃ oldS segs, x.1.shape = some oldS ∧ Segs g oldS x.1.sts segs ∧ 5 ≤ sumOf (segs.map g.len) ∧
    (∀ st ∈ x.1.sts, 0 ≤ st.2) ∧ (∀ st ∈ x.2.1.sts, 0 ≤ st.2) ∧
    g.len (oldS.map (·.1)) ≤ 1000 * (oldS.length : Rat) ∧ g.len (x.2.2.map (·.1)) ≤ 1000 * (x.2.2.length : Rat)

/-- The measures of both shapes do not decrease. -/
def SortedCmp (x : Cmp S) : Prop := (∀ s, x.1.shape = some s → Sorted s) ∧ Sorted x.2.2

/-- The line of the report for two trips, by the plain distances. -/
def RowOf (g : Geo S) (x : Cmp S) (r : Row) : Prop :=
  ∃ oldS oldSegs newSegs p, x.1.shape = some oldS ∧ Segs g oldS x.1.sts oldSegs ∧ Segs g x.2.2 x.2.1.sts newSegs ∧
    oldSegs.flatten.head? = some p ∧ r.trip = x.1.id ∧
    r.an = (((oldSegs.zip newSegs).countP fun ab =>
      ab.1.head?.any fun q => decide (100 ≤ g.fd (g.simplify q ab.1) (g.simplify q ab.2)) : Nat) : Rat) / (oldSegs.length : Rat) ∧
    r.avgFd = g.accFd (g.simplify p oldSegs.flatten) (g.simplify p newSegs.flatten) / sumOf (oldSegs.map g.len)

/-! ## Lemmas -/

theorem sumOf_snoc (l : List Rat) (x : Rat) : sumOf (l ++ [x]) = sumOf l + x := by simp [sumOf, List.foldl_append]

theorem total_eq (g : Geo S) (segs : List Ln) : total g segs = sumOf (segs.map g.len) := by
  simp only [total, sumOf, List.foldl_map]

theorem resLt_irrefl (a : Rat × Nat) : resLt a a = false := by
  simp [resLt, Rat.lt_irrefl]

theorem resLt_total (a b : Rat × Nat) (h1 : resLt a b = false) (h2 : resLt b a = false) : a = b := by
  simp only [resLt, Bool.or_eq_false_iff, decide_eq_false_iff_not, Bool.and_eq_false_iff] at h1 h2
  have e : a.1 = b.1 := by grind
  have e2 : a.2 = b.2 := by
    rcases h1.2 with h | h
    · exact absurd e h
    · rcases h2.2 with h' | h'
      · exact absurd e.symm h'
      · omega
  exact Prod.ext e e2

theorem resLt_trans (a b c : Rat × Nat) (h1 : resLt a b = true) (h2 : resLt b c = true) : resLt a c = true := by
  simp only [resLt, Bool.or_eq_true, decide_eq_true_eq, Bool.and_eq_true] at *
  grind

theorem insertRes_mem (r : Rat × Nat) : ∀ (l : List (Rat × Nat)) x, x ∈ insertRes r l ↔ x = r ∨ x ∈ l := by
  intro l
  induction l with
  | nil => simp [insertRes]
  | cons y ys ih =>
    intro x
    rw [insertRes]
    split
    · simp
    · split
      · simp only [List.mem_cons, ih]
        constructor
        · rintro (h | h | h) <;> simp [h]
        · rintro (h | h | h) <;> simp [h]
      · rename_i h1 h2
        have := resLt_total r y (by simpa using h1) (by simpa using h2)
        subst this
        simp

theorem insertRes_perm (r : Rat × Nat) : ∀ (l : List (Rat × Nat)), r ∉ l → (insertRes r l).Perm (r :: l) := by
  intro l
  induction l with
  | nil => intro _; exact .refl _
  | cons y ys ih =>
    intro h
    simp only [List.mem_cons, not_or] at h
    rw [insertRes]
    split
    · exact .refl _
    · split
      · exact ((ih h.2).cons y).trans (.swap r y ys)
      · rename_i h1 h2
        exact absurd (resLt_total r y (by simpa using h1) (by simpa using h2)) h.1

theorem insertRes_sorted (r : Rat × Nat) : ∀ (l : List (Rat × Nat)), l.Pairwise (fun a b => resLt a b = true) →
    (insertRes r l).Pairwise (fun a b => resLt a b = true) := by
  intro l
  induction l with
  | nil => intro _; simp [insertRes]
  | cons y ys ih =>
    intro h
    obtain ⟨h1, h2⟩ := List.pairwise_cons.1 h
    rw [insertRes]
    split
    · rename_i hr
      refine List.pairwise_cons.2 ⟨fun x hx => ?_, h⟩
      rcases List.mem_cons.1 hx with rfl | hx
      · exact hr
      · exact resLt_trans _ _ _ hr (h1 x hx)
    · split
      · rename_i _ hr
        refine List.pairwise_cons.2 ⟨fun x hx => ?_, ih h2⟩
        rcases (insertRes_mem r ys x).1 hx with rfl | hx
        · exact hr
        · exact h1 x hx
      · exact h

theorem daLoop_some (g : Geo S) (c : Cache) (a b : Ln) (as bs : List Ln) (acc : Nat × Rat) (p : Pt) (h : a.head? = some p) :
    daLoop g c (a :: as) (b :: bs) acc =
      daLoop g (memo c g.fd (g.simplify p a) (g.simplify p b)).2 as bs
        (if (memo c g.fd (g.simplify p a) (g.simplify p b)).1 ≥ 100 then (acc.1 + 1, acc.2 + g.len (g.simplify p a)) else acc) := by
  rw [daLoop]
  simp only [h]

theorem daLoop_inv (g : Geo S) (c : Cache) (a : Ln) (as bs : List Ln) (acc : Nat × Rat) r (h : daLoop g c (a :: as) bs acc = some r) :
    ∃ p b bs', a.head? = some p ∧ bs = b :: bs' := by
  cases a with
  | nil => simp [daLoop] at h
  | cons p a =>
    cases bs with
    | nil => simp [daLoop] at h
    | cons b bs => exact ⟨p, b, bs, rfl, rfl⟩

theorem daLoop_le (g : Geo S) : ∀ (as bs : List Ln) (c : Cache) (acc : Nat × Rat) r, daLoop g c as bs acc = some r →
    acc.1 ≤ r.1.1 ∧ r.1.1 ≤ acc.1 + as.length := by
  intro as
  induction as with
  | nil => intro bs c acc r h; rw [daLoop] at h; cases h; exact ⟨Nat.le_refl _, by simp⟩
  | cons a as ih =>
    intro bs c acc r h
    obtain ⟨p, b, bs', hp, rfl⟩ := daLoop_inv g c a as bs acc r h
    rw [daLoop_some g c a b as bs' acc p hp] at h
    have := ih _ _ _ _ h
    simp only [List.length_cons]
    split at this <;> (try simp only at this) <;> omega

/-- What `add` does, up to the parts that are kept apart. -/
theorem add_cases (g : Geo S) (asserts : Bool) (c c' : Coll) (o n : Trip S) (s : Shp) (h : add g asserts c o n s = some c') :
    ∃ dd hd accC daC, let c1 : Coll := { c with trips := c.trips + 1, distDiffs := dd, hopDists := hd, accC := accC, daC := daC }
      c' = c1.skip ∨ ∃ m segs acc len tot, m ≤ segs ∧ 0 < segs ∧ 5 ≤ tot ∧ c' = c1.record o.id m segs acc len tot := by
  unfold add at h
  simp only at h
  split at h
  · cases h; exact ⟨_, _, _, _, .inl rfl⟩
  · split at h
    · cases h; exact ⟨_, _, _, _, .inl rfl⟩
    split at h
    · cases h; exact ⟨_, _, _, _, .inl rfl⟩
    split at h
    · cases h; exact ⟨_, _, _, _, .inl rfl⟩
    split at h
    · cases h; exact ⟨_, _, _, _, .inl rfl⟩
    split at h
    · rename_i oldSegs _ newSegs lens _ _
      unfold compareSegs at h
      split at h
      · cases h
      · rename_i p hp
        simp only at h
        split at h
        · cases h
        · rename_i d daC hd
          have hle : d.1 ≤ oldSegs.length := by
            unfold getDa at hd
            split at hd
            · cases hd
            · have := (daLoop_le g _ _ _ _ _ hd).2; simpa using this
          have hpos : 0 < oldSegs.length := by
            cases oldSegs with
            | nil => simp at hp
            | cons => simp
          split at h
          · cases h; exact ⟨_, _, _, _, .inl rfl⟩
          · rename_i ht
            cases h
            exact ⟨_, _, _, _, .inr ⟨_, _, _, _, _, hle, hpos, Rat.not_lt.1 ht, rfl⟩⟩
    · cases h

/-- The key of a line of the report in the set of results. -/
def keyOf (r : Row) : Rat × Nat := (r.avgFd, r.trip)

/-- What always holds. -/
structure Inv (c : Coll) : Prop where
  sum : c.trips = c.noOrig + c.rows.length
  sorted : c.results.Pairwise fun a b => resLt a b = true
  mem : ∀ x, x ∈ c.results ↔ x ∈ c.rows.map keyOf
  perm : (c.rows.map (·.trip)).Nodup → c.results.Perm (c.rows.map keyOf)
  acc : c.accFdSum = sumOf (c.rows.map (·.avgFd))
  range : ∀ r ∈ c.rows, 0 ≤ r.an ∧ r.an ≤ 1
  an0 : c.an0 = c.rows.countP fun r => decide (r.an ≤ 1 / 10000)
  an5 : c.an5 = c.rows.countP fun r => decide (r.an ≤ 5 / 100)
  an10 : c.an10 = c.rows.countP fun r => decide (r.an ≤ 1 / 10)
  an20 : c.an20 = c.rows.countP fun r => decide (r.an ≤ 2 / 10)
  an30 : c.an30 = c.rows.countP fun r => decide (r.an ≤ 3 / 10)
  an50 : c.an50 = c.rows.countP fun r => decide (r.an ≤ 5 / 10)
  an70 : c.an70 = c.rows.countP fun r => decide (r.an ≤ 7 / 10)
  an90 : c.an90 = c.rows.countP fun r => decide (r.an ≤ 9 / 10)

theorem inv_empty : Inv {} :=
  ⟨rfl, .nil, by simp, fun _ => .nil, rfl, by simp, rfl, rfl, rfl, rfl, rfl, rfl, rfl, rfl⟩

theorem countP_snoc (l : List Row) (r : Row) (q : Rat) (n : Nat) (h : n = l.countP fun r => decide (r.an ≤ q)) :
    (if r.an ≤ q then n + 1 else n) = (l ++ [r]).countP fun r => decide (r.an ≤ q) := by
  rw [List.countP_append, ← h]
  by_cases hr : r.an ≤ q <;> simp [hr]

theorem inv_record (c : Coll) (h : Inv c) (trip m segs : Nat) (acc len tot : Rat) (hm : m ≤ segs) (hs : 0 < segs) :
    Inv { c.record trip m segs acc len tot with trips := c.trips + 1 } := by
  have hq : (0 : Rat) < (segs : Rat) := by exact_mod_cast hs
  have hmq : (m : Rat) ≤ (segs : Rat) := by exact_mod_cast hm
  have hm0 : (0 : Rat) ≤ (m : Rat) := by exact_mod_cast Nat.zero_le m
  refine ⟨?_, insertRes_sorted _ _ h.sorted, ?_, ?_, ?_, ?_, ?_, ?_, ?_, ?_, ?_, ?_, ?_, ?_⟩
  · simp only [Coll.record, List.length_append, List.length_cons, List.length_nil]; have := h.sum; omega
  · intro x
    simp only [Coll.record, insertRes_mem, h.mem, List.map_append, List.mem_append, List.map_cons, List.map_nil, List.mem_singleton, keyOf]
    exact Or.comm
  · intro hn
    simp only [Coll.record, List.map_append, List.map_cons, List.map_nil] at hn ⊢
    have h1 := List.nodup_append.1 hn
    have hp := h.perm h1.1
    refine (insertRes_perm _ _ ?_).trans ?_
    · intro hmem
      obtain ⟨r, hr, e⟩ := List.mem_map.1 ((h.mem _).1 hmem)
      exact h1.2.2 _ (List.mem_map_of_mem hr) _ (List.mem_singleton.2 rfl) (congrArg Prod.snd e)
    · exact (hp.cons _).trans (List.perm_append_singleton _ _).symm
  · simp only [Coll.record, List.map_append, List.map_cons, List.map_nil, sumOf_snoc, h.acc]
  · intro r hr
    simp only [Coll.record, List.mem_append, List.mem_singleton] at hr
    rcases hr with hr | rfl
    · exact h.range r hr
    · refine ⟨Rat.not_lt.1 fun hlt => ?_, Rat.not_lt.1 fun hlt => ?_⟩
      · have := (Rat.div_lt_iff hq).1 hlt; grind
      · have := (Rat.lt_div_iff hq).1 hlt; grind
  · exact countP_snoc c.rows ⟨trip, (m : Rat) / (segs : Rat), len / tot, acc / tot⟩ _ _ h.an0
  · exact countP_snoc c.rows ⟨trip, (m : Rat) / (segs : Rat), len / tot, acc / tot⟩ _ _ h.an5
  · exact countP_snoc c.rows ⟨trip, (m : Rat) / (segs : Rat), len / tot, acc / tot⟩ _ _ h.an10
  · exact countP_snoc c.rows ⟨trip, (m : Rat) / (segs : Rat), len / tot, acc / tot⟩ _ _ h.an20
  · exact countP_snoc c.rows ⟨trip, (m : Rat) / (segs : Rat), len / tot, acc / tot⟩ _ _ h.an30
  · exact countP_snoc c.rows ⟨trip, (m : Rat) / (segs : Rat), len / tot, acc / tot⟩ _ _ h.an50
  · exact countP_snoc c.rows ⟨trip, (m : Rat) / (segs : Rat), len / tot, acc / tot⟩ _ _ h.an70
  · exact countP_snoc c.rows ⟨trip, (m : Rat) / (segs : Rat), len / tot, acc / tot⟩ _ _ h.an90

theorem inv_add (g : Geo S) (asserts : Bool) (c c' : Coll) (o n : Trip S) (s : Shp) (h : add g asserts c o n s = some c') (hi : Inv c) :
    Inv c' ∧ c'.trips = c.trips + 1 ∧ ∃ l : List Row, c'.rows = c.rows ++ l ∧ l.length ≤ 1 ∧ ∀ r ∈ l, r.trip = o.id := by
  obtain ⟨dd, hd, accC, daC, h1⟩ := add_cases g asserts c c' o n s h
  rcases h1 with rfl | ⟨m, segs, acc, len, tot, hm, hs, _, rfl⟩
  · refine ⟨⟨?_, hi.sorted, hi.mem, hi.perm, hi.acc, hi.range, hi.an0, hi.an5, hi.an10, hi.an20, hi.an30, hi.an50, hi.an70, hi.an90⟩, rfl,
      [], by simp [Coll.skip], by simp, by simp⟩
    have := hi.sum
    simp only [Coll.skip]; omega
  · have := inv_record c hi o.id m segs acc len tot hm hs
    exact ⟨⟨this.sum, this.sorted, this.mem, this.perm, this.acc, this.range, this.an0, this.an5, this.an10, this.an20, this.an30, this.an50,
      this.an70, this.an90⟩, rfl, _, rfl, by simp, by simp⟩

theorem inv_run (g : Geo S) (asserts : Bool) : ∀ (xs : List (Cmp S)) (c c' : Coll), run g asserts c xs = some c' → Inv c →
    Inv c' ∧ c'.trips = c.trips + xs.length ∧
    ∃ l : List Row, c'.rows = c.rows ++ l ∧ (l.map (·.trip)).Sublist (xs.map fun x => x.1.id) := by
  intro xs
  induction xs with
  | nil => intro c c' h hi; rw [run] at h; cases h; exact ⟨hi, rfl, [], by simp, by simp⟩
  | cons x xs ih =>
    intro c c' h hi
    obtain ⟨o, n, s⟩ := x
    rw [run] at h
    split at h
    · cases h
    · rename_i c1 h1
      obtain ⟨a1, a2, l1, a3, a4, a5⟩ := inv_add g asserts c c1 o n s h1 hi
      obtain ⟨b1, b2, l2, b3, b4⟩ := ih c1 c' h a1
      refine ⟨b1, by simp only [List.length_cons]; omega, l1 ++ l2, by rw [b3, a3, List.append_assoc], ?_⟩
      match l1, a4, a5 with
      | [], _, _ => exact b4.cons _
      | [r], _, a5 =>
        have := a5 r (by simp)
        simp only [List.cons_append, List.nil_append, List.map_cons, this]
        exact b4.cons_cons _

theorem countP_mono (l : List Row) (p q : Rat) (h : p ≤ q) :
    (l.countP fun r => decide (r.an ≤ p)) ≤ l.countP fun r => decide (r.an ≤ q) := by
  refine List.countP_mono_left fun r _ hr => ?_
  simp only [decide_eq_true_eq] at hr ⊢
  grind

/-! ## Property C44 -/

/-- **C44 (counts).** If no trip is compared twice, the number of processed trips is the number of trips that could not be compared plus the
number of results, and the accuracy counters increase with their threshold and do not exceed the number of results. -/
theorem C44_counts (g : Geo S) (asserts : Bool) (xs : List (Cmp S)) (hn : (xs.map fun x => x.1.id).Nodup) (c : Coll)
    (h : run g asserts {} xs = some c) :
    c.trips = xs.length ∧ c.trips = c.noOrig + c.results.length ∧
    c.an0 ≤ c.an5 ∧ c.an5 ≤ c.an10 ∧ c.an10 ≤ c.an20 ∧ c.an20 ≤ c.an30 ∧ c.an30 ≤ c.an50 ∧ c.an50 ≤ c.an70 ∧ c.an70 ≤ c.an90 ∧
    c.an90 ≤ c.results.length := by
  obtain ⟨hi, h1, l, h2, h3⟩ := inv_run g asserts xs {} c h inv_empty
  have hnd : (c.rows.map (·.trip)).Nodup := by rw [h2]; simpa using hn.sublist h3
  have hlen : c.results.length = c.rows.length := by simpa using (hi.perm hnd).length_eq
  refine ⟨by simpa using h1, by rw [hlen]; exact hi.sum, ?_, ?_, ?_, ?_, ?_, ?_, ?_, ?_⟩
  · rw [hi.an0, hi.an5]; exact countP_mono _ _ _ (by decide +kernel)
  · rw [hi.an5, hi.an10]; exact countP_mono _ _ _ (by decide +kernel)
  · rw [hi.an10, hi.an20]; exact countP_mono _ _ _ (by decide +kernel)
  · rw [hi.an20, hi.an30]; exact countP_mono _ _ _ (by decide +kernel)
  · rw [hi.an30, hi.an50]; exact countP_mono _ _ _ (by decide +kernel)
  · rw [hi.an50, hi.an70]; exact countP_mono _ _ _ (by decide +kernel)
  · rw [hi.an70, hi.an90]; exact countP_mono _ _ _ (by decide +kernel)
  · rw [hlen, hi.an90]; exact List.countP_le_length

/-- **C44 (report).** The counters count the lines of the report with at most that share of unmatched segments, a share lies between 0 and 1, and
the results are the average distances of the report. -/
theorem C44_report (g : Geo S) (asserts : Bool) (xs : List (Cmp S)) (hn : (xs.map fun x => x.1.id).Nodup) (c : Coll)
    (h : run g asserts {} xs = some c) :
    c.an0 = (c.rows.countP fun r => decide (r.an ≤ 1 / 10000)) ∧ c.an5 = (c.rows.countP fun r => decide (r.an ≤ 5 / 100)) ∧
    c.an10 = (c.rows.countP fun r => decide (r.an ≤ 10 / 100)) ∧ c.an20 = (c.rows.countP fun r => decide (r.an ≤ 20 / 100)) ∧
    c.an30 = (c.rows.countP fun r => decide (r.an ≤ 30 / 100)) ∧ c.an50 = (c.rows.countP fun r => decide (r.an ≤ 50 / 100)) ∧
    c.an70 = (c.rows.countP fun r => decide (r.an ≤ 70 / 100)) ∧ c.an90 = (c.rows.countP fun r => decide (r.an ≤ 90 / 100)) ∧
    (∀ r ∈ c.rows, 0 ≤ r.an ∧ r.an ≤ 1) ∧ c.results.Perm (c.rows.map fun r => (r.avgFd, r.trip)) := by
  obtain ⟨hi, h1, l, h2, h3⟩ := inv_run g asserts xs {} c h inv_empty
  have hnd : (c.rows.map (·.trip)).Nodup := by rw [h2]; simpa using hn.sublist h3
  have e1 : (10 / 100 : Rat) = 1 / 10 := by decide +kernel
  have e2 : (20 / 100 : Rat) = 2 / 10 := by decide +kernel
  have e3 : (30 / 100 : Rat) = 3 / 10 := by decide +kernel
  have e5 : (50 / 100 : Rat) = 5 / 10 := by decide +kernel
  have e7 : (70 / 100 : Rat) = 7 / 10 := by decide +kernel
  have e9 : (90 / 100 : Rat) = 9 / 10 := by decide +kernel
  rw [e1, e2, e3, e5, e7, e9]
  exact ⟨hi.an0, hi.an5, hi.an10, hi.an20, hi.an30, hi.an50, hi.an70, hi.an90, hi.range, hi.perm hnd⟩

/-- **C44 (statistics).** The average is that of the report, the maximum is attained and not exceeded, and shares lie between 0 and 100. -/
theorem C44_stats (g : Geo S) (asserts : Bool) (xs : List (Cmp S)) (hn : (xs.map fun x => x.1.id).Nodup) (c : Coll)
    (h : run g asserts {} xs = some c) (hr : c.rows ≠ []) :
    c.avgDist = some (sumOf (c.rows.map (·.avgFd)) / (c.rows.length : Rat)) ∧
    (∃ r ∈ c.rows, c.maxDist = r.avgFd) ∧ (∀ r ∈ c.rows, r.avgFd ≤ c.maxDist) ∧
    (∀ n ∈ [c.an0, c.an5, c.an10, c.an20, c.an30, c.an50, c.an70, c.an90], ∃ q, c.percent n = some q ∧ 0 ≤ q ∧ q ≤ 100) := by
  obtain ⟨hi, h1, l, h2, h3⟩ := inv_run g asserts xs {} c h inv_empty
  have hnd : (c.rows.map (·.trip)).Nodup := by rw [h2]; simpa using hn.sublist h3
  have hlen : c.results.length = c.rows.length := by simpa using (hi.perm hnd).length_eq
  have hpos : 0 < c.results.length := by rw [hlen]; exact List.length_pos_iff.2 hr
  have hne : c.results ≠ [] := List.length_pos_iff.1 hpos
  have hmax : c.maxDist = (c.results.getLast hne).1 := by
    unfold Coll.maxDist; rw [List.getLast?_eq_some_getLast hne]
  refine ⟨?_, ?_, ?_, ?_⟩
  · unfold Coll.avgDist; rw [if_neg (by omega), hi.acc, hlen]
  · obtain ⟨r, h4, h5⟩ := List.mem_map.1 ((hi.mem _).1 (List.getLast_mem hne))
    exact ⟨r, h4, by rw [hmax, ← h5]; rfl⟩
  · intro r hr
    have hm : keyOf r ∈ c.results := (hi.mem _).2 (List.mem_map_of_mem hr)
    rw [hmax]
    have hs := hi.sorted
    rw [← List.dropLast_concat_getLast hne] at hm hs
    rcases List.mem_append.1 hm with hm | hm
    · have := (List.pairwise_append.1 hs).2.2 _ hm _ (List.mem_singleton.2 rfl)
      simp only [resLt, Bool.or_eq_true, decide_eq_true_eq, Bool.and_eq_true] at this
      change (keyOf r).1 ≤ _
      grind
    · rw [← List.mem_singleton.1 hm]; exact Rat.le_refl
  · intro n hn'
    have hle : n ≤ c.results.length := by
      obtain ⟨_, _, a, b, c1, d, e, f, g1, i⟩ := C44_counts g asserts xs hn c h
      simp only [List.mem_cons, List.not_mem_nil, or_false] at hn'
      omega
    refine ⟨_, by unfold Coll.percent; rw [if_neg (by omega)], ?_, ?_⟩
    all_goals
      have hq : (0 : Rat) < (c.results.length : Rat) := by exact_mod_cast hpos
      have hmq : (n : Rat) ≤ (c.results.length : Rat) := by exact_mod_cast hle
      have hm0 : (0 : Rat) ≤ (n : Rat) := by exact_mod_cast Nat.zero_le n
    · have : ¬ ((n : Rat) / (c.results.length : Rat) < 0) := fun hlt => by have := (Rat.div_lt_iff hq).1 hlt; grind
      grind
    · have : ¬ (1 < (n : Rat) / (c.results.length : Rat)) := fun hlt => by have := (Rat.lt_div_iff hq).1 hlt; grind
      grind

end Verif.Eval
