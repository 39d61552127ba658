import Verif.Eval.Props
set_option linter.unusedSimpArgs false
/-!
# Which trips are compared (C44), and that a result does not depend on the trips before (C64)
-/
namespace Verif.Eval

variable {S : Type}

/-! ## Specification -/

/-- Two lines differ visibly: in the number of points, or in a point by more than .00001. -/
def Apart (a b : Ln) : Prop :=
  a.length ≠ b.length ∨ ∃ (i : Nat) (p q : Pt), a[i]? = some p ∧ b[i]? = some q ∧
    (1 / 100000) * (1 / 100000) < (p.1 - q.1) * (p.1 - q.1) + (p.2 - q.2) * (p.2 - q.2)

/-- Simplified lines that are not equal differ visibly. -/
def Separated (g : Geo S) : Prop :=
  ∀ p q l m, g.simplify p l = g.simplify q m ∨ Apart (g.simplify p l) (g.simplify q m)

/-- The lines of the report if two trips are compared alone. -/
def alone (g : Geo S) (asserts : Bool) (x : Cmp S) : List Row :=
  match run g asserts {} [x] with
  | some c => c.rows
  | none => []

/-! ## Lemmas: segments -/

theorem segs_of_segmentize (g : Geo S) (s : Shp) (sts : List (ST S)) (segs : List Ln) (lens : List (Rat × Rat))
    (h : segmentize g sts (s.map (·.1)) (s.map (·.2)) = some (segs, lens)) (hne : segs ≠ []) : Segs g s sts segs ∧ s ≠ [] := by
  have h2 : 2 ≤ sts.length := by
    match sts with
    | [] => simp [segmentize] at h; exact absurd h.1 hne
    | [_] => simp [segmentize] at h; exact absurd h.1 hne
    | _ :: _ :: _ => simp
  have hs : s ≠ [] := by
    rintro rfl
    match sts, h2 with
    | a :: b :: rest, _ => simp [segmentize, pointAt, upperBound, ubLoop] at h
  obtain ⟨segs', lens', ps, h3, h4, h5, _, h6, _⟩ := C63_cut g s hs sts h2
  rw [h3] at h; cases h
  exact ⟨⟨ps, h4, h5, h6⟩, hs⟩

theorem Segs.unique (g : Geo S) (s : Shp) (hs : Sorted s) (sts : List (ST S)) (a b : List Ln) (ha : Segs g s sts a) (hb : Segs g s sts b) :
    a = b := by
  obtain ⟨ps, h1, h2, h3⟩ := ha
  obtain ⟨qs, k1, k2, k3⟩ := hb
  have hlp := h1.len
  have hlq := k1.len
  have hpq : ps = qs := by
    apply List.ext_getElem?
    intro i
    by_cases hi : i < sts.length
    · have e1 : ps[i]? = some (ps[i]'(by omega)) := List.getElem?_eq_getElem (by rw [h1.len]; exact hi)
      have e2 : qs[i]? = some (qs[i]'(by omega)) := List.getElem?_eq_getElem (by rw [k1.len]; exact hi)
      have e3 := List.getElem?_eq_getElem hi
      rw [e1, e2, C63_unique s hs _ _ _ (h1.at_ i _ _ e3 e1) (k1.at_ i _ _ e3 e2)]
    · rw [List.getElem?_eq_none (by rw [h1.len]; omega), List.getElem?_eq_none (by rw [k1.len]; omega)]
  subst hpq
  apply List.ext_getElem?
  intro i
  by_cases hi : i < sts.length - 1
  · have e1 : ps[i]? = some (ps[i]'(by omega)) := List.getElem?_eq_getElem (by rw [h1.len]; omega)
    have e2 : ps[i + 1]? = some (ps[i + 1]'(by omega)) := List.getElem?_eq_getElem (by rw [h1.len]; omega)
    rw [h3 i _ _ e1 e2, k3 i _ _ e1 e2]
  · rw [List.getElem?_eq_none (by omega), List.getElem?_eq_none (by omega)]

theorem sparse_iff (g : Geo S) (s : Shp) (hs : s ≠ []) : sparse g (s.map (·.1)) = false ↔ g.len (s.map (·.1)) ≤ 1000 * (s.length : Rat) := by
  have hq : (0 : Rat) < (s.length : Rat) := by exact_mod_cast List.length_pos_iff.2 hs
  simp only [sparse, List.length_map, decide_eq_false_iff_not]
  rw [Rat.lt_div_iff hq, Rat.not_lt]

theorem noDist_iff (t : Trip S) : noDist t = false ↔ ∀ st ∈ t.sts, 0 ≤ st.2 := by
  simp only [noDist, List.any_eq_false, decide_eq_true_eq, Rat.not_lt]

theorem getDa_new (g : Geo S) (asserts : Bool) (c : Cache) (a b : List Ln) (r) (h : getDa g asserts c a b = some r) (ha : a ≠ []) : b ≠ [] := by
  unfold getDa at h
  split at h
  · cases h
  · cases a with
    | nil => exact absurd rfl ha
    | cons a as =>
      obtain ⟨_, b, bs, _, rfl⟩ := daLoop_inv g c a as b _ r h
      simp

/-- A line of the report is written exactly for comparable trips. -/
theorem add_rows (g : Geo S) (asserts : Bool) (c c' : Coll) (x : Cmp S) (hx : SortedCmp x)
    (h : add g asserts c x.1 x.2.1 x.2.2 = some c') :
    (Comparable g x ∧ ∃ r, c'.rows = c.rows ++ [r] ∧ r.trip = x.1.id) ∨ (¬ Comparable g x ∧ c'.rows = c.rows) := by
  unfold add at h
  simp only at h
  split at h
  · rename_i ho
    cases h
    refine .inr ⟨?_, rfl⟩
    rintro ⟨oldS, _, h1, _⟩
    rw [ho] at h1; cases h1
  · rename_i oldS ho
    split at h
    · rename_i hd
      cases h
      refine .inr ⟨?_, rfl⟩
      rintro ⟨_, _, _, _, _, h5, _⟩
      rw [(noDist_iff _).2 h5] at hd; cases hd
    split at h
    · rename_i hd
      cases h
      refine .inr ⟨?_, rfl⟩
      rintro ⟨_, _, _, _, _, _, h5, _⟩
      rw [(noDist_iff _).2 h5] at hd; cases hd
    rename_i hd1 hd2
    split at h
    · rename_i hd
      cases h
      refine .inr ⟨?_, rfl⟩
      rintro ⟨oldS', segs, h1, h2, h3, _, _, h5, _⟩
      rw [ho] at h1; cases h1
      have hne : oldS ≠ [] := by
        rintro rfl
        simp [sparse] at hd
        grind
      rw [(sparse_iff _ _ hne).2 h5] at hd; cases hd
    split at h
    · rename_i hd
      cases h
      refine .inr ⟨?_, rfl⟩
      rintro ⟨oldS', segs, h1, h2, h3, _, _, _, h5⟩
      have hne : x.2.2 ≠ [] := by
        intro he
        rw [he] at hd
        simp [sparse] at hd
        grind
      rw [(sparse_iff _ _ hne).2 h5] at hd; cases hd
    rename_i hd3 hd4
    split at h
    · rename_i oldSegs l1 newSegs lens hs1 hs2
      unfold compareSegs at h
      split at h
      · cases h
      · rename_i p hp
        simp only at h
        split at h
        · cases h
        · rename_i d daC hd
          have hon : oldSegs ≠ [] := by rintro rfl; simp at hp
          have hnn := getDa_new g asserts _ _ _ _ hd hon
          obtain ⟨s1, s2⟩ := segs_of_segmentize g oldS _ _ _ hs1 hon
          obtain ⟨s3, s4⟩ := segs_of_segmentize g _ _ _ _ hs2 hnn
          split at h
          · rename_i ht
            cases h
            refine .inr ⟨?_, rfl⟩
            rintro ⟨oldS', segs, h1, h2, h3, _⟩
            rw [ho] at h1; cases h1
            rw [Segs.unique g oldS (hx.1 _ ho) _ _ _ h2 s1, ← total_eq] at h3
            grind
          · rename_i ht
            cases h
            refine .inl ⟨⟨oldS, oldSegs, ho, s1, ?_, (noDist_iff _).1 (by simpa using hd1), (noDist_iff _).1 (by simpa using hd2),
              (sparse_iff _ _ s2).1 (by simpa using hd3), (sparse_iff _ _ s4).1 (by simpa using hd4)⟩, _, rfl, rfl⟩
            rw [← total_eq]; exact Rat.not_lt.1 ht
    · cases h

/-- **C44 (which trips).** A line is written for a trip exactly if it can be compared; all others are counted as trips without original shape. -/
theorem C44_recorded (g : Geo S) (asserts : Bool) (xs : List (Cmp S)) (hn : (xs.map fun x => x.1.id).Nodup) (hs : ∀ x ∈ xs, SortedCmp x)
    (c : Coll) (h : run g asserts {} xs = some c) :
    ∀ x ∈ xs, (∃ r ∈ c.rows, r.trip = x.1.id) ↔ Comparable g x := by
  have key : ∀ (xs : List (Cmp S)) (c c' : Coll), (xs.map fun x => x.1.id).Nodup → (∀ x ∈ xs, SortedCmp x) →
      run g asserts c xs = some c' → ∃ l : List Row, c'.rows = c.rows ++ l ∧ (∀ r ∈ l, ∃ x ∈ xs, r.trip = x.1.id) ∧
        ∀ x ∈ xs, (∃ r ∈ l, r.trip = x.1.id) ↔ Comparable g x := by
    intro xs
    induction xs with
    | nil => intro c c' _ _ h; rw [run] at h; cases h; exact ⟨[], by simp, by simp, by simp⟩
    | cons x xs ih =>
      intro c c' hn hs h
      obtain ⟨o, n, s⟩ := x
      rw [run] at h
      split at h
      · cases h
      · rename_i c1 h1
        simp only [List.map_cons, List.nodup_cons] at hn
        obtain ⟨l, a1, a2, a3⟩ := ih c1 c' hn.2 (fun x hx => hs x (by simp [hx])) h
        have hnot : ¬ ∃ r ∈ l, r.trip = o.id := by
          rintro ⟨r, hr, e⟩
          obtain ⟨y, hy, e2⟩ := a2 r hr
          exact hn.1 (List.mem_map.2 ⟨y, hy, by rw [← e2, e]⟩)
        rcases add_rows g asserts c c1 (o, n, s) (hs _ (by simp)) h1 with ⟨b1, r, b2, b3⟩ | ⟨b1, b2⟩
        · refine ⟨r :: l, by rw [a1, b2]; simp, ?_, ?_⟩
          · intro r' hr'
            rcases List.mem_cons.1 hr' with rfl | hr'
            · exact ⟨_, List.mem_cons_self .., b3⟩
            · obtain ⟨y, hy, e⟩ := a2 r' hr'; exact ⟨y, by simp [hy], e⟩
          · intro y hy
            rcases List.mem_cons.1 hy with rfl | hy
            · exact ⟨fun _ => b1, fun _ => ⟨r, by simp, b3⟩⟩
            · rw [← a3 y hy]
              constructor
              · rintro ⟨r', hr', e⟩
                rcases List.mem_cons.1 hr' with rfl | hr'
                · exact absurd (List.mem_map.2 ⟨y, hy, by rw [← e, b3]⟩) hn.1
                · exact ⟨r', hr', e⟩
              · rintro ⟨r', hr', e⟩; exact ⟨r', by simp [hr'], e⟩
        · refine ⟨l, by rw [a1, b2], ?_, ?_⟩
          · intro r' hr'; obtain ⟨y, hy, e⟩ := a2 r' hr'; exact ⟨y, by simp [hy], e⟩
          · intro y hy
            rcases List.mem_cons.1 hy with rfl | hy
            · exact ⟨fun h => absurd h hnot, fun h => absurd h b1⟩
            · exact a3 y hy
  obtain ⟨l, h1, _, h3⟩ := key xs {} c hn hs h
  simp only [List.nil_append] at h1
  rw [h1]
  exact h3

/-! ## Lemmas: caches -/

theorem ltLoop_far : ∀ (a b : Ln), a.length = b.length → ltLoop a b = false → ltLoop b a = false →
    ∀ (i : Nat) p q, a[i]? = some p → b[i]? = some q → far p q = false := by
  intro a
  induction a with
  | nil => intro b _ _ _ i p q h; simp at h
  | cons p a ih =>
    intro b hl h1 h2
    cases b with
    | nil => simp at hl
    | cons q b =>
      have hsym : far q p = far p q := by unfold far; congr 1; grind
      rw [ltLoop] at h1 h2
      rw [hsym] at h2
      have hf : far p q = false := by
        cases hf : far p q with
        | false => rfl
        | true =>
          rw [hf] at h1 h2
          simp only [if_true, Bool.or_eq_false_iff, decide_eq_false_iff_not, Bool.and_eq_false_iff] at h1 h2
          have e1 : p.1 = q.1 := by grind
          have e2 : p.2 = q.2 := by
            rcases h1.2 with h | h
            · exact absurd e1 h
            · rcases h2.2 with h' | h'
              · exact absurd e1.symm h'
              · grind
          simp [far, e1, e2] at hf
          grind
      rw [hf] at h1 h2
      intro i p' q' hp hq
      cases i with
      | zero => simp at hp hq; subst hp; subst hq; exact hf
      | succ i => exact ih b (by simpa using hl) (by simpa using h1) (by simpa using h2) i p' q' (by simpa using hp) (by simpa using hq)

theorem not_apart_of_same (a b : Ln) (h : same a b = true) : ¬ Apart a b := by
  simp only [same, Bool.and_eq_true, Bool.not_eq_true', lineLt] at h
  have hl : a.length = b.length := by
    by_cases hl : a.length = b.length
    · exact hl
    · rw [if_pos hl, if_pos (Ne.symm hl)] at h
      simp only [decide_eq_false_iff_not] at h
      omega
  rw [if_neg (by simpa using hl), if_neg (by simpa using hl.symm)] at h
  rintro (h1 | ⟨i, p, q, h1, h2, h3⟩)
  · exact h1 hl
  · have := ltLoop_far a b hl h.1 h.2 i p q h1 h2
    simp only [far, decide_eq_false_iff_not] at this
    exact this h3

theorem ltLoop_self : ∀ a : Ln, ltLoop a a = false := by
  intro a
  induction a with
  | nil => rfl
  | cons p a ih => rw [ltLoop]; split <;> simp [Rat.lt_irrefl, ih]

theorem same_self (a : Ln) : same a a = true := by
  simp [same, lineLt, ltLoop_self]

/-- A line that comes from simplification. -/
def Simp (g : Geo S) (l : Ln) : Prop := ∃ p m, l = g.simplify p m

theorem Separated.eq {g : Geo S} (hg : Separated g) {a b : Ln} (ha : Simp g a) (hb : Simp g b) (h : same a b = true) : a = b := by
  obtain ⟨p, l, rfl⟩ := ha
  obtain ⟨q, m, rfl⟩ := hb
  exact (hg p q l m).resolve_right (not_apart_of_same _ _ h)

/-- The cache holds values of `f`. -/
def CInv (g : Geo S) (f : Ln → Ln → Rat) (c : Cache) : Prop :=
  ∀ e ∈ c, Simp g e.1 ∧ ∀ x ∈ e.2, Simp g x.1 ∧ x.2 = f e.1 x.1

theorem cinv_store (g : Geo S) (hg : Separated g) (f : Ln → Ln → Rat) (a b : Ln) (ha : Simp g a) (hb : Simp g b) : ∀ c : Cache, CInv g f c →
    CInv g f (c.store a b (f a b)) := by
  intro c
  induction c with
  | nil =>
    intro _ e he
    rw [Cache.store] at he
    rw [List.mem_singleton.1 he]
    exact ⟨ha, fun x hx => by rw [List.mem_singleton.1 hx]; exact ⟨hb, rfl⟩⟩
  | cons e c ih =>
    intro h
    have he := h e (by simp)
    rw [Cache.store]
    split
    · rename_i hs
      have hae := hg.eq ha he.1 hs
      intro e' he'
      rcases List.mem_cons.1 he' with rfl | he'
      · refine ⟨he.1, fun x hx => ?_⟩
        rcases List.mem_append.1 hx with hx | hx
        · exact he.2 x hx
        · rw [List.mem_singleton.1 hx]; exact ⟨hb, by rw [hae]⟩
      · exact h e' (by simp [he'])
    · intro e' he'
      rcases List.mem_cons.1 he' with rfl | he'
      · exact he
      · exact ih (fun e he => h e (by simp [he])) e' he'

theorem memo_spec (g : Geo S) (hg : Separated g) (f : Ln → Ln → Rat) (a b : Ln) (ha : Simp g a) (hb : Simp g b) (c : Cache) (h : CInv g f c) :
    (memo c f a b).1 = f a b ∧ CInv g f (memo c f a b).2 := by
  unfold memo
  split
  · rename_i v hv
    refine ⟨?_, h⟩
    unfold Cache.look at hv
    split at hv
    · cases hv
    · rename_i e he
      obtain ⟨x, hx, e2⟩ := Option.map_eq_some_iff.1 hv
      have he1 := h e (List.mem_of_find?_eq_some he)
      have hx1 := he1.2 x (List.mem_of_find?_eq_some hx)
      have e3 := hg.eq ha he1.1 (by simpa using List.find?_some he)
      have e4 := hg.eq hb hx1.1 (by simpa using List.find?_some hx)
      rw [← e2, hx1.2, e3, e4]
  · exact ⟨rfl, cinv_store g hg f a b ha hb c h⟩

/-- The unmatched segments, by the plain distances. -/
def daSpec (g : Geo S) : List Ln → List Ln → Nat × Rat → Nat × Rat
  | a :: as, b :: bs, acc =>
    daSpec g as bs (if a.head?.any (fun q => decide (100 ≤ g.fd (g.simplify q a) (g.simplify q b)))
      then (acc.1 + 1, acc.2 + g.len (g.simplify (a.headD (0, 0)) a)) else acc)
  | _, _, acc => acc

theorem daLoop_spec (g : Geo S) (hg : Separated g) : ∀ (as bs : List Ln) (c : Cache) (acc : Nat × Rat) r, CInv g g.fd c →
    daLoop g c as bs acc = some r → r.1 = daSpec g as bs acc ∧ CInv g g.fd r.2 := by
  intro as
  induction as with
  | nil => intro bs c acc r hc h; simp only [daLoop, Option.some.injEq] at h; subst h; exact ⟨by simp [daSpec], hc⟩
  | cons a as ih =>
    intro bs c acc r hc h
    obtain ⟨p, b, bs', hp, rfl⟩ := daLoop_inv g c a as bs acc r h
    rw [daLoop_some g c a b as bs' acc p hp] at h
    obtain ⟨m1, m2⟩ := memo_spec g hg g.fd (g.simplify p a) (g.simplify p b) ⟨_, _, rfl⟩ ⟨_, _, rfl⟩ c hc
    rw [m1] at h
    obtain ⟨h1, h2⟩ := ih _ _ _ _ m2 h
    refine ⟨?_, h2⟩
    rw [h1, daSpec, hp]
    have : a.headD (0, 0) = p := by rw [List.headD_eq_head?_getD, hp]; rfl
    rw [this]
    simp only [Option.any_some, decide_eq_true_eq]

theorem daLoop_defined (g : Geo S) : ∀ (as bs : List Ln) (c c' : Cache) (acc acc' : Nat × Rat) r, daLoop g c as bs acc = some r →
    ∃ r', daLoop g c' as bs acc' = some r' := by
  intro as
  induction as with
  | nil => intro bs c c' acc acc' r _; exact ⟨_, by simp only [daLoop]; rfl⟩
  | cons a as ih =>
    intro bs c c' acc acc' r h
    obtain ⟨p, b, bs', hp, rfl⟩ := daLoop_inv g c a as bs acc r h
    rw [daLoop_some g c a b as bs' acc p hp] at h
    rw [daLoop_some g c' a b as bs' acc' p hp]
    exact ih _ _ _ _ _ _ h

theorem daSpec_count (g : Geo S) : ∀ (as bs : List Ln) (acc : Nat × Rat), (daSpec g as bs acc).1 = acc.1 + (as.zip bs).countP fun ab =>
    ab.1.head?.any fun q => decide (100 ≤ g.fd (g.simplify q ab.1) (g.simplify q ab.2)) := by
  intro as
  induction as with
  | nil => intro bs acc; simp [daSpec]
  | cons a as ih =>
    intro bs acc
    cases bs with
    | nil => simp [daSpec]
    | cons b bs =>
      rw [daSpec, ih, List.zip_cons_cons, List.countP_cons]
      split <;> rename_i hq <;> simp [hq] <;> omega

theorem compareSegs_spec (g : Geo S) (hg : Separated g) (asserts : Bool) (c c' : Coll) (trip : Nat) (os ns : List Ln)
    (h1 : CInv g g.accFd c.accC) (h2 : CInv g g.fd c.daC) (h : compareSegs g asserts c trip os ns = some c') :
    ∃ p, os.flatten.head? = some p ∧ CInv g g.accFd c'.accC ∧ CInv g g.fd c'.daC ∧ (asserts && os.length != ns.length) = false ∧
      (∃ r, daLoop g [] os ns (0, 0) = some r) ∧ ns ≠ [] ∧
      c'.rows = c.rows ++ (if sumOf (os.map g.len) < 5 then [] else
        [⟨trip, ((daSpec g os ns (0, 0)).1 : Rat) / (os.length : Rat), (daSpec g os ns (0, 0)).2 / sumOf (os.map g.len),
          g.accFd (g.simplify p os.flatten) (g.simplify p ns.flatten) / sumOf (os.map g.len)⟩]) := by
  unfold compareSegs at h
  split at h
  · cases h
  · rename_i p hp
    simp only at h
    split at h
    · cases h
    · rename_i d daC hd
      have hon : os ≠ [] := by rintro rfl; simp at hp
      have hnn := getDa_new g asserts _ _ _ _ hd hon
      obtain ⟨m1, m2⟩ := memo_spec g hg g.accFd (g.simplify p os.flatten) (g.simplify p ns.flatten) ⟨_, _, rfl⟩ ⟨_, _, rfl⟩ c.accC h1
      unfold getDa at hd
      split at hd
      · cases hd
      · rename_i ha
        obtain ⟨d1, d2⟩ := daLoop_spec g hg os ns c.daC (0, 0) _ h2 hd
        simp only at d1 d2
        rw [← total_eq]
        refine ⟨p, hp, ?_, ?_, by simpa using ha, daLoop_defined g os ns _ [] _ _ _ hd, hnn, ?_⟩
        · split at h <;> cases h <;> exact m2
        · split at h <;> cases h <;> exact d2
        · split at h
          · rename_i ht
            cases h
            rw [if_pos ht]; simp [Coll.skip]
          · rename_i ht
            cases h
            rw [if_neg ht]
            simp only [Coll.record, m1, d1]

theorem compareSegs_defined (g : Geo S) (asserts : Bool) (c : Coll) (trip : Nat) (os ns : List Ln) (p : Pt) (hp : os.flatten.head? = some p)
    (ha : (asserts && os.length != ns.length) = false) (hd : ∃ r, daLoop g [] os ns (0, 0) = some r) :
    ∃ c', compareSegs g asserts c trip os ns = some c' := by
  obtain ⟨r, hr⟩ := hd
  obtain ⟨r', hr'⟩ := daLoop_defined g os ns [] c.daC (0, 0) (0, 0) r hr
  unfold compareSegs
  rw [hp]
  simp only [getDa, ha, Bool.false_eq_true, if_false, hr']
  split <;> exact ⟨_, rfl⟩

theorem add_indep (g : Geo S) (hg : Separated g) (asserts : Bool) (c c' : Coll) (x : Cmp S)
    (h1 : CInv g g.accFd c.accC) (h2 : CInv g g.fd c.daC) (h : add g asserts c x.1 x.2.1 x.2.2 = some c') :
    ∃ c0, add g asserts {} x.1 x.2.1 x.2.2 = some c0 ∧ c'.rows = c.rows ++ c0.rows ∧ CInv g g.accFd c'.accC ∧ CInv g g.fd c'.daC := by
  unfold add at h ⊢
  simp only at h ⊢
  split at h
  · cases h; exact ⟨_, rfl, by simp [Coll.skip], h1, h2⟩
  · split at h
    · rename_i hd; cases h; rw [if_pos hd]; exact ⟨_, rfl, by simp [Coll.skip], h1, h2⟩
    rename_i hd; rw [if_neg hd]
    split at h
    · rename_i hd; cases h; rw [if_pos hd]; exact ⟨_, rfl, by simp [Coll.skip], h1, h2⟩
    rename_i hd; rw [if_neg hd]
    split at h
    · rename_i hd; cases h; rw [if_pos hd]; exact ⟨_, rfl, by simp [Coll.skip], h1, h2⟩
    rename_i hd; rw [if_neg hd]
    split at h
    · rename_i hd; cases h; rw [if_pos hd]; exact ⟨_, rfl, by simp [Coll.skip], h1, h2⟩
    rename_i hd; rw [if_neg hd]
    split at h
    · rename_i os _ ns lens _ _
      obtain ⟨p, a1, a2, a3, a4, a5, _, a6⟩ := compareSegs_spec g hg asserts _ c' x.1.id os ns (by exact h1) (by exact h2) h
      obtain ⟨c0, h0⟩ := compareSegs_defined g asserts (({ ({} : Coll) with trips := ({} : Coll).trips + 1 } : Coll).lens lens) x.1.id os ns p a1 a4 a5
      obtain ⟨p', b1, _, _, _, _, _, b6⟩ := compareSegs_spec g hg asserts _ c0 x.1.id os ns (by intro e he; cases he) (by intro e he; cases he) h0
      rw [a1] at b1; cases b1
      refine ⟨c0, h0, ?_, a2, a3⟩
      rw [a6, b6]
      simp [Coll.lens]
    · cases h

theorem run_indep (g : Geo S) (hg : Separated g) (asserts : Bool) : ∀ (xs : List (Cmp S)) (c c' : Coll),
    CInv g g.accFd c.accC → CInv g g.fd c.daC → run g asserts c xs = some c' →
    c'.rows = c.rows ++ xs.flatMap (alone g asserts) ∧ ∀ x ∈ xs, (run g asserts {} [x]).isSome := by
  intro xs
  induction xs with
  | nil => intro c c' _ _ h; rw [run] at h; cases h; simp
  | cons x xs ih =>
    intro c c' h1 h2 h
    obtain ⟨o, n, s⟩ := x
    rw [run] at h
    split at h
    · cases h
    · rename_i c1 hc
      obtain ⟨c0, a1, a2, a3, a4⟩ := add_indep g hg asserts c c1 (o, n, s) h1 h2 hc
      obtain ⟨b1, b2⟩ := ih c1 c' a3 a4 h
      have hal : run g asserts {} [(o, n, s)] = some c0 := by rw [run, a1]; rfl
      refine ⟨?_, ?_⟩
      · rw [b1, a2, List.flatMap_cons, List.append_assoc]
        congr 2
        unfold alone
        rw [hal]
      · intro x hx
        rcases List.mem_cons.1 hx with rfl | hx
        · rw [hal]; rfl
        · exact b2 x hx

/-! ## Property C64 -/

/-- **C64 (partial).** As long as simplified lines are equal or differ visibly, the lines of the report are those of the single comparisons, in
order. Missing: lines that differ by less than .00001 (`C64_negation`). -/
theorem C64_independent_partial (g : Geo S) (hg : Separated g) (asserts : Bool) (xs : List (Cmp S)) (c : Coll)
    (h : run g asserts {} xs = some c) :
    c.rows = xs.flatMap (alone g asserts) ∧ ∀ x ∈ xs, (run g asserts {} [x]).isSome := by
  have := run_indep g hg asserts xs {} c (by intro e he; cases he) (by intro e he; cases he) h
  simpa using this

/-- **C64 (order, partial).** ... and so the order of the comparisons does not matter. -/
theorem C64_order_partial (g : Geo S) (hg : Separated g) (asserts : Bool) (xs ys : List (Cmp S)) (hp : xs.Perm ys) (c c' : Coll)
    (h : run g asserts {} xs = some c) (h' : run g asserts {} ys = some c') :
    c.rows.Perm c'.rows := by
  rw [(C64_independent_partial g hg asserts xs c h).1, (C64_independent_partial g hg asserts ys c' h').1]
  exact hp.flatMap_right _

/-- **C64 (values, partial).** A line of the report shows the plain distances of the two shapes, cut at the stops. -/
theorem C64_values_partial (g : Geo S) (hg : Separated g) (asserts : Bool) (xs : List (Cmp S)) (c : Coll)
    (h : run g asserts {} xs = some c) : ∀ r ∈ c.rows, ∃ x ∈ xs, RowOf g x r := by
  intro r hr
  rw [(C64_independent_partial g hg asserts xs c h).1] at hr
  obtain ⟨x, hx, hr⟩ := List.mem_flatMap.1 hr
  refine ⟨x, hx, ?_⟩
  unfold alone at hr
  split at hr
  · rename_i c0 h0
    obtain ⟨o, n, s⟩ := x
    rw [run] at h0
    split at h0
    · cases h0
    · rename_i c1 h1
      rw [run] at h0; cases h0
      unfold add at h1
      simp only at h1
      split at h1
      · cases h1; simp [Coll.skip] at hr
      · rename_i oldS ho
        split at h1
        · cases h1; simp [Coll.skip] at hr
        split at h1
        · cases h1; simp [Coll.skip] at hr
        split at h1
        · cases h1; simp [Coll.skip] at hr
        split at h1
        · cases h1; simp [Coll.skip] at hr
        split at h1
        · rename_i os _ ns lens hs1 hs2
          obtain ⟨p, a1, _, _, _, _, hnn, a6⟩ := compareSegs_spec g hg asserts _ c0 o.id os ns (by intro e he; cases he) (by intro e he; cases he) h1
          have hon : os ≠ [] := by rintro rfl; simp at a1
          obtain ⟨s1, _⟩ := segs_of_segmentize g oldS _ _ _ hs1 hon
          obtain ⟨s3, _⟩ := segs_of_segmentize g _ _ _ _ hs2 hnn
          rw [a6] at hr
          simp only [Coll.lens, List.nil_append] at hr
          split at hr
          · cases hr
          · rw [List.mem_singleton.1 hr]
            refine ⟨oldS, os, ns, p, ho, s1, s3, a1, rfl, ?_, rfl⟩
            simp only
            rw [daSpec_count, Nat.zero_add]
        · cases h1
  · cases hr

end Verif.Eval
