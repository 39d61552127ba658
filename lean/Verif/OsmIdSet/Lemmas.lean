import Verif.OsmIdSet.SortLemmas

/-! Helper lemmas on queries of the OSM id set. -/

namespace Verif.OsmIdSet

/-! ### Binary search -/

theorem readAt_idx (buf : List Nat) (i : Nat) : readAt buf (8 * (i : Int)) = buf[i]? := by
  unfold readAt
  rw [if_neg (by omega)]
  congr 1
  omega

theorem bsearch_spec (buf : List Nat) (id : Nat) (hasc : Asc buf) (fuel : Nat) :
    ∀ (li ri : Nat), li ≤ ri → ri ≤ buf.length → ri - li < fuel →
    (∀ i x, i < li → buf[i]? = some x → x < id) →
    (∀ i x, ri ≤ i → buf[i]? = some x → id < x) →
    bsearch buf id fuel (8 * (li : Int)) (8 * (ri : Int) - 8) = some (decide (id ∈ buf)) := by
  induction fuel with
  | zero => intro li ri _ _ hf; omega
  | succ f ih =>
    intro li ri hlr hrl hf hlo hhi
    unfold bsearch
    by_cases hc : li < ri
    · rw [if_pos (by omega)]
      obtain ⟨mid, hmid, hml, hmr⟩ : ∃ mid : Nat,
          8 * (li : Int) + ((8 * (ri : Int) - 8 - 8 * (li : Int)) / 16) * 8 = 8 * (mid : Int) ∧
          li ≤ mid ∧ mid < ri := by
        refine ⟨li + (ri - 1 - li) / 2, ?_, by omega, by omega⟩
        omega
      simp only [hmid, readAt_idx]
      have hmlen : mid < buf.length := by omega
      rw [List.getElem?_eq_getElem hmlen]
      simp only
      have hpw := List.pairwise_iff_getElem.mp hasc
      by_cases he : buf[mid] = id
      · rw [if_pos he]
        have : id ∈ buf := by rw [← he]; exact List.getElem_mem _
        simp [this]
      · rw [if_neg he]
        by_cases hlt : buf[mid] < id
        · rw [if_pos hlt]
          have := ih (mid + 1) ri (by omega) hrl (by omega) ?_ hhi
          · rw [← this]; congr 1
          · intro i x hi hx
            obtain ⟨hil, rfl⟩ := List.getElem?_eq_some_iff.mp hx
            by_cases him : i = mid
            · subst him; exact hlt
            · have := hpw i mid hil hmlen (by omega); omega
        · rw [if_neg hlt]
          have := ih li mid hml (by omega) (by omega) hlo ?_
          · rw [← this]
          · intro i x hi hx
            obtain ⟨hil, rfl⟩ := List.getElem?_eq_some_iff.mp hx
            by_cases him : i = mid
            · subst him; omega
            · have := hpw mid i hmlen hil (by omega); omega
    · rw [if_neg (by omega)]
      have hnot : id ∉ buf := by
        intro hm
        obtain ⟨i, hi, e⟩ := List.mem_iff_getElem.mp hm
        by_cases hil : i < li
        · have := hlo i _ hil (List.getElem?_eq_getElem hi); omega
        · have := hhi i _ (by omega) (List.getElem?_eq_getElem hi); omega
      simp [hnot]

/-! ### Lower and upper bound on ascending lists -/

theorem takeWhile_length_spec {l : List Nat} {p : Nat → Bool} :
    (∀ i x, i < (l.takeWhile p).length → l[i]? = some x → p x = true) ∧
    (∀ x, l[(l.takeWhile p).length]? = some x → p x = false) ∧
    (l.takeWhile p).length ≤ l.length := by
  induction l with
  | nil => simp
  | cons a l ih =>
    obtain ⟨h1, h2, h3⟩ := ih
    by_cases hp : p a
    · simp only [List.takeWhile_cons, hp, if_true, List.length_cons]
      refine ⟨?_, ?_, by omega⟩
      · intro i x hi hx
        cases i with
        | zero => simp at hx; rw [← hx]; exact hp
        | succ i => exact h1 i x (by omega) (by simpa using hx)
      · intro x hx; exact h2 x (by simpa using hx)
    · simp only [List.takeWhile_cons, hp]
      refine ⟨by simp, ?_, by simp⟩
      intro x hx
      simp at hx; rw [← hx]; simpa using hp

theorem lowerBound_hit {l : List Nat} (h : Asc l) (id : Nat) :
    l[lowerBound l id]? = some id ↔ id ∈ l := by
  constructor
  · exact fun e => List.mem_of_getElem? e
  · intro hm
    obtain ⟨h1, h2, h3⟩ := takeWhile_length_spec (l := l) (p := fun x => decide (x < id))
    obtain ⟨i, hi, e⟩ := List.mem_iff_getElem.mp hm
    unfold lowerBound
    generalize hk : (l.takeWhile (fun x => decide (x < id))).length = k at *
    have hik : k ≤ i := by
      by_cases hh : i < k
      · have := h1 i _ hh (List.getElem?_eq_getElem hi); simp [e] at this
      · omega
    have hkl : k < l.length := by omega
    have h2' := h2 _ (List.getElem?_eq_getElem hkl)
    simp at h2'
    have hle : l[k] ≤ l[i] := by
      by_cases hh : k = i
      · subst hh; exact Nat.le_refl _
      · exact List.pairwise_iff_getElem.mp h k i hkl hi (by omega)
    rw [List.getElem?_eq_getElem hkl]
    congr 1; omega

/-- The last id of each full block of `f`. -/
def blockLasts (B : Nat) (f : List Nat) : List Nat :=
  (List.range (f.length / B)).map (fun i => f[(i + 1) * B - 1]?.getD 0)

theorem blockLasts_getElem? {B : Nat} (hB : 0 < B) (f : List Nat) (i : Nat) :
    (blockLasts B f)[i]? = if i < f.length / B then f[(i + 1) * B - 1]? else none := by
  unfold blockLasts
  rw [List.getElem?_map]
  by_cases h : i < f.length / B
  · rw [List.getElem?_range h, if_pos h]
    have : (i + 1) * B ≤ f.length := Nat.le_trans (Nat.mul_le_mul_right B h) (Nat.div_mul_le_self _ _)
    have hpos : 0 < (i + 1) * B := Nat.mul_pos (by omega) hB
    simp only [Option.map_some]
    rw [List.getElem?_eq_getElem (by omega)]
    simp
  · rw [if_neg h, List.getElem?_eq_none (by simpa using h)]; rfl

theorem blockLasts_mem {B : Nat} (hB : 0 < B) {f : List Nat} {x : Nat} (h : x ∈ blockLasts B f) :
    x ∈ f := by
  obtain ⟨i, hi, e⟩ := List.mem_iff_getElem.mp h
  have h2 := blockLasts_getElem? hB f i
  rw [List.getElem?_eq_getElem hi, e] at h2
  split at h2
  · exact List.mem_of_getElem? h2.symm
  · simp at h2

theorem asc_get {f : List Nat} (h : Asc f) {i j : Nat} {x y : Nat} (hij : i ≤ j)
    (hx : f[i]? = some x) (hy : f[j]? = some y) : x ≤ y := by
  obtain ⟨hi, rfl⟩ := List.getElem?_eq_some_iff.mp hx
  obtain ⟨hj, rfl⟩ := List.getElem?_eq_some_iff.mp hy
  by_cases he : i = j
  · subst he; exact Nat.le_refl _
  · exact List.pairwise_iff_getElem.mp h i j hi hj (by omega)

theorem blockLasts_asc {B : Nat} (hB : 0 < B) {f : List Nat} (h : Asc f) : Asc (blockLasts B f) := by
  apply List.pairwise_iff_getElem.mpr
  intro i j hi hj hij
  have h1 := blockLasts_getElem? hB f i
  have h2 := blockLasts_getElem? hB f j
  rw [List.getElem?_eq_getElem hi] at h1
  rw [List.getElem?_eq_getElem hj] at h2
  split at h1
  · split at h2
    · refine asc_get h ?_ h1.symm h2.symm
      have : (i + 1) * B ≤ (j + 1) * B := Nat.mul_le_mul_right B (by omega)
      omega
    · simp at h2
  · simp at h1

/-- The block index is usable: block ends of the full blocks, possibly followed
by the largest id. -/
def EndsOK (B : Nat) (f ends : List Nat) (biggest : Nat) : Prop :=
  ends = blockLasts B f ∨ ends = blockLasts B f ++ [biggest]

theorem EndsOK.asc {B : Nat} (hB : 0 < B) {f ends : List Nat} {big : Nat} (h : EndsOK B f ends big)
    (hf : Asc f) (hbig : ∀ x ∈ f, x ≤ big) : Asc ends := by
  rcases h with rfl | rfl
  · exact blockLasts_asc hB hf
  · refine List.pairwise_append.mpr ⟨blockLasts_asc hB hf, by simp, ?_⟩
    intro a ha b hb
    simp at hb; subst hb
    exact hbig a (blockLasts_mem hB ha)

/-- An id of the file that is not a block end lies in the block the upper bound
search selects. -/
theorem block_found {B : Nat} (hB : 0 < B) {f ends : List Nat} {big id : Nat}
    (h : EndsOK B f ends big) (hf : Asc f) (hbig : ∀ x ∈ f, x ≤ big)
    (hne : id ∉ ends) (hid : id ∈ f) :
    id ∈ (f.drop (upperBound ends id * B)).take B := by
  obtain ⟨m, hm, e⟩ := List.mem_iff_getElem.mp hid
  obtain ⟨h1, h2, h3⟩ := takeWhile_length_spec (l := ends) (p := fun x => decide (x ≤ id))
  have hends : ∀ i, i < f.length / B → ends[i]? = f[(i + 1) * B - 1]? := by
    intro i hi
    have hb := blockLasts_getElem? hB f i
    rw [if_pos hi] at hb
    rcases h with rfl | rfl
    · exact hb
    · rw [List.getElem?_append_left (by simp [blockLasts]; exact hi)]; exact hb
  have hlen : ends.length ≤ f.length / B + 1 := by
    rcases h with rfl | rfl <;> simp [blockLasts]
  suffices hk : upperBound ends id = m / B by
    rw [hk]
    apply List.mem_of_getElem? (i := m % B)
    rw [List.getElem?_take, if_pos (Nat.mod_lt _ hB), List.getElem?_drop, Nat.div_add_mod' m B,
      List.getElem?_eq_getElem hm, e]
  unfold upperBound
  generalize hk : (ends.takeWhile (fun x => decide (x ≤ id))).length = k at *
  have hq : m / B * B + m % B = m := Nat.div_add_mod' m B
  have hmod := Nat.mod_lt m hB
  have hmq : m / B ≤ f.length / B := Nat.div_le_div_right (by omega)
  -- k ≥ m / B
  have hge : m / B ≤ k := by
    by_cases hlt : k < m / B
    · exfalso
      have hkf : k < f.length / B := by omega
      have e1 := hends k hkf
      have hle : (k + 1) * B ≤ m / B * B := Nat.mul_le_mul_right B hlt
      have hpos : 0 < (k + 1) * B := Nat.mul_pos (by omega) hB
      have hlt' : (k + 1) * B - 1 < f.length := by omega
      rw [List.getElem?_eq_getElem hlt'] at e1
      have hle2 : f[(k + 1) * B - 1] ≤ id := by
        rw [← e]
        exact asc_get hf (by omega) (List.getElem?_eq_getElem hlt') (List.getElem?_eq_getElem hm)
      have := h2 _ e1
      simp at this; omega
    · omega
  -- k ≤ m / B
  have hle : k ≤ m / B := by
    by_cases hlt : m / B < k
    · exfalso
      have hle' : m / B < ends.length := by omega
      have e1 := List.getElem?_eq_getElem hle'
      have h1' := h1 (m / B) _ hlt e1
      simp at h1'
      have hmem : ends[m / B] ∈ ends := List.getElem_mem _
      have hlt2 : ends[m / B] < id := by
        rcases Nat.lt_or_eq_of_le h1' with hh | hh
        · exact hh
        · rw [hh] at hmem; exact absurd hmem hne
      by_cases hfull : m / B < f.length / B
      · have e2 := hends (m / B) hfull
        rw [e1] at e2
        have hge2 : id ≤ ends[m / B] := by
          rw [← e]
          refine asc_get hf ?_ (List.getElem?_eq_getElem hm) e2.symm
          have : (m / B + 1) * B = m / B * B + B := Nat.succ_mul _ _
          omega
        omega
      · have hqe : m / B = f.length / B := by omega
        rcases h with rfl | rfl
        · simp [blockLasts] at hle'; omega
        · have e3 : (blockLasts B f ++ [big])[m / B]? = some big := by
            rw [List.getElem?_append_right (by simp [blockLasts]; omega)]
            simp [blockLasts, hqe]
          rw [e1] at e3
          simp only [Option.some.injEq] at e3
          have := hbig id hid
          omega
    · omega
  omega

/-! ### Invariants -/

/-- `x` is a lower bound cell initialised with `maxId`. -/
structure Common (P : Params) (A N : List Nat) (s : St) : Prop where
  small_le : ∀ x ∈ A, s.smallest ≤ x
  le_big : ∀ x ∈ A, x ≤ s.biggest
  small_mem : A = [] → s.smallest = maxId ∧ s.biggest = 0
  big_mem : A ≠ [] → s.biggest ∈ A
  min_mem : A ≠ [] → s.smallest ∈ A
  inv_iff : s.hasInv = true ↔ N ≠ []
  bits_in : ∀ h, h ∈ s.bitsIn ↔ ∃ x ∈ A, h ∈ positions P x
  bits_not : ∀ h, h ∈ s.bitsNotIn ↔ ∃ x ∈ N, h ∈ positions P x

structure OpenInv (P : Params) (A N : List Nat) (s : St) : Prop extends Common P A N s where
  isOpen : s.closed = false
  content : s.file ++ s.obuf = A
  obuf_lt : s.obuf.length < P.B
  file_full : s.file.length % P.B = 0
  ends : s.blockEnds = blockLasts P.B s.file
  sorted_asc : s.sorted = true → Asc A
  last_eq : ∀ x, A.getLast? = some x → s.last = x
  cache : s.curBlock = none

structure ClosedInv (P : Params) (A N : List Nat) (s : St) : Prop extends Common P A N s where
  isClosed : s.closed = true
  isSorted : s.sorted = true
  perm : s.file.Perm A
  asc : Asc s.file
  ends : EndsOK P.B s.file s.blockEnds s.biggest
  cache : ∀ k, s.curBlock = some k → s.buffer = (s.file.drop (k * P.B)).take P.B

theorem init_inv (P : Params) (hB : 0 < P.B) : OpenInv P [] [] init := by
  refine ⟨⟨by simp, by simp, by simp [init], by simp, by simp, by simp [init], by simp [init],
    by simp [init]⟩, rfl, rfl, hB, by simp [init], ?_, by simp, by simp, rfl⟩
  simp [init, blockLasts]

theorem blockLasts_append_block {B : Nat} (hB : 0 < B) {f b : List Nat} (hf : f.length % B = 0)
    (hb : b.length = B) (x : Nat) (hx : b.getLast? = some x) :
    blockLasts B (f ++ b) = blockLasts B f ++ [x] := by
  have hdv : B ∣ f.length := Nat.dvd_of_mod_eq_zero hf
  have hq : (f ++ b).length / B = f.length / B + 1 := by
    rw [List.length_append, hb, Nat.add_div_right _ hB]
  unfold blockLasts
  rw [hq, List.range_succ, List.map_append]
  congr 1
  · apply List.map_congr_left
    intro i hi
    have hi := List.mem_range.mp hi
    have : (i + 1) * B ≤ f.length := Nat.le_trans (Nat.mul_le_mul_right B hi) (Nat.div_mul_le_self _ _)
    have hpos : 0 < (i + 1) * B := Nat.mul_pos (by omega) hB
    rw [List.getElem?_append_left (by omega)]
  · simp only [List.map_cons, List.map_nil]
    have e : (f.length / B + 1) * B = f.length + B := by
      rw [Nat.succ_mul, Nat.div_mul_cancel hdv]
    rw [e, List.getElem?_append_right (by omega)]
    rw [List.getLast?_eq_getElem?, hb] at hx
    rw [show f.length + B - 1 - f.length = B - 1 by omega, hx]
    rfl

theorem add_inv {P : Params} (hB : 0 < P.B) {A N : List Nat} {s : St} (h : OpenInv P A N s)
    (id : Nat) (hid : id ≤ maxId) :
    ∃ s', add P s id = some s' ∧ OpenInv P (A ++ [id]) N s' := by
  unfold add
  rw [h.isOpen]
  simp only [Bool.false_eq_true, if_false]
  refine ⟨_, rfl, ?_⟩
  have hob : (s.obuf ++ [id]).length = s.obuf.length + 1 := by simp
  have holt := h.obuf_lt
  -- fields of diskAdd
  have hfields : (diskAdd P s id).last = s.last ∧ (diskAdd P s id).sorted = s.sorted ∧
      (diskAdd P s id).smallest = s.smallest ∧ (diskAdd P s id).biggest = s.biggest ∧
      (diskAdd P s id).hasInv = s.hasInv ∧ (diskAdd P s id).bitsIn = s.bitsIn ∧
      (diskAdd P s id).bitsNotIn = s.bitsNotIn ∧ (diskAdd P s id).closed = s.closed ∧
      (diskAdd P s id).curBlock = s.curBlock := by
    unfold diskAdd; simp only; split <;> simp
  obtain ⟨f1, f2, f3, f4, f5, f6, f7, f8, f9⟩ := hfields
  have hdisk : (diskAdd P s id).file ++ (diskAdd P s id).obuf = A ++ [id] ∧
      (diskAdd P s id).obuf.length < P.B ∧ (diskAdd P s id).file.length % P.B = 0 ∧
      (diskAdd P s id).blockEnds = blockLasts P.B (diskAdd P s id).file := by
    unfold diskAdd
    simp only
    by_cases hfull : (s.obuf ++ [id]).length ≥ P.B
    · rw [if_pos hfull]
      have hlen : (s.obuf ++ [id]).length = P.B := by omega
      have ht : (s.obuf ++ [id]).take P.B = s.obuf ++ [id] := List.take_of_length_le (by omega)
      simp only [ht, hlen, Nat.mod_self, if_true]
      refine ⟨?_, by simpa using hB, ?_, ?_⟩
      · rw [List.append_nil, ← List.append_assoc, h.content]
      · rw [List.length_append, hlen, Nat.add_mod_right]; exact h.file_full
      · rw [blockLasts_append_block hB h.file_full hlen id (by simp), h.ends]
    · rw [if_neg hfull]
      have hm : ¬ ((s.obuf ++ [id]).length % P.B = 0) := by
        rw [Nat.mod_eq_of_lt (by omega)]; simp
      simp only [hm, if_false]
      exact ⟨by rw [← List.append_assoc, h.content], by omega, h.file_full, h.ends⟩
  obtain ⟨d1, d2, d3, d4⟩ := hdisk
  refine ⟨⟨?_, ?_, ?_, ?_, ?_, ?_, ?_, ?_⟩, ?_, ?_, ?_, ?_, ?_, ?_, ?_, ?_⟩
  · intro x hx
    simp only [f3]
    rcases List.mem_append.mp hx with hx | hx
    · have := h.small_le x hx; split <;> omega
    · simp at hx; subst hx; split <;> omega
  · intro x hx
    simp only [f4]
    rcases List.mem_append.mp hx with hx | hx
    · have := h.le_big x hx; split <;> omega
    · simp at hx; subst hx; split <;> omega
  · simp
  · intro _
    simp only [f4]
    split
    · simp
    · rename_i hgt
      by_cases hA : A = []
      · have := (h.small_mem hA).2
        have : id = 0 := by omega
        simp [this, (h.small_mem hA).2]
      · exact List.mem_append_left _ (h.big_mem hA)
  · intro _
    simp only [f3]
    split
    · simp
    · rename_i hlt
      by_cases hA : A = []
      · have := (h.small_mem hA).1
        have : id = s.smallest := by omega
        simp [this]
      · exact List.mem_append_left _ (h.min_mem hA)
  · simp only [f5]; exact h.inv_iff
  · intro x
    simp only [f6, List.mem_append, h.bits_in]
    constructor
    · rintro (hx | ⟨y, hy, hx⟩)
      · exact ⟨id, by simp, hx⟩
      · exact ⟨y, Or.inl hy, hx⟩
    · rintro ⟨y, hy | hy, hx⟩
      · exact Or.inr ⟨y, hy, hx⟩
      · simp at hy; subst hy; exact Or.inl hx
  · intro x; simp only [f7]; exact h.bits_not x
  · simp only [f8]; exact h.isOpen
  · exact d1
  · exact d2
  · exact d3
  · exact d4
  · simp only [f1, f2]
    intro hs
    split at hs
    · simp at hs
    · rename_i hlast
      refine List.pairwise_append.mpr ⟨h.sorted_asc hs, by simp, ?_⟩
      intro a ha b hb
      simp at hb; subst hb
      have hne : A ≠ [] := List.ne_nil_of_mem ha
      obtain ⟨x, hx⟩ : ∃ x, A.getLast? = some x := by
        cases hg : A.getLast? with
        | none => rw [List.getLast?_eq_none_iff] at hg; exact absurd hg hne
        | some x => exact ⟨x, rfl⟩
      have hlx := h.last_eq x hx
      rw [List.getLast?_eq_getElem?] at hx
      obtain ⟨i, hi, e⟩ := List.mem_iff_getElem.mp ha
      have := asc_get (h.sorted_asc hs) (show i ≤ A.length - 1 by omega)
        (by rw [List.getElem?_eq_getElem hi, e]) hx
      omega
  · intro x hx
    simp at hx
    exact hx
  · simp only [f9]; exact h.cache

theorem nadd_inv {P : Params} {A N : List Nat} {s : St} (h : OpenInv P A N s) (id : Nat) :
    ∃ s', nadd P s id = some s' ∧ OpenInv P A (N ++ [id]) s' := by
  unfold nadd
  rw [h.isOpen]
  simp only [Bool.false_eq_true, if_false]
  refine ⟨_, rfl, ?_⟩
  refine ⟨⟨h.small_le, h.le_big, h.small_mem, h.big_mem, h.min_mem, by simp, h.bits_in, ?_⟩, rfl, h.content,
    h.obuf_lt, h.file_full, h.ends, h.sorted_asc, h.last_eq, h.cache⟩
  intro x
  simp only [List.mem_append, h.bits_not]
  constructor
  · rintro (hx | ⟨y, hy, hx⟩)
    · exact ⟨id, by simp, hx⟩
    · exact ⟨y, Or.inl hy, hx⟩
  · rintro ⟨y, hy | hy, hx⟩
    · exact Or.inr ⟨y, hy, hx⟩
    · simp at hy; subst hy; exact Or.inl hx

theorem blockLasts_append_short {B : Nat} (hB : 0 < B) {f b : List Nat} (hf : f.length % B = 0)
    (hb : b.length < B) : blockLasts B (f ++ b) = blockLasts B f := by
  have hdv : B ∣ f.length := Nat.dvd_of_mod_eq_zero hf
  have hq : (f ++ b).length / B = f.length / B := by
    obtain ⟨c, hc⟩ := hdv
    rw [List.length_append, hc, Nat.mul_add_div hB, Nat.div_eq_of_lt hb, Nat.mul_div_cancel_left _ hB]
    rfl
  unfold blockLasts
  rw [hq]
  apply List.map_congr_left
  intro i hi
  have hi := List.mem_range.mp hi
  have : (i + 1) * B ≤ f.length := Nat.le_trans (Nat.mul_le_mul_right B hi) (Nat.div_mul_le_self _ _)
  have hpos : 0 < (i + 1) * B := Nat.mul_pos (by omega) hB
  rw [List.getElem?_append_left (by omega)]

theorem close_inv {P : Params} (hB : 0 < P.B) (hS : 0 < P.S) {A N : List Nat} {s : St}
    (h : OpenInv P A N s) (hA : ∀ x ∈ A, x ≤ maxId) :
    ∃ s', close P s = some s' ∧ ClosedInv P A N s' := by
  unfold close
  simp only [h.content]
  cases hs : s.sorted with
  | true =>
    simp only [if_true]
    refine ⟨_, rfl, ⟨h.small_le, h.le_big, h.small_mem, h.big_mem, h.min_mem, h.inv_iff, h.bits_in, h.bits_not⟩,
      rfl, rfl, List.Perm.refl _, h.sorted_asc hs, Or.inr ?_, ?_⟩
    · simp only
      rw [h.ends, ← h.content, blockLasts_append_short hB h.file_full h.obuf_lt]
    · intro k hk; simp only [h.cache] at hk; simp at hk
  | false =>
    obtain ⟨f, e, he, hp, ha, hends⟩ := extSort_spec P hB hS A hA
    simp only [Bool.false_eq_true, if_false, he]
    refine ⟨_, rfl, ⟨h.small_le, h.le_big, h.small_mem, h.big_mem, h.min_mem, h.inv_iff, h.bits_in, h.bits_not⟩,
      rfl, rfl, hp, ha, Or.inl hends, ?_⟩
    intro k hk; simp only [h.cache] at hk; simp at hk

/-- `loadBlock` keeps the invariant and yields the selected block. -/
theorem loadBlock_inv {P : Params} {A N : List Nat} {s : St} (h : ClosedInv P A N s) (id : Nat) :
    ClosedInv P A N (loadBlock P s id) ∧
    (loadBlock P s id).buffer = (s.file.drop (upperBound s.blockEnds id * P.B)).take P.B := by
  unfold loadBlock
  simp only
  split
  · rename_i hc
    exact ⟨h, h.cache _ hc⟩
  · refine ⟨⟨⟨h.small_le, h.le_big, h.small_mem, h.big_mem, h.min_mem, h.inv_iff, h.bits_in, h.bits_not⟩,
      h.isClosed, h.isSorted, h.perm, h.asc, h.ends, ?_⟩, rfl⟩
    intro k hk
    simp only [Option.some.injEq] at hk
    subst hk
    rfl

theorem diskHas_spec {P : Params} (hB : 0 < P.B) {A N : List Nat} {s : St}
    (h : ClosedInv P A N s) (hA : A ≠ []) (id : Nat) :
    ∃ s', diskHas P s id = some (decide (id ∈ A), s') ∧ ClosedInv P A N s' := by
  have hbig : ∀ x ∈ s.file, x ≤ s.biggest := fun x hx => h.le_big x (h.perm.mem_iff.mp hx)
  unfold diskHas
  rw [h.isSorted]
  simp only [Bool.true_eq_false, if_false, lowerBound_hit (h.ends.asc hB h.asc hbig)]
  by_cases he : id ∈ s.blockEnds
  · rw [if_pos he]
    have : id ∈ A := by
      rcases h.ends with e | e
      · rw [e] at he; exact h.perm.mem_iff.mp (blockLasts_mem hB he)
      · rw [e] at he
        rcases List.mem_append.mp he with he | he
        · exact h.perm.mem_iff.mp (blockLasts_mem hB he)
        · simp at he; rw [he]; exact h.big_mem hA
    exact ⟨s, by simp [this], h⟩
  · rw [if_neg he]
    obtain ⟨hinv, hbuf⟩ := loadBlock_inv h id
    have hiff : id ∈ A ↔ id ∈ (loadBlock P s id).buffer := by
      rw [hbuf]
      constructor
      · intro hm; exact block_found hB h.ends h.asc hbig he (h.perm.mem_iff.mpr hm)
      · intro hm; exact h.perm.mem_iff.mp (List.mem_of_mem_drop (List.mem_of_mem_take hm))
    have hasc : Asc (loadBlock P s id).buffer := by
      rw [hbuf]
      exact List.Pairwise.sublist ((List.take_sublist _ _).trans (List.drop_sublist _ _)) h.asc
    simp only [hiff]
    generalize loadBlock P s id = s' at *
    cases hb : s'.buffer with
    | nil => exact ⟨s', by simp, hinv⟩
    | cons first rest =>
      simp only
      rw [hb] at hasc
      by_cases hfst : first > id
      · rw [if_pos hfst]
        have : id ∉ first :: rest := by
          intro hm
          rcases List.mem_cons.mp hm with rfl | hm
          · omega
          · have := (List.pairwise_cons.mp hasc).1 id hm; omega
        exact ⟨s', by simp [this], hinv⟩
      · rw [if_neg hfst]
        have := bsearch_spec (first :: rest) id hasc ((first :: rest).length + 1) 0
          (first :: rest).length (Nat.zero_le _) (Nat.le_refl _) (by omega)
          (by intro i x hi; omega)
          (by intro i x hi hx; rw [List.getElem?_eq_none hi] at hx; simp at hx)
        simp only [Int.natCast_zero, Int.mul_zero] at this
        rw [this]
        exact ⟨s', rfl, hinv⟩

/-- Behaviour of the bloom loop. -/
theorem bloom_spec {P : Params} {A N : List Nat} {s : St} (h : Common P A N s) (id : Nat) :
    (id ∈ A → bloom s (positions P id) ≠ some false) ∧
    ((N = [] ∨ id ∈ N) → bloom s (positions P id) ≠ some true) := by
  have hgen : ∀ l : List Nat, (∀ x ∈ l, x ∈ positions P id) →
      (id ∈ A → bloom s l ≠ some false) ∧ ((N = [] ∨ id ∈ N) → bloom s l ≠ some true) := by
    intro l
    induction l with
    | nil => intro _; simp [bloom]
    | cons x xs ih =>
      intro hl
      have ih' := ih (fun y hy => hl y (List.mem_cons_of_mem _ hy))
      have hx := hl x (List.mem_cons_self)
      unfold bloom
      by_cases h1 : x ∉ s.bitsIn
      · rw [if_pos h1]
        refine ⟨fun hA => absurd ((h.bits_in x).mpr ⟨id, hA, hx⟩) h1, fun _ => by simp⟩
      · rw [if_neg h1]
        by_cases h2 : s.hasInv = true ∧ x ∉ s.bitsNotIn
        · rw [if_pos h2]
          refine ⟨fun _ => by simp, ?_⟩
          rintro (hN | hN)
          · exact absurd hN (h.inv_iff.mp h2.1)
          · exact absurd ((h.bits_not x).mpr ⟨id, hN, hx⟩) h2.2
        · rw [if_neg h2]; exact ih'
  exact hgen _ (fun _ hx => hx)

theorem bloom_congr {P : Params} {A N : List Nat} {s t : St} (hs : Common P A N s)
    (ht : Common P A N t) (l : List Nat) : bloom s l = bloom t l := by
  induction l with
  | nil => rfl
  | cons x xs ih =>
    have e1 : x ∈ s.bitsIn ↔ x ∈ t.bitsIn := (hs.bits_in x).trans (ht.bits_in x).symm
    have e2 : x ∈ s.bitsNotIn ↔ x ∈ t.bitsNotIn := (hs.bits_not x).trans (ht.bits_not x).symm
    have e3 : s.hasInv = true ↔ t.hasInv = true := hs.inv_iff.trans ht.inv_iff.symm
    simp only [bloom, e1, e2, e3, ih]

theorem range_congr {P : Params} {A N : List Nat} {s t : St} (hs : Common P A N s)
    (ht : Common P A N t) : s.smallest = t.smallest ∧ s.biggest = t.biggest := by
  by_cases hA : A = []
  · have h1 := hs.small_mem hA
    have h2 := ht.small_mem hA
    omega
  · have h1 := hs.small_le _ (ht.min_mem hA)
    have h2 := ht.small_le _ (hs.min_mem hA)
    have h3 := hs.le_big _ (ht.big_mem hA)
    have h4 := ht.le_big _ (hs.big_mem hA)
    omega

theorem hasClosed_spec {P : Params} (hB : 0 < P.B) {A N : List Nat} {s : St}
    (h : ClosedInv P A N s) (id : Nat) :
    ∃ s', hasClosed P s id = some
        (if id < s.smallest ∨ id > s.biggest then false
         else (bloom s (positions P id)).getD (decide (id ∈ A)), s') ∧ ClosedInv P A N s' := by
  unfold hasClosed
  split
  · exact ⟨s, rfl, h⟩
  · rename_i hr
    cases hb : bloom s (positions P id) with
    | some b => exact ⟨s, rfl, h⟩
    | none =>
      have hA : A ≠ [] := by
        intro hA
        have := h.small_mem hA
        unfold maxId at *
        omega
      obtain ⟨s', e, hi⟩ := diskHas_spec hB h hA id
      exact ⟨s', by simp [e], hi⟩

theorem hasClosed_det {P : Params} (hB : 0 < P.B) {A N : List Nat} {s t : St}
    (hs : ClosedInv P A N s) (ht : ClosedInv P A N t) (id : Nat) :
    ∃ b s' t', hasClosed P s id = some (b, s') ∧ hasClosed P t id = some (b, t') := by
  obtain ⟨s', e1, _⟩ := hasClosed_spec hB hs id
  obtain ⟨t', e2, _⟩ := hasClosed_spec hB ht id
  refine ⟨_, s', t', e1, ?_⟩
  rw [e2]
  obtain ⟨h1, h2⟩ := range_congr hs.toCommon ht.toCommon
  rw [bloom_congr hs.toCommon ht.toCommon, h1, h2]

theorem hasClosed_answer {P : Params} (hB : 0 < P.B) {A N : List Nat} {s : St}
    (h : ClosedInv P A N s) (id : Nat) :
    ∃ b s', hasClosed P s id = some (b, s') ∧ ClosedInv P A N s' ∧
      (id ∈ A → b = true) ∧ ((N = [] ∨ id ∈ N) → b = true → id ∈ A) := by
  obtain ⟨s', e, hi⟩ := hasClosed_spec hB h id
  refine ⟨_, s', e, hi, ?_, ?_⟩
  · intro hA
    have h1 := h.small_le id hA
    have h2 := h.le_big id hA
    rw [if_neg (by omega)]
    have h3 := (bloom_spec h.toCommon id).1 hA
    cases hb : bloom s (positions P id) with
    | none => simp [hA]
    | some b => cases b with
      | true => rfl
      | false => exact absurd hb h3
  · intro hN hb
    split at hb
    · simp at hb
    · have h3 := (bloom_spec h.toCommon id).2 hN
      cases hbl : bloom s (positions P id) with
      | none => rw [hbl] at hb; simpa using hb
      | some b => cases b with
        | true => exact absurd hbl h3
        | false => rw [hbl] at hb; simp at hb

end Verif.OsmIdSet
