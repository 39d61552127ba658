import Verif.Names.Model
import Verif.Trie.ClusterProps

/-!
# Name similarity, station infos, routing attributes (properties C25, C26, C27)
-/

namespace Verif.Names

theorem lt_tri (a b : Str) : a < b ∨ a = b ∨ b < a := by
  rcases Classical.em (a < b) with h | h
  · exact Or.inl h
  · rcases Classical.em (b < a) with h' | h'
    · exact Or.inr (Or.inr h')
    · exact Or.inr (Or.inl (List.le_antisymm (List.not_lt.mp h') (List.not_lt.mp h)))

/-! ### C25 -/

/-- `a` is `b` followed or preceded by a blank and at least one more character. -/
def Extends (a b : Str) : Prop :=
  (∃ r, r ≠ [] ∧ a = b ++ [sp] ++ r) ∨ (∃ r, r ≠ [] ∧ a = r ++ [sp] ++ b)

theorem wordIn_iff (a b : Str) : wordIn a b = true ↔ Extends a b := by
  unfold wordIn Extends
  by_cases hl : a.length > b.length + 1
  · simp only [hl, if_true]
    by_cases h1 : a.take (b.length + 1) = b ++ [sp]
    · simp only [h1, beq_self_eq_true, if_true, true_iff]
      left
      refine ⟨a.drop (b.length + 1), ?_, ?_⟩
      · intro h
        have := congrArg List.length h
        simp at this; omega
      · rw [← h1, List.take_append_drop]
    · have h1' : (a.take (b.length + 1) == b ++ [sp]) = false := by simpa using h1
      simp only [h1', Bool.false_eq_true, if_false, beq_iff_eq]
      constructor
      · intro h
        right
        refine ⟨a.take (a.length - (b.length + 1)), ?_, ?_⟩
        · intro h'
          have := congrArg List.length h'
          simp at this; omega
        · have e : (a.drop (a.length - (b.length + 1))).take (b.length + 1) =
              a.drop (a.length - (b.length + 1)) := by
            apply List.take_of_length_le
            simp; omega
          rw [e] at h
          have := List.take_append_drop (a.length - (b.length + 1)) a
          rw [h] at this
          rw [List.append_assoc, List.singleton_append]
          exact this.symm
      · rintro (⟨r, _, e⟩ | ⟨r, _, e⟩)
        · exfalso; apply h1; subst e
          rw [List.take_append_of_le_length (by simp)]
          exact List.take_of_length_le (by simp)
        · subst e
          have : (r ++ [sp] ++ b).length - (b.length + 1) = r.length := by simp
          rw [this]
          simp
  · simp only [hl, if_false, Bool.false_eq_true, false_iff]
    rintro (⟨r, h, e⟩ | ⟨r, h, e⟩)
    all_goals
      have := congrArg List.length e
      have : 0 < r.length := List.length_pos_iff.mpr h
      simp at *
      omega

/-- C25. Two line names are similar iff they are equal, or both are non-empty and one
is the other with further words before or after it. -/
theorem C25_line_iff (a b : Str) :
    lineSimi a b = true ↔ a = b ∨ (a ≠ [] ∧ b ≠ [] ∧ (Extends a b ∨ Extends b a)) := by
  unfold lineSimi
  by_cases h : a = b
  · simp [h]
  · by_cases h1 : a = []
    · subst h1
      simpa [h] using fun e : b = [] => h e.symm
    · by_cases h2 : b = []
      · subst h2; simp [h]
      · have e : (a.isEmpty || b.isEmpty) = false := by simp [h1, h2]
        simp only [beq_iff_eq, h, if_false, e, Bool.false_eq_true, false_or, ne_eq, h1, h2,
          not_false_eq_true, true_and, ← wordIn_iff]
        cases wordIn a b <;> cases wordIn b a <;> simp

/-- C25. Line similarity is reflexive and symmetric. -/
theorem C25_line_refl_symm : (∀ a, lineSimi a a = true) ∧ ∀ a b, lineSimi a b = lineSimi b a := by
  refine ⟨fun a => (C25_line_iff a a).mpr (Or.inl rfl), fun a b => ?_⟩
  rw [Bool.eq_iff_iff, C25_line_iff, C25_line_iff]
  constructor
  · rintro (h | ⟨h1, h2, h3⟩)
    · exact Or.inl h.symm
    · exact Or.inr ⟨h2, h1, h3.symm⟩
  · rintro (h | ⟨h1, h2, h3⟩)
    · exact Or.inl h.symm
    · exact Or.inr ⟨h2, h1, h3.symm⟩

/-- C25. Two station names are similar iff they are similar as line names or, both
being non-empty, differ in less than a twentieth of the longer one. -/
theorem C25_stat_iff (ed : Str → Str → Nat) (a b : Str) :
    statSimi ed a b = true ↔
      lineSimi a b = true ∨ (a ≠ [] ∧ b ≠ [] ∧ 20 * ed a b < max a.length b.length) := by
  unfold statSimi lineSimi
  by_cases h : a = b
  · simp [h]
  · by_cases h1 : a = []
    · subst h1
      simp
    · by_cases h2 : b = []
      · subst h2; simp [h]
      · have e : (a.isEmpty || b.isEmpty) = false := by simp [h1, h2]
        simp only [beq_iff_eq, h, if_false, e, Bool.false_eq_true, ne_eq, h1, h2,
          not_false_eq_true, true_and]
        cases wordIn a b <;> cases wordIn b a <;> simp

/-- C25. Station similarity is reflexive, and symmetric if the edit distance is. -/
theorem C25_stat_refl_symm (ed : Str → Str → Nat) (hs : ∀ a b, ed a b = ed b a) :
    (∀ a, statSimi ed a a = true) ∧ ∀ a b, statSimi ed a b = statSimi ed b a := by
  refine ⟨fun a => (C25_stat_iff ed a a).mpr (Or.inl (C25_line_refl_symm.1 a)), fun a b => ?_⟩
  rw [Bool.eq_iff_iff, C25_stat_iff, C25_stat_iff, C25_line_refl_symm.2 a b, hs a b,
    Nat.max_comm a.length]
  constructor
  · rintro (h | ⟨h1, h2, h3⟩)
    · exact Or.inl h
    · exact Or.inr ⟨h2, h1, h3⟩
  · rintro (h | ⟨h1, h2, h3⟩)
    · exact Or.inl h
    · exact Or.inr ⟨h2, h1, h3⟩

/-- C25. The edit distance classifier is symmetric, and reflexive on non-empty names … -/
theorem C25_ed_classifier (ed : Str → Str → Nat) (hs : ∀ a b, ed a b = ed b a) (h0 : ∀ a, ed a a = 0) :
    (∀ a, a ≠ [] → edSimilar ed a a = true) ∧ ∀ a b, edSimilar ed a b = edSimilar ed b a := by
  constructor
  · intro a ha
    have : 0 < a.length := List.length_pos_iff.mpr ha
    simp [edSimilar, h0, ha]
    omega
  · intro a b
    simp only [edSimilar, hs a b, Nat.max_comm a.length]

/-- … but not on the empty name: 0/0 is not a number. -/
theorem C25_ed_empty_not_reflexive (ed : Str → Str → Nat) : edSimilar ed [] [] = false := by
  simp [edSimilar]

/-- "S1" = [83, 49], "S1 Ost" begins with it. -/
example : lineSimi [83, 49] [83, 49, 32, 79, 115, 116] = true := by decide
example : lineSimi [83, 49] [83, 50] = false := by decide
example : lineSimi [83, 49] [83, 49, 32] = false := by decide
example : statSimi (fun _ _ => 1) (List.replicate 21 65) (List.replicate 20 65) = true := by decide
example : statSimi (fun _ _ => 1) (List.replicate 20 65) (List.replicate 19 65) = false := by decide

/-! ### C26 -/

def StatInfo.names (s : StatInfo) : List Str := s.name :: s.alts

theorem anySimi_iff (simi : Str → Str → Bool) (a : Str) (bs : List Str) :
    anySimi simi a bs = true ↔ ∃ b ∈ bs, simi a b = true := by
  induction bs with
  | nil => simp [anySimi]
  | cons b bs ih =>
    simp only [anySimi]
    by_cases h : simi a b = true
    · simp [h]
    · simp [h, ih]

theorem altLoop_iff (simi : Str → Str → Bool) (o : StatInfo) (as : List Str) :
    altLoop simi o as = true ↔ ∃ a ∈ as, ∃ b ∈ o.names, simi a b = true := by
  induction as with
  | nil => simp [altLoop]
  | cons a as ih =>
    simp only [altLoop]
    by_cases h : simi a o.name = true
    · simp only [h, if_true, true_iff]
      exact ⟨a, by simp, o.name, by simp [StatInfo.names], h⟩
    · simp only [h]
      by_cases h' : anySimi simi a o.alts = true
      · simp only [h', Bool.false_eq_true, if_false, if_true, true_iff]
        obtain ⟨b, h1, h2⟩ := (anySimi_iff _ _ _).mp h'
        exact ⟨a, by simp, b, by simp [StatInfo.names, h1], h2⟩
      · simp only [h', Bool.false_eq_true, if_false, ih]
        constructor
        · rintro ⟨x, hx, y⟩; exact ⟨x, by simp [hx], y⟩
        · rintro ⟨x, hx, b, hb, hs⟩
          rcases List.mem_cons.mp hx with rfl | hx
          · exfalso
            rcases List.mem_cons.mp hb with rfl | hb
            · exact h hs
            · exact h' ((anySimi_iff _ _ _).mpr ⟨b, hb, hs⟩)
          · exact ⟨x, hx, b, hb, hs⟩

/-- C26. Two stations match iff some name of one is similar to some name of the other. -/
theorem C26_iff (simi : Str → Str → Bool) (s o : StatInfo) :
    s.simi simi (some o) = true ↔ ∃ a ∈ s.names, ∃ b ∈ o.names, simi a b = true := by
  have hn : ∀ b, b ∈ o.names ↔ b = o.name ∨ b ∈ o.alts := by simp [StatInfo.names]
  have hs : (∃ a ∈ s.names, ∃ b ∈ o.names, simi a b = true) ↔
      simi s.name o.name = true ∨ (∃ a ∈ s.alts, ∃ b ∈ o.names, simi a b = true) ∨
        ∃ b ∈ o.alts, simi s.name b = true := by
    constructor
    · rintro ⟨a, ha, b, hb, h⟩
      rcases List.mem_cons.mp ha with rfl | ha
      · rcases (hn b).mp hb with rfl | hb
        · exact Or.inl h
        · exact Or.inr (Or.inr ⟨b, hb, h⟩)
      · exact Or.inr (Or.inl ⟨a, ha, b, hb, h⟩)
    · rintro (h | ⟨a, ha, r⟩ | ⟨b, hb, h⟩)
      · exact ⟨s.name, by simp [StatInfo.names], o.name, by simp [StatInfo.names], h⟩
      · exact ⟨a, by simp [StatInfo.names, ha], r⟩
      · exact ⟨s.name, by simp [StatInfo.names], b, (hn b).mpr (Or.inr hb), h⟩
  rw [hs, ← altLoop_iff, ← anySimi_iff]
  simp only [StatInfo.simi]
  cases simi s.name o.name <;> cases altLoop simi o s.alts <;> cases anySimi simi s.name o.alts <;> simp

/-- C26. No match with a missing station info, and the relation is symmetric and
reflexive (with the station name similarity of the program). -/
theorem C26_symm (ed : Str → Str → Nat) (hs : ∀ a b, ed a b = ed b a) :
    (∀ s : StatInfo, s.simi (statSimi ed) none = false) ∧
    (∀ s : StatInfo, s.simi (statSimi ed) (some s) = true) ∧
    ∀ s o : StatInfo, s.simi (statSimi ed) (some o) = o.simi (statSimi ed) (some s) := by
  refine ⟨fun _ => rfl, fun s => ?_, fun s o => ?_⟩
  · exact (C26_iff _ _ _).mpr ⟨s.name, by simp [StatInfo.names], s.name, by simp [StatInfo.names],
      (C25_stat_refl_symm ed hs).1 _⟩
  · rw [Bool.eq_iff_iff, C26_iff, C26_iff]
    constructor
    · rintro ⟨a, ha, b, hb, h⟩
      exact ⟨b, hb, a, ha, by rw [(C25_stat_refl_symm ed hs).2]; exact h⟩
    · rintro ⟨a, ha, b, hb, h⟩
      exact ⟨b, hb, a, ha, by rw [(C25_stat_refl_symm ed hs).2]; exact h⟩

example : StatInfo.simi lineSimi ⟨[65], [[66], [67]]⟩ (some ⟨[68], [[69], [67, 32, 70]]⟩) = true := by decide
example : StatInfo.simi lineSimi ⟨[65], [[66], [67]]⟩ (some ⟨[68], [[69], [67, 70]]⟩) = false := by decide

/-! ### C27: destinations -/

/-- Strictly ascending: sorted and without duplicates. -/
def Ascending (l : List Str) : Prop := l.Pairwise (· < ·)

theorem mem_insertTo (l x : Str) (ls : List Str) : x ∈ insertTo l ls ↔ x = l ∨ x ∈ ls := by
  induction ls with
  | nil => simp [insertTo]
  | cons y ys ih =>
    simp only [insertTo]
    split
    · simp only [List.mem_cons, ih]
      constructor
      · rintro (h | h | h) <;> simp [h]
      · rintro (h | h | h) <;> simp [h]
    · split
      · rename_i _ h; subst h; simp
      · simp

theorem insertTo_asc (l : Str) (ls : List Str) (h : Ascending ls) : Ascending (insertTo l ls) := by
  induction ls with
  | nil => simp [insertTo, Ascending]
  | cons y ys ih =>
    have hp := List.pairwise_cons.mp h
    simp only [insertTo]
    split
    · rename_i hlt
      refine List.pairwise_cons.mpr ⟨?_, ih hp.2⟩
      intro z hz
      rcases (mem_insertTo l z ys).mp hz with rfl | hz
      · exact hlt
      · exact hp.1 z hz
    · rename_i hlt
      split
      · exact h
      · rename_i hne
        have hly : l < y := by
          rcases lt_tri l y with h | h | h
          · exact h
          · exact absurd h.symm hne
          · exact absurd h hlt
        refine List.pairwise_cons.mpr ⟨?_, h⟩
        intro z hz
        rcases List.mem_cons.mp hz with rfl | hz
        · exact hly
        · exact List.lt_trans hly (hp.1 z hz)

theorem foldl_insertTo (ls acc : List Str) (h : Ascending acc) :
    Ascending (ls.foldl (fun acc l => insertTo l acc) acc) ∧
    ∀ x, x ∈ ls.foldl (fun acc l => insertTo l acc) acc ↔ x ∈ acc ∨ x ∈ ls := by
  induction ls generalizing acc with
  | nil => exact ⟨h, by simp⟩
  | cons l ls ih =>
    obtain ⟨h1, h2⟩ := ih (insertTo l acc) (insertTo_asc l acc h)
    refine ⟨h1, fun x => ?_⟩
    simp only [List.foldl_cons, h2, mem_insertTo, List.mem_cons]
    constructor
    · rintro ((h | h) | h) <;> simp [h]
    · rintro (h | h | h) <;> simp [h]

theorem asc_ext (a b : List Str) (ha : Ascending a) (hb : Ascending b) (h : ∀ x, x ∈ a ↔ x ∈ b) :
    a = b := by
  induction a generalizing b with
  | nil =>
    cases b with
    | nil => rfl
    | cons y ys => exact absurd ((h y).mpr (by simp)) (by simp)
  | cons x xs ih =>
    cases b with
    | nil => exact absurd ((h x).mp (by simp)) (by simp)
    | cons y ys =>
      have pa := List.pairwise_cons.mp ha
      have pb := List.pairwise_cons.mp hb
      have hxy : x = y := by
        rcases List.mem_cons.mp ((h x).mp (by simp)) with e | e
        · exact e
        · rcases List.mem_cons.mp ((h y).mpr (by simp)) with e' | e'
          · exact e'.symm
          · exact absurd (List.lt_trans (pa.1 y e') (pb.1 x e)) (List.lt_irrefl x)
      subst hxy
      congr 1
      apply ih ys pa.2 pb.2
      intro z
      have hz := h z
      simp only [List.mem_cons] at hz
      constructor
      · intro hm
        rcases hz.mp (Or.inr hm) with rfl | e
        · exact absurd (pa.1 z hm) (List.lt_irrefl z)
        · exact e
      · intro hm
        rcases hz.mpr (Or.inr hm) with rfl | e
        · exact absurd (pb.1 z hm) (List.lt_irrefl z)
        · exact e

/-- C27. Merging any attributes into one whose destinations are ascending (a single
destination is) leaves exactly the set of all their destinations, ascending and without
duplicates, and does not touch line name and origin. -/
theorem C27_merge_set (r : RAttrs) (hr : Ascending r.lineTo) (os : List RAttrs) :
    let m := os.foldl RAttrs.merge r
    Ascending m.lineTo ∧ (∀ x, x ∈ m.lineTo ↔ x ∈ r.lineTo ∨ ∃ o ∈ os, x ∈ o.lineTo) ∧
      m.lineFrom = r.lineFrom ∧ m.shortName = r.shortName := by
  induction os generalizing r with
  | nil => exact ⟨hr, by simp, rfl, rfl⟩
  | cons o os ih =>
    obtain ⟨f1, f2⟩ := foldl_insertTo o.lineTo r.lineTo hr
    obtain ⟨h1, h2, h3, h4⟩ := ih (r.merge o) f1
    refine ⟨h1, fun x => ?_, h3, h4⟩
    simp only [List.foldl_cons]
    rw [h2]
    have : x ∈ (r.merge o).lineTo ↔ x ∈ r.lineTo ∨ x ∈ o.lineTo := f2 x
    rw [this]
    simp only [List.mem_cons]
    constructor
    · rintro ((h | h) | ⟨o', h, h'⟩)
      · exact Or.inl h
      · exact Or.inr ⟨o, Or.inl rfl, h⟩
      · exact Or.inr ⟨o', Or.inr h, h'⟩
    · rintro (h | ⟨o', rfl | h, h'⟩)
      · exact Or.inl (Or.inl h)
      · exact Or.inl (Or.inr h')
      · exact Or.inr ⟨o', h, h'⟩

/-- C27. The merged destinations do not depend on the order of the merges. -/
theorem C27_merge_order (r : RAttrs) (hr : Ascending r.lineTo) (os os' : List RAttrs)
    (h : os.Perm os') : (os.foldl RAttrs.merge r).lineTo = (os'.foldl RAttrs.merge r).lineTo := by
  obtain ⟨a1, a2, _⟩ := C27_merge_set r hr os
  obtain ⟨b1, b2, _⟩ := C27_merge_set r hr os'
  apply asc_ext _ _ a1 b1
  intro x
  rw [a2, b2]
  have : (∃ o ∈ os, x ∈ o.lineTo) ↔ ∃ o ∈ os', x ∈ o.lineTo :=
    ⟨fun ⟨o, ho, hx⟩ => ⟨o, h.mem_iff.mp ho, hx⟩, fun ⟨o, ho, hx⟩ => ⟨o, h.mem_iff.mpr ho, hx⟩⟩
  rw [this]

/-- C27. Grouping is by line name and origin: two attributes are equivalent in the
order used for grouping iff these agree, which is also what `==` says, and the order is
a strict weak order (so the clustering theorems apply). -/
theorem C27_grouping (a b : RAttrs) :
    ((a.lt b = false ∧ b.lt a = false) ↔ a.lineFrom = b.lineFrom ∧ a.shortName = b.shortName) ∧
    (a.eq b = true ↔ a.lineFrom = b.lineFrom ∧ a.shortName = b.shortName) := by
  constructor
  · simp only [RAttrs.lt, Bool.or_eq_false_iff, Bool.and_eq_false_iff, decide_eq_false_iff_not,
      beq_eq_false_iff_ne]
    constructor
    · rintro ⟨⟨h1, h2⟩, h3, h4⟩
      have e1 : a.lineFrom = b.lineFrom := by
        rcases lt_tri a.lineFrom b.lineFrom with h | h | h
        · exact absurd h h1
        · exact h
        · exact absurd h h3
      refine ⟨e1, ?_⟩
      have h2 := h2.resolve_left (fun h => h e1)
      have h4 := h4.resolve_left (fun h => h e1.symm)
      rcases lt_tri a.shortName b.shortName with h | h | h
      · exact absurd h h2
      · exact h
      · exact absurd h h4
    · rintro ⟨h1, h2⟩
      rw [h1, h2]
      exact ⟨⟨List.lt_irrefl _, Or.inr (List.lt_irrefl _)⟩, List.lt_irrefl _, Or.inr (List.lt_irrefl _)⟩
  · simp only [RAttrs.eq, Bool.and_eq_true, beq_iff_eq]
    exact And.comm

theorem C27_strict_weak : Trie.StrictWeak RAttrs.lt := by
  have key : ∀ a b : RAttrs, a.lt b = true ↔
      a.lineFrom < b.lineFrom ∨ (a.lineFrom = b.lineFrom ∧ a.shortName < b.shortName) := by
    intro a b; simp [RAttrs.lt]
  refine ⟨?_, ?_, ?_⟩
  · intro a
    rw [Bool.eq_false_iff, ne_eq, key]
    rintro (h | ⟨_, h⟩) <;> exact List.lt_irrefl _ h
  · intro a b c
    rw [key, key, key]
    rintro (h | ⟨h, h'⟩) (g | ⟨g, g'⟩)
    · exact Or.inl (List.lt_trans h g)
    · exact Or.inl (g ▸ h)
    · exact Or.inl (h ▸ g)
    · exact Or.inr ⟨h.trans g, List.lt_trans h' g'⟩
  · intro a b c
    rw [key, key, key]
    rintro (h | ⟨h, h'⟩)
    · rcases lt_tri a.lineFrom c.lineFrom with g | g | g
      · exact Or.inl (Or.inl g)
      · exact Or.inr (Or.inl (g ▸ h))
      · exact Or.inr (Or.inl (List.lt_trans g h))
    · rcases lt_tri a.lineFrom c.lineFrom with g | g | g
      · exact Or.inl (Or.inl g)
      · rcases lt_tri a.shortName c.shortName with k | k | k
        · exact Or.inl (Or.inr ⟨g, k⟩)
        · exact Or.inr (Or.inr ⟨g ▸ h, k ▸ h'⟩)
        · exact Or.inr (Or.inr ⟨g ▸ h, List.lt_trans k h'⟩)
      · exact Or.inr (Or.inl (h ▸ g))

/-! ### C27: similarity and its memo -/

/-- What the similarity should be: a function of the attributes alone. -/
def specSimi (similar : Str → Str → Bool) (line : TLine) (r : RAttrs) : LineSim :=
  if line.shortName = [] ∧ line.toStr = [] ∧ line.fromStr = [] then ⟨true, true, true⟩
  else
    { name := decide (r.shortName = [] ∨ lineSimi line.shortName r.shortName = true)
      fr := decide (r.lineFrom = [] ∨ similar line.fromStr r.lineFrom = true)
      to := decide (r.lineTo = [] ∨ ∃ l ∈ r.lineTo, l = [] ∨ similar line.toStr l = true) }

/-- The operations on attributes: merge others in, or ask for the similarity to a line. -/
inductive AOp where
  | merge (o : RAttrs)
  | query (p : Nat)

def aexec (similar : Str → Str → Bool) (lines : Nat → TLine) (r : RAttrs) : AOp → RAttrs
  | .merge o => r.merge o
  | .query p => (r.simi similar lines p).2

/-- The memo holds correct results. -/
def CacheOK (similar : Str → Str → Bool) (lines : Nat → TLine) (r : RAttrs) : Prop :=
  ∀ p s, r.cache.lookup p = some s → s = specSimi similar (lines p) r

theorem toLoop_iff (similar : Str → Str → Bool) (t : Str) (ls : List Str) :
    toLoop similar t ls = true ↔ ∃ l ∈ ls, l = [] ∨ similar t l = true := by
  induction ls with
  | nil => simp [toLoop]
  | cons l ls ih =>
    simp only [toLoop]
    by_cases h : (l.isEmpty || similar t l) = true
    · simp only [h, if_true, true_iff]
      simp only [Bool.or_eq_true, List.isEmpty_iff] at h
      exact ⟨l, by simp, h⟩
    · simp only [h]
      simp only [Bool.or_eq_true, List.isEmpty_iff] at h
      simp [ih, h]

theorem simi_ok (similar : Str → Str → Bool) (lines : Nat → TLine) (r : RAttrs)
    (h : CacheOK similar lines r) (p : Nat) :
    (r.simi similar lines p).1 = specSimi similar (lines p) r ∧
    CacheOK similar lines (r.simi similar lines p).2 ∧
    (r.simi similar lines p).2.lineTo = r.lineTo ∧ (r.simi similar lines p).2.lineFrom = r.lineFrom ∧
    (r.simi similar lines p).2.shortName = r.shortName := by
  unfold RAttrs.simi
  simp only
  by_cases h0 : ((lines p).shortName.isEmpty && (lines p).toStr.isEmpty && (lines p).fromStr.isEmpty) = true
  · simp only [h0, if_true]
    refine ⟨?_, h, by simp, by simp, by simp⟩
    simp only [Bool.and_eq_true, List.isEmpty_iff, and_assoc] at h0
    simp [specSimi, h0]
  · simp only [h0, Bool.false_eq_true, if_false]
    cases hc : r.cache.lookup p with
    | some s => exact ⟨h p s hc, h, rfl, rfl, rfl⟩
    | none =>
      have e : (⟨r.shortName.isEmpty || lineSimi (lines p).shortName r.shortName,
          r.lineFrom.isEmpty || similar (lines p).fromStr r.lineFrom,
          if r.lineTo.length = 0 then true else toLoop similar (lines p).toStr r.lineTo⟩ : LineSim) =
          specSimi similar (lines p) r := by
        simp only [Bool.and_eq_true, List.isEmpty_iff, and_assoc] at h0
        simp only [specSimi, h0, if_false, LineSim.mk.injEq]
        refine ⟨?_, ?_, ?_⟩
        · rw [Bool.eq_iff_iff]; simp
        · rw [Bool.eq_iff_iff]; simp
        · rw [Bool.eq_iff_iff]
          by_cases hl : r.lineTo = []
          · simp [hl]
          · simp [hl, toLoop_iff]
      refine ⟨e, ?_, rfl, rfl, rfl⟩
      intro q s hq
      simp only [List.lookup] at hq
      by_cases hqp : q = p
      · subst hqp
        simp only [beq_self_eq_true, Option.some.injEq] at hq
        rw [← hq, e]; rfl
      · have hb : (q == p) = false := by simp [hqp]
        simp only [hb] at hq
        exact h q s hq

/-- C27 (partial). As long as nothing is merged after the first query (this is how the
program uses it: tries are built before routing starts), the similarity is the function
of line name, origin and all merged destinations, whatever was asked before. Missing:
merges after queries, see `C27_negation`. -/
theorem C27_simi_partial (similar : Str → Str → Bool) (lines : Nat → TLine) (r : RAttrs)
    (hc : r.cache = []) (os : List RAttrs) (qs : List Nat) (p : Nat) :
    let r' := (os.map AOp.merge ++ qs.map AOp.query).foldl (aexec similar lines) r
    (r'.simi similar lines p).1 = specSimi similar (lines p) (os.foldl RAttrs.merge r) := by
  simp only [List.foldl_append]
  have h1 : (os.map AOp.merge).foldl (aexec similar lines) r = os.foldl RAttrs.merge r := by
    rw [List.foldl_map]; rfl
  rw [h1]
  generalize hm : os.foldl RAttrs.merge r = m
  have hmc : m.cache = [] := by
    rw [← hm]
    clear hm h1
    induction os generalizing r with
    | nil => exact hc
    | cons o os ih => exact ih (r.merge o) hc
  have key : ∀ (qs : List Nat) (x : RAttrs), CacheOK similar lines x →
      x.lineTo = m.lineTo → x.lineFrom = m.lineFrom → x.shortName = m.shortName →
      CacheOK similar lines ((qs.map AOp.query).foldl (aexec similar lines) x) ∧
      ∀ l, specSimi similar l ((qs.map AOp.query).foldl (aexec similar lines) x) = specSimi similar l m := by
    intro qs
    induction qs with
    | nil => intro x h e1 e2 e3; exact ⟨h, fun l => by simp [specSimi, e1, e2, e3]⟩
    | cons q qs ih =>
      intro x h e1 e2 e3
      obtain ⟨_, g2, g3, g4, g5⟩ := simi_ok similar lines x h q
      exact ih _ g2 (g3.trans e1) (g4.trans e2) (g5.trans e3)
  obtain ⟨k1, k2⟩ := key qs m (by intro p s h; rw [hmc] at h; cases h) rfl rfl rfl
  rw [(simi_ok similar lines _ k1 p).1, k2]

/-- C27, negation of the unrestricted claim: a query before a merge fixes the answer for
this line. The line goes to "B" (66); the attributes first know destination "A" (65) only. -/
theorem C27_negation :
    ∃ (lines : Nat → TLine) (r o : RAttrs) (p : Nat),
      let similar : Str → Str → Bool := fun a b => decide (a = b)
      let r' := [AOp.query p, AOp.merge o].foldl (aexec similar lines) r
      r.cache = [] ∧ (r'.simi similar lines p).1 ≠ specSimi similar (lines p) r' :=
  ⟨fun _ => ⟨[67], [66], [49]⟩, ⟨[67], [[65]], [49], []⟩, ⟨[67], [[66]], [49], []⟩, 0,
    rfl, by decide⟩

/-- C27, finding. In the program the destinations of all trips of a group but the first
never reach the trie: every node of every trie of a group has exactly the destinations of
the first trip of the group (clustering passes the group's key, ShapeBuilder.cpp:915, 923). -/
theorem C27_program_loses_destinations {T P : Type} [DecidableEq T] (c : Trie.CEnv T P RAttrs)
    (hnear : ∀ p, c.near p p = true) (hlt : c.lt = RAttrs.lt) (hm : c.merge = RAttrs.merge)
    (hone : ∀ t, ∃ d, (c.rAttrs t).lineTo = [d]) (feed : List T) (n : Nat) (hn : 0 < n) :
    ∃ s, Trie.cinit c n feed = some s ∧ ∀ sched, ∃ s', Trie.crun c (Trie.groupTrips c feed) sched s = some s' ∧
      ∀ (g : Nat) key ts f, (Trie.groupTrips c feed)[g]? = some (key, ts) → s'.forests[g]? = some f →
        ∃ t0 rest, ts = t0 :: rest ∧ ∀ tr ∈ f, ∀ (i : Nat) nd, i ≠ 0 → tr.nds[i]? = some nd →
          nd.attrs.lineTo = (c.rAttrs t0).lineTo := by
  obtain ⟨s, h1, h2⟩ := Trie.C27_cluster_first_attrs c hnear (hlt ▸ C27_strict_weak) feed n hn
  refine ⟨s, h1, fun sched => ?_⟩
  obtain ⟨s', g1, g2⟩ := h2 sched
  refine ⟨s', g1, ?_⟩
  intro g key ts f e1 e2
  obtain ⟨⟨t0, rest, q1, q2⟩, q3⟩ := g2 g key ts f e1 e2
  refine ⟨t0, rest, q1, ?_⟩
  intro tr htr i nd h0 hnd
  obtain ⟨m, hm'⟩ := q3 tr htr i nd h0 hnd
  obtain ⟨d, hd⟩ := hone t0
  rw [hm', hm, q2]
  have ha : Ascending (c.rAttrs t0).lineTo := by rw [hd]; simp [Ascending]
  obtain ⟨a1, a2, _⟩ := C27_merge_set (c.rAttrs t0) ha (List.replicate m (c.rAttrs t0))
  apply asc_ext _ _ a1 ha
  intro x
  rw [a2]
  constructor
  · rintro (h | ⟨o, ho, h⟩)
    · exact h
    · rw [List.eq_of_mem_replicate ho] at h; exact h
  · exact Or.inl

example : (([⟨[67], [[66]], [49], []⟩, ⟨[67], [[65]], [49], []⟩, ⟨[67], [[66]], [49], []⟩] : List RAttrs).foldl
    RAttrs.merge ⟨[67], [[68]], [49], []⟩).lineTo = [[65], [66], [68]] := by decide

end Verif.Names
