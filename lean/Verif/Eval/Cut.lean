import Init.Data.Rat.Lemmas
/-!
# Cutting the shapes of a trip at its stops (shapevl)

Numbers are exact rationals. Only the pieces between two points of a line (`PolyLine::getSegment`), lengths and the
distance of two stops come from the missing library `util` and are parameters.
-/
namespace Verif.Eval

/-- A point (longitude, latitude). -/
abbrev Pt := Rat × Rat

/-- A line, Def.h `LINE`. -/
abbrev Ln := List Pt

/-- The functions of `util::geo` that are used. -/
structure Geo (S : Type) where
  /-- `PolyLine(shape).getSegment(a, b).getLine()`. -/
  seg : Ln → Pt → Pt → Ln
  /-- `latLngLen`. -/
  len : Ln → Rat
  /-- `haversine` of two stops. -/
  hav : S → S → Rat
  /-- `simplify(l, webMercDistFactor(p) * (0.5 / M_PER_DEG))`. -/
  simplify : Pt → Ln → Ln
  /-- `accFrechetDistCHav(_, _, segLen)`. -/
  accFd : Ln → Ln → Rat
  /-- `frechetDistHav(_, _, segLen)`. -/
  fd : Ln → Ln → Rat

/-- A stop time: the stop and `shape_dist_traveled` (negative if missing). -/
abbrev ST (S : Type) := S × Rat

/-- A shape: its points with `shape_dist_traveled`. -/
abbrev Shp := List (Pt × Rat)

/-- `std::upper_bound` as in libstdc++, called in Collector.cpp:269-270 and 287-288. The first number is only there for termination. -/
def ubLoop (d : List Rat) (v : Rat) : Nat → Nat → Nat → Nat
  | 0, first, _ => first
  | n + 1, first, len =>
    if len = 0 then first
    else
      let half := len / 2
      match d[first + half]? with
      | none => first
      | some m => if v < m then ubLoop d v n first half else ubLoop d v n (first + half + 1) (len - half - 1)

/-- See `ubLoop`. -/
def upperBound (d : List Rat) (v : Rat) : Nat := ubLoop d v d.length 0 d.length

/-- Collector.cpp:272-284 and 290-302: the point at measure `c`. `none`: undefined (empty shape). -/
def pointAt (shape : Ln) (d : List Rat) (c : Rat) : Option Pt :=
  let to := upperBound d c
  if to ≥ d.length then shape.getLast?
  else if to = 0 then shape.head?
  else
    match shape[to - 1]?, shape[to]?, d[to - 1]?, d[to]? with
    | some a, some b, some da, some db =>
      let progr := (c - da) / (db - da)
      some (a.1 + progr * (b.1 - a.1), a.2 + progr * (b.2 - a.2))
    | _, _, _, _ => none

/-- Collector.cpp:286-316. -/
def segLoop {S : Type} (g : Geo S) (shape : Ln) (d : List Rat) : Pt → ST S → List (ST S) → Option (List Ln × List (Rat × Rat))
  | _, _, [] => some ([], [])
  | lastP, prev, st :: rest =>
    match pointAt shape d st.2 with
    | none => none
    | some curP =>
      let curL := g.seg shape lastP curP
      match segLoop g shape d curP st rest with
      | none => none
      | some (segs, lens) => some (curL :: segs, (g.hav prev.1 st.1, g.len curL) :: lens)

/-- Collector.cpp:255-319. -/
def segmentize {S : Type} (g : Geo S) (sts : List (ST S)) (shape : Ln) (d : List Rat) : Option (List Ln × List (Rat × Rat)) :=
  match sts with
  | st :: st' :: rest =>
    match pointAt shape d st.2 with
    | none => none
    | some p => segLoop g shape d p st (st' :: rest)
  | _ => some ([], [])

/-! ## Specification -/

/-- `p` is the point of the shape at measure `c`: before the first point it is the first, after the last the last point, otherwise it divides
a part of the shape in the ratio of the measures. -/
def PointAt (s : Shp) (c : Rat) (p : Pt) : Prop :=
  (∃ a : Pt × Rat, s[0]? = some a ∧ c < a.2 ∧ p = a.1) ∨
  (∃ a : Pt × Rat, s[s.length - 1]? = some a ∧ a.2 ≤ c ∧ p = a.1) ∨
  (∃ (k : Nat) (a b : Pt × Rat) (r : Rat), s[k]? = some a ∧ s[k + 1]? = some b ∧ a.2 ≤ c ∧ c < b.2 ∧ 0 ≤ r ∧ r < 1 ∧
    c = a.2 + r * (b.2 - a.2) ∧ p = (a.1.1 + r * (b.1.1 - a.1.1), a.1.2 + r * (b.1.2 - a.1.2)))

/-- The measures of a shape do not decrease. -/
def Sorted (s : Shp) : Prop := ∀ (i j : Nat) (a b : Pt × Rat), s[i]? = some a → s[j]? = some b → i < j → a.2 ≤ b.2

/-- The points at which a trip is cut. -/
structure Cuts {S : Type} (s : Shp) (sts : List (ST S)) (ps : List Pt) : Prop where
  len : ps.length = sts.length
  at_ : ∀ (i : Nat) (st : ST S) (p : Pt), sts[i]? = some st → ps[i]? = some p → PointAt s st.2 p

/-! ## Lemmas -/

theorem ubLoop_spec (d : List Rat) (v : Rat) : ∀ (n first len : Nat), len ≤ n → first + len ≤ d.length →
    (∀ x, 0 < first → d[first - 1]? = some x → x ≤ v) → (∀ x, d[first + len]? = some x → v < x) →
    first ≤ ubLoop d v n first len ∧ ubLoop d v n first len ≤ first + len ∧
    (∀ x, 0 < ubLoop d v n first len → d[ubLoop d v n first len - 1]? = some x → x ≤ v) ∧
    (∀ x, d[ubLoop d v n first len]? = some x → v < x) := by
  intro n
  induction n with
  | zero =>
    intro first len h1 h2 h3 h4
    have : len = 0 := by omega
    subst this
    exact ⟨Nat.le_refl _, Nat.le_refl _, h3, h4⟩
  | succ n ih =>
    intro first len h1 h2 h3 h4
    rw [ubLoop]
    by_cases h0 : len = 0
    · subst h0
      rw [if_pos rfl]
      exact ⟨Nat.le_refl _, Nat.le_refl _, h3, h4⟩
    · rw [if_neg h0]
      have hlt : first + len / 2 < d.length := by omega
      simp only [List.getElem?_eq_getElem hlt]
      by_cases hv : v < d[first + len / 2]
      · rw [if_pos hv]
        obtain ⟨a, b, c, e⟩ := ih first (len / 2) (by omega) (by omega) h3
          (fun x hx => by rw [List.getElem?_eq_getElem hlt] at hx; cases hx; exact hv)
        exact ⟨a, by omega, c, e⟩
      · rw [if_neg hv]
        obtain ⟨a, b, c, e⟩ := ih (first + len / 2 + 1) (len - len / 2 - 1) (by omega) (by omega)
          (fun x _ hx => by
            rw [Nat.add_sub_cancel, List.getElem?_eq_getElem hlt] at hx; cases hx; exact Rat.not_lt.1 hv)
          (fun x hx => h4 x (by rw [← hx]; congr 1; omega))
        exact ⟨by omega, by omega, c, e⟩

theorem upperBound_spec (d : List Rat) (v : Rat) :
    upperBound d v ≤ d.length ∧ (∀ x, 0 < upperBound d v → d[upperBound d v - 1]? = some x → x ≤ v) ∧
    (∀ x, d[upperBound d v]? = some x → v < x) := by
  obtain ⟨_, a, b, c⟩ := ubLoop_spec d v d.length 0 d.length (Nat.le_refl _) (by omega) (fun _ h => absurd h (by omega))
    (fun x hx => by simp at hx)
  exact ⟨by unfold upperBound; omega, b, c⟩

theorem pointAt_spec (s : Shp) (c : Rat) (hs : s ≠ []) : ∃ p, pointAt (s.map (·.1)) (s.map (·.2)) c = some p ∧ PointAt s c p := by
  obtain ⟨h1, h2, h3⟩ := upperBound_spec (s.map (·.2)) c
  unfold pointAt
  generalize hto : upperBound (s.map (·.2)) c = to at h1 h2 h3 ⊢
  have hpos : 0 < s.length := List.length_pos_iff.2 hs
  simp only [List.length_map] at h1 ⊢
  by_cases hge : to ≥ s.length
  · rw [if_pos hge]
    have : to = s.length := by omega
    subst this
    have hl : s.length - 1 < s.length := by omega
    refine ⟨(s[s.length - 1]).1, ?_, .inr (.inl ⟨s[s.length - 1], List.getElem?_eq_getElem hl, ?_, rfl⟩)⟩
    · rw [List.getLast?_eq_getElem?, List.length_map, List.getElem?_map, List.getElem?_eq_getElem hl]; rfl
    · exact h2 _ hpos (by rw [List.getElem?_map, List.getElem?_eq_getElem hl]; rfl)
  · rw [if_neg hge]
    by_cases h0 : to = 0
    · rw [if_pos h0]
      subst h0
      refine ⟨(s[0]).1, ?_, .inl ⟨s[0], List.getElem?_eq_getElem hpos, ?_, rfl⟩⟩
      · rw [List.head?_eq_getElem?, List.getElem?_map, List.getElem?_eq_getElem hpos]; rfl
      · exact h3 _ (by rw [List.getElem?_map, List.getElem?_eq_getElem hpos]; rfl)
    · rw [if_neg h0]
      have ha : to - 1 < s.length := by omega
      have hb : to < s.length := by omega
      have e1 : (s.map (·.1))[to - 1]? = some (s[to - 1]).1 := by simp [ha]
      have e2 : (s.map (·.1))[to]? = some (s[to]).1 := by simp [hb]
      have e3 : (s.map (·.2))[to - 1]? = some (s[to - 1]).2 := by simp [ha]
      have e4 : (s.map (·.2))[to]? = some (s[to]).2 := by simp [hb]
      have g1 := h2 _ (by omega) e3
      have g2 := h3 _ e4
      simp only [e1, e2, e3, e4]
      have hp : 0 < (s[to]).2 - (s[to - 1]).2 := by grind
      refine ⟨_, rfl, .inr (.inr ⟨to - 1, s[to - 1], s[to], (c - (s[to - 1]).2) / ((s[to]).2 - (s[to - 1]).2),
        List.getElem?_eq_getElem ha, ?_, g1, g2, ?_, ?_, ?_, rfl⟩)⟩
      · rw [show to - 1 + 1 = to by omega]; exact List.getElem?_eq_getElem hb
      · exact Rat.not_lt.1 fun h => by have := (Rat.div_lt_iff hp).1 h; grind
      · exact (Rat.div_lt_iff hp).2 (by grind)
      · rw [Rat.div_mul_cancel (by grind)]; grind

theorem PointAt.ne_nil {s : Shp} {c : Rat} {p : Pt} (h : PointAt s c p) : s ≠ [] := by
  rintro rfl
  rcases h with ⟨a, h, _⟩ | ⟨a, h, _⟩ | ⟨k, a, b, r, h, _⟩ <;> simp at h

theorem segLoop_spec {S : Type} (g : Geo S) (s : Shp) (hs : s ≠ []) : ∀ (rest : List (ST S)) (prev : ST S) (p : Pt),
    ∃ segs lens ps, segLoop g (s.map (·.1)) (s.map (·.2)) p prev rest = some (segs, lens) ∧ Cuts s rest ps ∧
      segs.length = rest.length ∧ lens.length = rest.length ∧
      (∀ (i : Nat) (a b : Pt), (p :: ps)[i]? = some a → (p :: ps)[i + 1]? = some b → segs[i]? = some (g.seg (s.map (·.1)) a b)) ∧
      (∀ (i : Nat) (a b : ST S) (l : Ln), (prev :: rest)[i]? = some a → (prev :: rest)[i + 1]? = some b → segs[i]? = some l →
        lens[i]? = some (g.hav a.1 b.1, g.len l)) := by
  intro rest
  induction rest with
  | nil => exact fun prev p => ⟨[], [], [], rfl, ⟨rfl, by simp⟩, rfl, rfl, by simp, by simp⟩
  | cons st rest ih =>
    intro prev p
    obtain ⟨q, h1, h2⟩ := pointAt_spec s st.2 hs
    obtain ⟨segs, lens, ps, h3, h4, h5, h6, h7, h8⟩ := ih st q
    refine ⟨g.seg (s.map (·.1)) p q :: segs, (g.hav prev.1 st.1, g.len (g.seg (s.map (·.1)) p q)) :: lens, q :: ps, ?_,
      ⟨by simp [h4.len], ?_⟩, by simp [h5], by simp [h6], ?_, ?_⟩
    · rw [segLoop, h1]; simp only [h3]
    · intro i st' p' hi hp
      cases i with
      | zero => simp only [List.getElem?_cons_zero, Option.some.injEq] at hi hp; subst hi; subst hp; exact h2
      | succ i => exact h4.at_ i st' p' (by simpa using hi) (by simpa using hp)
    · intro i a b ha hb
      cases i with
      | zero => simp at ha hb; subst ha; subst hb; rfl
      | succ i => simp only [List.getElem?_cons_succ] at ha hb ⊢; exact h7 i a b ha (by simpa using hb)
    · intro i a b l ha hb hl
      cases i with
      | zero => simp at ha hb hl; subst ha; subst hb; subst hl; rfl
      | succ i => simp only [List.getElem?_cons_succ] at ha hb hl ⊢; exact h8 i a b l ha (by simpa using hb) hl

/-! ## Property C63 -/

/-- **C63 (cut).** A trip with at least two stops is cut into one segment per pair of consecutive stops; a segment begins where the one before
ends, at the point of the shape at the measure of the stop, and its length is noted with the distance of the two stops. The measures of the
shape need not be sorted. -/
theorem C63_cut {S : Type} (g : Geo S) (s : Shp) (hs : s ≠ []) (sts : List (ST S)) (h2 : 2 ≤ sts.length) :
    ∃ segs lens ps, segmentize g sts (s.map (·.1)) (s.map (·.2)) = some (segs, lens) ∧ Cuts s sts ps ∧
      segs.length = sts.length - 1 ∧ lens.length = sts.length - 1 ∧
      (∀ (i : Nat) (a b : Pt), ps[i]? = some a → ps[i + 1]? = some b → segs[i]? = some (g.seg (s.map (·.1)) a b)) ∧
      (∀ (i : Nat) (a b : ST S) (l : Ln), sts[i]? = some a → sts[i + 1]? = some b → segs[i]? = some l →
        lens[i]? = some (g.hav a.1 b.1, g.len l)) := by
  match sts, h2 with
  | st :: st' :: rest, _ =>
    obtain ⟨p, h1, h2⟩ := pointAt_spec s st.2 hs
    obtain ⟨segs, lens, ps, h3, h4, h5, h6, h7, h8⟩ := segLoop_spec g s hs (st' :: rest) st p
    refine ⟨segs, lens, p :: ps, ?_, ⟨by simp [h4.len], ?_⟩, by simpa using h5, by simpa using h6, h7, h8⟩
    · simp only [segmentize, h1, h3]
    · intro i st'' p' hi hp
      cases i with
      | zero => simp only [List.getElem?_cons_zero, Option.some.injEq] at hi hp; subst hi; subst hp; exact h2
      | succ i => exact h4.at_ i st'' p' (by simpa using hi) (by simpa using hp)

/-- **C63 (one point).** If the measures do not decrease, there is only one point at a measure. -/
theorem C63_unique (s : Shp) (hs : Sorted s) (c : Rat) (p q : Pt) (hp : PointAt s c p) (hq : PointAt s c q) : p = q := by
  have key : ∀ (c : Rat) (p q : Pt), PointAt s c p → PointAt s c q → p = q ∨ p = q := by
    intro c p q hp hq
    have h0 : ∀ (k : Nat) (a b : Pt × Rat), s[0]? = some a → s[k]? = some b → a.2 ≤ b.2 := by
      intro k a b h1 h2
      cases k with
      | zero => rw [h1] at h2; cases h2; exact Rat.le_refl
      | succ k => exact hs 0 (k + 1) a b h1 h2 (by omega)
    have hl : ∀ (k : Nat) (a b : Pt × Rat), s[k]? = some a → s[s.length - 1]? = some b → a.2 ≤ b.2 := by
      intro k a b h1 h2
      have hk : k < s.length := (List.getElem?_eq_some_iff.1 h1).1
      by_cases he : k = s.length - 1
      · subst he; rw [h1] at h2; cases h2; exact Rat.le_refl
      · exact hs k _ a b h1 h2 (by omega)
    rcases hp with ⟨a, p1, p2, p3⟩ | ⟨a, p1, p2, p3⟩ | ⟨k, a, b, r, p1, p2, p3, p4, p5, p6, p7, p8⟩ <;>
      rcases hq with ⟨a', q1, q2, q3⟩ | ⟨a', q1, q2, q3⟩ | ⟨k', a', b', r', q1, q2, q3, q4, q5, q6, q7, q8⟩
    · rw [p1] at q1; cases q1; left; rw [p3, q3]
    · have := h0 _ _ _ p1 q1; grind
    · have := h0 _ _ _ p1 q1; grind
    · have := h0 _ _ _ q1 p1; grind
    · rw [p1] at q1; cases q1; left; rw [p3, q3]
    · have := hl _ _ _ q2 p1; grind
    · have := h0 _ _ _ q1 p1; grind
    · have := hl _ _ _ p2 q1; grind
    · have hkk : k = k' := by
        rcases Nat.lt_trichotomy k k' with h | h | h
        · have : b.2 ≤ a'.2 := by
            by_cases he : k + 1 = k'
            · subst he; rw [p2] at q1; cases q1; exact Rat.le_refl
            · exact hs (k + 1) k' b a' p2 q1 (by omega)
          grind
        · exact h
        · have : b'.2 ≤ a.2 := by
            by_cases he : k' + 1 = k
            · subst he; rw [q2] at p1; cases p1; exact Rat.le_refl
            · exact hs (k' + 1) k b' a q2 p1 (by omega)
          grind
      subst hkk
      rw [p1] at q1; cases q1
      rw [p2] at q2; cases q2
      have : r * (b.2 - a.2) = r' * (b.2 - a.2) := by grind
      have hne : (b.2 - a.2) ≠ 0 := by grind
      have : r = r' := by
        have h := congrArg (· / (b.2 - a.2)) this
        simp only [Rat.mul_div_cancel hne] at h
        exact h
      subst this
      left; rw [p8, q8]
  exact (key c p q hp hq).elim id id

/-- **C63 (points of the shape).** A stop whose measure is that of a point of the shape, and smaller than the next one, is put there. -/
theorem C63_exact (s : Shp) (hs : Sorted s) (k : Nat) (a b : Pt × Rat) (ha : s[k]? = some a) (hb : s[k + 1]? = some b) (h : a.2 < b.2) :
    pointAt (s.map (·.1)) (s.map (·.2)) a.2 = some a.1 := by
  obtain ⟨p, h1, h2⟩ := pointAt_spec s a.2 (by rintro rfl; simp at ha)
  rw [h1]
  refine congrArg some (C63_unique s hs a.2 p a.1 h2 (.inr (.inr ⟨k, a, b, 0, ha, hb, Rat.le_refl, h, Rat.le_refl, by decide, by grind, ?_⟩)))
  ext <;> grind

/-- **C63 (limit).** An empty shape is undefined as soon as the trip has two stops. -/
theorem C63_limit_empty {S : Type} (g : Geo S) (a b : ST S) : segmentize g [a, b] [] [] = none := by
  simp [segmentize, pointAt, upperBound, ubLoop]

/-! ## Example -/

/-- A geometry for examples: pieces are their two ends, lengths are differences of longitudes. -/
def exGeo : Geo Nat where
  seg := fun _ a b => [a, b]
  len := fun l => match l.head?, l.getLast? with
    | some a, some b => b.1 - a.1
    | _, _ => 0
  hav := fun a b => (b : Rat) - (a : Rat)
  simplify := fun _ l => l
  accFd := fun a b => (b.map (·.2)).foldl max 0 - (a.map (·.2)).foldl max 0
  fd := fun a b => (b.map (·.2)).foldl max 0 - (a.map (·.2)).foldl max 0

def exShp : Shp := [((0, 0), 0), ((10, 0), 5), ((40, 0), 8)]

example : exShp ≠ [] ∧ Sorted exShp := by
  refine ⟨by simp [exShp], ?_⟩
  intro i j a b hi hj hij
  have h1 := (List.getElem?_eq_some_iff.1 hi).1
  have h2 := (List.getElem?_eq_some_iff.1 hj).1
  simp only [exShp, List.length_cons, List.length_nil] at h1 h2
  obtain rfl | rfl : j = 1 ∨ j = 2 := by omega
  · obtain rfl : i = 0 := by omega
    simp [exShp] at hi hj; subst hi; subst hj; decide +kernel
  · obtain rfl | rfl : i = 0 ∨ i = 1 := by omega
    · simp [exShp] at hi hj; subst hi; subst hj; decide +kernel
    · simp [exShp] at hi hj; subst hi; subst hj; decide +kernel

/-- Stops at the measures 1, 5, 6 and 9. -/
example : segmentize exGeo [(1, 1), (2, 5), (4, 6), (7, 9)] (exShp.map (·.1)) (exShp.map (·.2)) =
    some ([[(2, 0), (10, 0)], [(10, 0), (20, 0)], [(20, 0), (40, 0)]], [(1, 8), (2, 10), (3, 20)]) := by
  decide +kernel

end Verif.Eval
