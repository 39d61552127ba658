import Verif.Shapes.Container

/-! # Shape container: lemmas -/

namespace Verif.Shapes

theorem le_length (k n : Nat) : (le k n).length = k := by
  induction k generalizing n with
  | zero => rfl
  | succ k ih => simp [le, ih]

theorem unle_le (k n : Nat) : unle (le k n) = n % 256 ^ k := by
  induction k generalizing n with
  | zero => simp [le, unle, Nat.mod_one]
  | succ k ih =>
    simp only [le, unle, ih]
    rw [Nat.pow_succ, Nat.mul_comm (256 ^ k) 256, Nat.mod_mul]

theorem readN_append (a b : List Byte) : readN a.length (a ++ b) = some (a, b) := by
  unfold readN
  simp

theorem readN_append' {k : Nat} {a : List Byte} (b : List Byte) (h : a.length = k) :
    readN k (a ++ b) = some (a, b) := by
  subst h; exact readN_append a b

/-- An id the text part of the format can carry. -/
def GoodId (id : Str) : Prop := id ≠ [] ∧ ∀ b ∈ id, isSpace b = false

/-- A point whose fields have the fixed widths. -/
def GoodPt (w : Widths) (p : Point) : Prop :=
  p.lat.length = w.lat ∧ p.lng.length = w.lng ∧ p.dist.length = w.dist

/-- A storable shape. -/
def GoodShape (w : Widths) (s : Shape) : Prop :=
  GoodId s.id ∧ s.pts ≠ [] ∧ s.pts.length < 256 ^ 8 ∧ ∀ p ∈ s.pts, GoodPt w p

theorem takeWhile_id (id : Str) (t : List Byte) (h : ∀ b ∈ id, isSpace b = false) :
    (id ++ 32 :: t).takeWhile (fun b => !isSpace b) = id ∧
    (id ++ 32 :: t).dropWhile (fun b => !isSpace b) = 32 :: t := by
  induction id with
  | nil => simp [isSpace]
  | cons a id ih =>
    have ha := h a (by simp)
    have := ih (fun b hb => h b (by simp [hb]))
    simp [ha, this.1, this.2]

theorem readId_spec (id : Str) (t : List Byte) (h : GoodId id) :
    readId (id ++ 32 :: t) = some (id, t) := by
  obtain ⟨hne, hs⟩ := h
  have hd : (id ++ 32 :: t).dropWhile isSpace = id ++ 32 :: t := by
    cases id with
    | nil => exact absurd rfl hne
    | cons a id => simp [hs a (by simp)]
  unfold readId
  simp only [hd, (takeWhile_id id t hs).1, (takeWhile_id id t hs).2, hne, if_false]

theorem readPt_spec (w : Widths) (p : Point) (h : GoodPt w p) (t : List Byte) :
    readPt w (encPt p ++ t) = some (p, t) := by
  obtain ⟨h1, h2, h3⟩ := h
  unfold readPt encPt
  rw [List.append_assoc, List.append_assoc, readN_append' _ h1]
  simp only
  rw [readN_append' _ h2]
  simp only
  rw [readN_append' _ h3]

/-- Rows of a list of points starting at sequence number `k + 1`. -/
def rowsFrom (id : Str) : Nat → List Point → List Row
  | _, [] => []
  | k, p :: ps => ⟨id, p, k + 1⟩ :: rowsFrom id (k + 1) ps

/-- `Steps w r rows r'`: running the loop body from `r` yields `rows`, then the
position is `r'`. -/
inductive Steps (w : Widths) : Rd → List Row → Rd → Prop where
  | nil (r) : Steps w r [] r
  | cons {r row r' rows r''} : stepPt w r = some (row, r') → Steps w r' rows r'' →
      Steps w r (row :: rows) r''

theorem Steps.trans {w r rows r' rows' r''} (h : Steps w r rows r') (h' : Steps w r' rows' r'') :
    Steps w r (rows ++ rows') r'' := by
  induction h with
  | nil => exact h'
  | cons hs _ ih => exact .cons hs (ih h')

/-- The remaining points of a shape whose header has been read. -/
theorem steps_pts (w : Widths) (id : Str) (mx : Nat) (t : List Byte) (ps : List Point) :
    ∀ k, 0 < k → k + ps.length = mx → ps ≠ [] → (∀ p ∈ ps, GoodPt w p) →
    Steps w ⟨k, mx, id, ps.flatMap encPt ++ t⟩ (rowsFrom id k ps) ⟨0, mx, id, t⟩ := by
  induction ps with
  | nil => intro k _ _ h; exact absurd rfl h
  | cons p ps ih =>
    intro k hk hmx _ hg
    have hp := readPt_spec w p (hg p (by simp)) (ps.flatMap encPt ++ t)
    have hstep : stepPt w ⟨k, mx, id, (p :: ps).flatMap encPt ++ t⟩ =
        some (⟨id, p, k + 1⟩, ⟨if k + 1 = mx then 0 else k + 1, mx, id,
          ps.flatMap encPt ++ t⟩) := by
      have hk0 : k ≠ 0 := by omega
      simp only [stepPt, header, hk0, if_false, List.flatMap_cons, List.append_assoc, hp]
    refine .cons hstep ?_
    simp only [List.length_cons] at hmx
    cases ps with
    | nil =>
      have : k + 1 = mx := by simpa using hmx
      simp only [this, if_true, List.flatMap_nil, List.nil_append, rowsFrom]
      exact .nil _
    | cons q qs =>
      have hne : ¬ (k + 1 = mx) := by simp only [List.length_cons] at hmx; omega
      simp only [hne, if_false]
      exact ih (k + 1) (by omega) (by omega) (by simp) (fun p hp => hg p (by simp [hp]))

/-- A complete stored shape. -/
theorem steps_shape (w : Widths) (s : Shape) (hs : GoodShape w s) (mx : Nat) (cid : Str)
    (t : List Byte) : Steps w ⟨0, mx, cid, encShape s ++ t⟩ (rowsFrom s.id 0 s.pts)
      ⟨0, s.pts.length, s.id, t⟩ := by
  obtain ⟨hid, hne, hlen, hg⟩ := hs
  have hh : header ⟨0, mx, cid, encShape s ++ t⟩ =
      some ⟨0, s.pts.length, s.id, s.pts.flatMap encPt ++ t⟩ := by
    unfold header encShape
    have e : s.id ++ [32] ++ le 8 s.pts.length ++ s.pts.flatMap encPt ++ t =
        s.id ++ 32 :: (le 8 s.pts.length ++ (s.pts.flatMap encPt ++ t)) := by
      simp [List.append_assoc]
    simp only [if_true, e, readId_spec _ _ hid]
    rw [readN_append' _ (le_length 8 s.pts.length)]
    simp only [unle_le, Nat.mod_eq_of_lt hlen]
  cases hp : s.pts with
  | nil => exact absurd hp hne
  | cons p ps =>
    rw [hp] at hh hg
    have hpt := readPt_spec w p (hg p (by simp)) (ps.flatMap encPt ++ t)
    have hstep : stepPt w ⟨0, mx, cid, encShape s ++ t⟩ = some (⟨s.id, p, 0 + 1⟩,
        ⟨if 0 + 1 = (p :: ps).length then 0 else 0 + 1, (p :: ps).length, s.id,
          ps.flatMap encPt ++ t⟩) := by
      simp only [stepPt, hh, List.flatMap_cons, List.append_assoc, hpt]
    refine .cons hstep ?_
    cases ps with
    | nil =>
      simp only [List.length_cons, List.length_nil, if_true, List.flatMap_nil, List.nil_append,
        rowsFrom]
      exact .nil _
    | cons q qs =>
      have hn : ¬ (0 + 1 = (p :: q :: qs).length) := by simp
      simp only [hn, if_false]
      exact steps_pts w s.id _ t (q :: qs) (0 + 1) (by omega) (by simp; omega) (by simp)
        (fun p hp => hg p (by simp [hp]))

theorem steps_all (w : Widths) (ss : List Shape) (hs : ∀ s ∈ ss, GoodShape w s) (mx : Nat)
    (cid : Str) : ∃ r, Steps w ⟨0, mx, cid, ss.flatMap encShape⟩
      (ss.flatMap fun s => rowsFrom s.id 0 s.pts) r ∧ r.ptr = 0 ∧ r.rest = [] := by
  induction ss generalizing mx cid with
  | nil => exact ⟨_, .nil _, rfl, rfl⟩
  | cons s ss ih =>
    obtain ⟨r, h, h1, h2⟩ := ih (fun s h => hs s (by simp [h])) s.pts.length s.id
    exact ⟨r, (steps_shape w s (hs s (by simp)) mx cid _).trans h, h1, h2⟩

theorem stepPt_end (w : Widths) (r : Rd) (h1 : r.ptr = 0) (h2 : r.rest = []) :
    stepPt w r = none := by
  simp [stepPt, header, h1, h2, readId]

theorem nextPt_fuel {w : Widths} {ids : List Str} {r rows r'} (h : Steps w r rows r')
    (he : stepPt w r' = none) : ∀ f f', rows.length < f → rows.length < f' →
    nextPt w ids f r = nextPt w ids f' r := by
  induction h with
  | nil r =>
    intro f f' hf hf'
    obtain ⟨f, rfl⟩ : ∃ g, f = g + 1 := ⟨f - 1, by simp at hf; omega⟩
    obtain ⟨f', rfl⟩ : ∃ g, f' = g + 1 := ⟨f' - 1, by simp at hf'; omega⟩
    simp [nextPt, he]
  | cons hs _ ih =>
    intro f f' hf hf'
    simp only [List.length_cons] at hf hf'
    obtain ⟨f, rfl⟩ : ∃ g, f = g + 1 := ⟨f - 1, by omega⟩
    obtain ⟨f', rfl⟩ : ∃ g, f' = g + 1 := ⟨f' - 1, by omega⟩
    simp only [nextPt, hs]
    split
    · rfl
    · exact ih he f f' (by omega) (by omega)

theorem readAll_steps {w : Widths} {ids : List Str} {r rows r'} (h : Steps w r rows r')
    (he : stepPt w r' = none) : ∀ f, rows.length < f →
    readAll w ids f r = rows.filter (fun x => decide (x.id ∈ ids)) := by
  induction h with
  | nil r =>
    intro f hf
    obtain ⟨f, rfl⟩ : ∃ g, f = g + 1 := ⟨f - 1, by simp at hf; omega⟩
    simp [readAll, nextPt, he]
  | @cons r0 row r1 rows r2 hs hrest ih =>
    intro f hf
    simp only [List.length_cons] at hf
    obtain ⟨f, rfl⟩ : ∃ g, f = g + 1 := ⟨f - 1, by omega⟩
    by_cases hm : row.id ∈ ids
    · have : nextPt w ids (f + 1) r0 = some (row, r1) := by simp [nextPt, hs, hm]
      simp [readAll, this, hm, ih he f (by omega)]
    · have e : nextPt w ids (f + 1) r0 = nextPt w ids (f + 1) r1 := by
        have : nextPt w ids (f + 1) r0 = nextPt w ids f r1 := by simp [nextPt, hs, hm]
        rw [this]
        exact nextPt_fuel hrest he _ _ (by omega) (by omega)
      have e2 : readAll w ids (f + 1) r0 = readAll w ids (f + 1) r1 := by
        simp only [readAll, e]
      rw [e2, ih he (f + 1) (by omega)]
      simp [hm]

theorem rowsFrom_length (id : Str) (k : Nat) (ps : List Point) :
    (rowsFrom id k ps).length = ps.length := by
  induction ps generalizing k with
  | nil => rfl
  | cons p ps ih => simp [rowsFrom, ih]

theorem rowsFrom_id {id : Str} {k : Nat} {ps : List Point} {r : Row} (h : r ∈ rowsFrom id k ps) :
    r.id = id := by
  induction ps generalizing k with
  | nil => simp [rowsFrom] at h
  | cons p ps ih =>
    simp only [rowsFrom, List.mem_cons] at h
    rcases h with rfl | h
    · rfl
    · exact ih h

/-- Enough fuel: a stored shape has at least as many bytes as rows. -/
theorem encShape_length (w : Widths) (hw : 0 < w.lat + w.lng + w.dist) (s : Shape)
    (hs : ∀ p ∈ s.pts, GoodPt w p) : (rowsFrom s.id 0 s.pts).length ≤ (encShape s).length := by
  rw [rowsFrom_length]
  have : s.pts.length ≤ (s.pts.flatMap encPt).length := by
    generalize s.pts = ps at hs
    induction ps with
    | nil => simp
    | cons p ps ih =>
      have h1 := ih (fun p h => hs p (by simp [h]))
      obtain ⟨a, b, c⟩ := hs p (by simp)
      simp only [List.flatMap_cons, List.length_append, List.length_cons, encPt]
      omega
  simp only [encShape, List.length_append]
  omega

theorem rows_le_bytes (w : Widths) (hw : 0 < w.lat + w.lng + w.dist) (ss : List Shape)
    (hs : ∀ s ∈ ss, GoodShape w s) :
    (ss.flatMap fun s => rowsFrom s.id 0 s.pts).length ≤ (ss.flatMap encShape).length := by
  induction ss with
  | nil => simp
  | cons s ss ih =>
    have h1 := ih (fun s h => hs s (by simp [h]))
    have h2 := encShape_length w hw s (hs s (by simp)).2.2.2
    simp only [List.flatMap_cons, List.length_append]
    omega

/-- With non-empty ids the two memo variables are invisible. -/
theorem copyRows_eq (ids : List Str) (src : List Row) (hne : ∀ r ∈ src, r.id ≠ []) :
    ∀ cur skip, (cur = [] ∨ cur ∈ ids) → (skip = [] ∨ skip ∉ ids) →
    copyRows ids cur skip src = src.filter (fun r => decide (r.id ∈ ids)) := by
  induction src with
  | nil => intros; rfl
  | cons sp rest ih =>
    intro cur skip hc hs
    have ih := ih (fun r h => hne r (by simp [h]))
    have h0 := hne sp (by simp)
    unfold copyRows
    split
    · rename_i e
      have : sp.id ∉ ids := by
        rcases hs with h | h
        · exact absurd (e.trans h) h0
        · rw [e]; exact h
      simp [this, ih cur skip hc hs]
    · split
      · split
        · rename_i hm
          simp [hm, ih sp.id skip (Or.inr hm) hs]
        · rename_i hm
          simp [hm, ih cur sp.id hc (Or.inr hm)]
      · rename_i h1 h2
        have e : sp.id = cur := Classical.not_not.mp h2
        have : sp.id ∈ ids := by
          rcases hc with h | h
          · exact absurd (e.trans h) h0
          · rw [e]; exact h
        simp [this, ih cur skip hc hs]

end Verif.Shapes
