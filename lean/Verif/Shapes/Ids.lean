import Verif.Shapes.Container

/-!
# Fresh shape ids (model)

Models `ShapeBuilder::getFreeShapeId`, `src/pfaedle/router/ShapeBuilder.cpp:604-615`.
The counter `_curShpCnt` (`size_t`) is a `Nat`: it would take 2^64 calls to wrap.
-/

namespace Verif.Shapes

/-- Decimal digits of `n`, `fuel > n`. -/
def digitsF : Nat → Nat → Str
  | 0, _ => []
  | fuel + 1, n => if n < 10 then [48 + n] else digitsF fuel (n / 10) ++ [48 + n % 10]

/-- `std::to_string` of an unsigned number: decimal digits. -/
def digits (n : Nat) : Str := digitsF (n + 1) n

/-- ShapeBuilder.cpp:609-611: `"shp_" + type + "_" + counter`. -/
def shapeId (type n : Nat) : Str := [115, 104, 112, 95] ++ digits type ++ [95] ++ digits n

/-- ShapeBuilder.cpp:607-612, the loop; `fuel` bounds the number of rounds. -/
def freeLoop (ids : List Str) (type : Nat) : Nat → Nat → Option (Str × Nat)
  | 0, _ => none
  | fuel + 1, cnt =>
    let cnt := cnt + 1
    let ret := shapeId type cnt
    if ret ∈ ids then freeLoop ids type fuel cnt else some (ret, cnt)

/-- ShapeBuilder.cpp:604-615 `getFreeShapeId`: id and new counter. -/
def getFreeShapeId (c : Container) (type cnt : Nat) : Option (Str × Nat) :=
  freeLoop c.ids type (c.ids.length + 1) cnt

/-! ## Lemmas -/

theorem digitsF_fuel : ∀ f f' n, n < f → n < f' → digitsF f n = digitsF f' n := by
  intro f
  induction f with
  | zero => intro f' n h; omega
  | succ f ih =>
    intro f' n h h'
    cases f' with
    | zero => omega
    | succ f' =>
      simp only [digitsF]
      split
      · rfl
      · rw [ih f' (n / 10) (by omega) (by omega)]

theorem digits_eq (n : Nat) :
    digits n = if n < 10 then [48 + n] else digits (n / 10) ++ [48 + n % 10] := by
  rw [show digits n = digitsF (n + 1) n from rfl, digitsF]
  split
  · rfl
  · rw [digitsF_fuel n (n / 10 + 1) (n / 10) (by omega) (by omega)]; rfl

/-- Value of a digit string. -/
def undigits (s : Str) : Nat := s.foldl (fun a b => 10 * a + (b - 48)) 0

theorem undigits_digits (n : Nat) : undigits (digits n) = n := by
  induction n using Nat.strongRecOn with
  | _ n ih =>
    rw [digits_eq]
    split
    · simp [undigits]
    · have := ih (n / 10) (by omega)
      unfold undigits at this ⊢
      rw [List.foldl_append, this]
      simp only [List.foldl_cons, List.foldl_nil]
      omega

theorem digits_inj {a b : Nat} (h : digits a = digits b) : a = b := by
  rw [← undigits_digits a, ← undigits_digits b, h]

theorem digits_mem {n : Nat} : ∀ b ∈ digits n, (48 : Nat) ≤ b ∧ (b : Nat) ≤ 57 := by
  induction n using Nat.strongRecOn with
  | _ n ih =>
    intro b hb
    rw [digits_eq] at hb
    split at hb
    · rw [List.mem_singleton] at hb; subst hb; show (48 : Nat) ≤ 48 + n ∧ 48 + n ≤ (57 : Nat); omega
    · rcases List.mem_append.mp hb with h | h
      · exact ih (n / 10) (by omega) b h
      · rw [List.mem_singleton] at h; subst h; show (48 : Nat) ≤ 48 + n % 10 ∧ 48 + n % 10 ≤ (57 : Nat); omega

theorem digits_ne_nil (n : Nat) : digits n ≠ [] := by
  rw [digits_eq]; split <;> simp

/-- A separator not occurring in the heads splits uniquely. -/
theorem split_unique {a a' : Str} {c : Byte} {b b' : Str} (ha : c ∉ a) (ha' : c ∉ a')
    (h : a ++ c :: b = a' ++ c :: b') : a = a' ∧ b = b' := by
  induction a generalizing a' with
  | nil =>
    cases a' with
    | nil => simp at h; exact ⟨rfl, h⟩
    | cons x a' => simp at h; simp [h.1] at ha'
  | cons x a ih =>
    cases a' with
    | nil => simp at h; simp [h.1] at ha
    | cons y a' =>
      simp only [List.cons_append, List.cons.injEq] at h
      have := ih (a' := a') (fun m => ha (by simp [m])) (fun m => ha' (by simp [m])) h.2
      exact ⟨by rw [h.1, this.1], this.2⟩

theorem no_sep (n : Nat) : (95 : Byte) ∉ digits n := fun h => by
  have := (digits_mem 95 h).2; exact absurd this (by decide)

/-- Shape ids determine type and number. -/
theorem shapeId_inj {t n t' n' : Nat} (h : shapeId t n = shapeId t' n') : t = t' ∧ n = n' := by
  unfold shapeId at h
  simp only [List.append_assoc, List.cons_append, List.nil_append, List.cons.injEq, true_and] at h
  obtain ⟨h1, h2⟩ := split_unique (no_sep t) (no_sep t') h
  exact ⟨digits_inj h1, digits_inj h2⟩

theorem shapeId_ne_nil (t n : Nat) : shapeId t n ≠ [] := by simp [shapeId]

/-- What a returned id looks like. -/
theorem freeLoop_spec {ids : List Str} {type : Nat} : ∀ fuel cnt id cnt',
    freeLoop ids type fuel cnt = some (id, cnt') →
    id ∉ ids ∧ cnt < cnt' ∧ id = shapeId type cnt' ∧
      ∀ m, cnt < m → m < cnt' → shapeId type m ∈ ids := by
  intro fuel
  induction fuel with
  | zero => intro cnt id cnt' h; simp [freeLoop] at h
  | succ fuel ih =>
    intro cnt id cnt' h
    simp only [freeLoop] at h
    split at h
    · rename_i hm
      obtain ⟨h1, h2, h3, h4⟩ := ih _ _ _ h
      refine ⟨h1, by omega, h3, fun m hm1 hm2 => ?_⟩
      by_cases e : m = cnt + 1
      · rw [e]; exact hm
      · exact h4 m (by omega) hm2
    · simp only [Option.some.injEq, Prod.mk.injEq] at h
      obtain ⟨rfl, rfl⟩ := h
      exact ⟨by assumption, by omega, rfl, fun m h1 h2 => by omega⟩

theorem freeLoop_none {ids : List Str} {type : Nat} : ∀ fuel cnt,
    freeLoop ids type fuel cnt = none → ∀ k, k < fuel → shapeId type (cnt + 1 + k) ∈ ids := by
  intro fuel
  induction fuel with
  | zero => intro cnt _ k hk; omega
  | succ fuel ih =>
    intro cnt h k hk
    simp only [freeLoop] at h
    split at h
    · rename_i hm
      cases k with
      | zero => exact hm
      | succ k =>
        have := ih _ h k (by omega)
        rwa [show cnt + 1 + (k + 1) = cnt + 1 + 1 + k by omega]
    · simp at h

/-- Pigeonhole for lists. -/
theorem length_le_of_subset {α : Type} [DecidableEq α] : ∀ {l l' : List α}, l.Nodup →
    (∀ x ∈ l, x ∈ l') → l.length ≤ l'.length := by
  intro l
  induction l with
  | nil => intros; simp
  | cons a l ih =>
    intro l' hn hs
    rw [List.nodup_cons] at hn
    have h1 : ∀ x ∈ l, x ∈ l'.erase a := fun x hx =>
      (List.mem_erase_of_ne (fun e : x = a => hn.1 (e ▸ hx))).mpr (hs x (by simp [hx]))
    have h2 := ih hn.2 h1
    have h3 := List.length_erase_of_mem (hs a (by simp))
    have h4 : 0 < l'.length := List.length_pos_of_mem (hs a (by simp))
    simp only [List.length_cons]
    omega

/-- The loop always finds a free id within `|ids| + 1` rounds. -/
theorem getFreeShapeId_total (c : Container) (type cnt : Nat) :
    ∃ id cnt', getFreeShapeId c type cnt = some (id, cnt') := by
  cases h : getFreeShapeId c type cnt with
  | some p => exact ⟨p.1, p.2, rfl⟩
  | none =>
    have hk := freeLoop_none _ _ h
    have hnd : ((List.range (c.ids.length + 1)).map fun k => shapeId type (cnt + 1 + k)).Nodup := by
      rw [List.nodup_iff_pairwise_ne, List.pairwise_map]
      refine List.Pairwise.imp ?_ List.nodup_range
      intro a b hab e
      have := (shapeId_inj e).2
      omega
    have := length_le_of_subset hnd (l' := c.ids) (by
      intro x hx
      obtain ⟨k, hk', rfl⟩ := List.mem_map.mp hx
      exact hk k (List.mem_range.mp hk'))
    simp at this
    omega

end Verif.Shapes
