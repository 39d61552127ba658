/-!
# Finite maps

A small finite map (association list) used by several models for `std::map`,
`std::unordered_map` and the heap, where the order of the entries does not matter.
-/

namespace Verif

/-- Finite map from keys to values. -/
abbrev FMap (K V : Type) := List (K × V)

namespace FMap
variable {K V : Type} [DecidableEq K]

def get (m : FMap K V) (k : K) : Option V := (m.find? fun p => p.1 = k).map (·.2)
def erase (m : FMap K V) (k : K) : FMap K V := m.filter fun p => p.1 ≠ k
def put (m : FMap K V) (k : K) (v : V) : FMap K V := (k, v) :: erase m k
def keys (m : FMap K V) : List K := m.map (·.1)

/-- No key occurs twice. -/
def WF (m : FMap K V) : Prop := (keys m).Nodup

theorem get_nil (k : K) : get ([] : FMap K V) k = none := rfl

theorem get_cons (m : FMap K V) (p : K × V) (k : K) :
    get (p :: m) k = if p.1 = k then some p.2 else get m k := by
  by_cases h : p.1 = k <;> simp [get, h]

theorem get_erase (m : FMap K V) (k j : K) : get (erase m k) j = if j = k then none else get m j := by
  induction m with
  | nil => simp [erase, get]
  | cons p m ih =>
    by_cases h : p.1 = k
    · have : erase (p :: m) k = erase m k := by simp [erase, h]
      rw [this, ih, get_cons]
      by_cases hj : j = k
      · simp [hj]
      · have : ¬ p.1 = j := fun e => hj (e.symm.trans h)
        simp [hj, this]
    · have : erase (p :: m) k = p :: erase m k := by simp [erase, h]
      rw [this, get_cons, get_cons, ih]
      by_cases hj : j = k
      · have : ¬ p.1 = k := h
        simp [hj, this]
      · simp [hj]

theorem get_put (m : FMap K V) (k j : K) (v : V) :
    get (put m k v) j = if j = k then some v else get m j := by
  rw [put, get_cons, get_erase]
  by_cases h : j = k
  · simp [h]
  · have : ¬ k = j := fun e => h e.symm
    simp [h, this]

theorem mem_of_get {m : FMap K V} {k : K} {v : V} (h : get m k = some v) : (k, v) ∈ m := by
  simp only [get, Option.map_eq_some_iff] at h
  obtain ⟨p, hp, rfl⟩ := h
  have h1 := List.mem_of_find?_eq_some hp
  have h2 := List.find?_some hp
  simp only [decide_eq_true_eq] at h2
  rw [← h2]; exact h1

theorem get_eq_none_iff (m : FMap K V) (k : K) : get m k = none ↔ k ∉ keys m := by
  simp only [get, Option.map_eq_none_iff, List.find?_eq_none, decide_eq_true_eq, keys, List.mem_map,
    not_exists, not_and]

theorem get_of_mem {m : FMap K V} (w : WF m) {k : K} {v : V} (h : (k, v) ∈ m) : get m k = some v := by
  induction m with
  | nil => cases h
  | cons p m ih =>
    have w' := List.nodup_cons.mp w
    rw [get_cons]
    rcases List.mem_cons.mp h with rfl | h
    · simp
    · have : ¬ p.1 = k := by
        intro e
        exact w'.1 (List.mem_map.mpr ⟨(k, v), h, e.symm⟩)
      simp [this, ih w'.2 h]

omit [DecidableEq K] in
theorem WF.nil : WF ([] : FMap K V) := List.nodup_nil

theorem WF.erase {m : FMap K V} (w : WF m) (k : K) : WF (m.erase k) :=
  List.Sublist.nodup (List.Sublist.map _ List.filter_sublist) w

theorem WF.put {m : FMap K V} (w : WF m) (k : K) (v : V) : WF (m.put k v) := by
  refine List.nodup_cons.mpr ⟨?_, w.erase k⟩
  have := get_erase m k k
  simp only [if_true] at this
  exact (get_eq_none_iff _ _).mp this

theorem erase_of_get_none {m : FMap K V} {k : K} (h : get m k = none) : m.erase k = m := by
  rw [get_eq_none_iff] at h
  apply List.filter_eq_self.mpr
  intro p hp
  simp only [ne_eq, decide_eq_true_eq]
  intro e
  exact h (e ▸ List.mem_map.mpr ⟨p, hp, rfl⟩)

/-- Number of entries whose value satisfies a test. -/
def count (m : FMap K V) (f : V → Bool) : Nat := m.countP fun p => f p.2

theorem count_put (m : FMap K V) (k : K) (v : V) (f : V → Bool) :
    count (m.put k v) f = (if f v then 1 else 0) + count (m.erase k) f := by
  simp only [count, FMap.put, List.countP_cons]
  omega

theorem count_split {m : FMap K V} (w : WF m) {k : K} {v : V} (h : m.get k = some v) (f : V → Bool) :
    count m f = (if f v then 1 else 0) + count (m.erase k) f := by
  induction m with
  | nil => simp [FMap.get] at h
  | cons p m ih =>
    have w' := List.nodup_cons.mp w
    rw [get_cons] at h
    by_cases e : p.1 = k
    · simp only [e, if_true, Option.some.injEq] at h
      have hn : FMap.get m k = none := by rw [get_eq_none_iff, ← e]; exact w'.1
      have : FMap.erase (p :: m) k = m := by
        have : FMap.erase (p :: m) k = FMap.erase m k := by simp [FMap.erase, e]
        rw [this, erase_of_get_none hn]
      rw [this]
      simp only [count, List.countP_cons, h]
      omega
    · simp only [e, if_false] at h
      have : FMap.erase (p :: m) k = p :: FMap.erase m k := by simp [FMap.erase, e]
      rw [this]
      have := ih w'.2 h
      simp only [count, List.countP_cons] at this ⊢
      omega

theorem count_pos_iff {m : FMap K V} (w : WF m) (f : V → Bool) :
    0 < count m f ↔ ∃ k v, m.get k = some v ∧ f v = true := by
  simp only [count, List.countP_pos_iff]
  constructor
  · rintro ⟨⟨k, v⟩, hm, hf⟩
    exact ⟨k, v, get_of_mem w hm, hf⟩
  · rintro ⟨k, v, hg, hf⟩
    exact ⟨(k, v), mem_of_get hg, hf⟩

end FMap
end Verif
