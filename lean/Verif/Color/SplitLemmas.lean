import Verif.Color.SplitModel

/-!
# Splitting routes by colour (lemmas)
-/

namespace Verif.Color
open Verif.Shapes (Str digits digits_inj length_le_of_subset)

/-! ### free ids -/

theorem freeId_spec {ids : List Str} {id : Str} : ∀ fuel k s, freeId ids id fuel k = some s → s ∉ ids := by
  intro fuel
  induction fuel with
  | zero => intro k s h; cases h
  | succ fuel ih =>
    intro k s h
    rw [freeId] at h
    split at h
    · exact ih _ _ h
    · simp only [Option.some.injEq] at h; subst h; assumption

theorem freeId_none {ids : List Str} {id : Str} : ∀ fuel k, freeId ids id fuel k = none →
    ∀ i, i < fuel → splitId id (k + i) ∈ ids := by
  intro fuel
  induction fuel with
  | zero => intro k _ i hi; omega
  | succ fuel ih =>
    intro k h i hi
    rw [freeId] at h
    split at h
    · cases i with
      | zero => assumption
      | succ i =>
        have := ih _ h i (by omega)
        rwa [show k + (i + 1) = k + 1 + i by omega]
    · cases h

theorem splitId_inj {id : Str} {a b : Nat} (h : splitId id a = splitId id b) : a = b :=
  digits_inj (List.append_cancel_left h)

theorem freeId_total (ids : List Str) (id : Str) (k : Nat) :
    ∃ s, freeId ids id (ids.length + 1) k = some s ∧ s ∉ ids := by
  cases h : freeId ids id (ids.length + 1) k with
  | some s => exact ⟨s, rfl, freeId_spec _ _ _ h⟩
  | none =>
    exfalso
    have hk := freeId_none _ _ h
    have hnd : ((List.range (ids.length + 1)).map fun i => splitId id (k + i)).Nodup := by
      rw [List.nodup_iff_pairwise_ne, List.pairwise_map]
      refine List.Pairwise.imp ?_ List.nodup_range
      intro a b hab e
      have := splitId_inj e
      omega
    have := length_le_of_subset (l' := ids) hnd (by
      intro x hx
      obtain ⟨i, hi, rfl⟩ := List.mem_map.mp hx
      exact hk i (List.mem_range.mp hi))
    simp at this
    omega

/-! ### fare rules -/

variable {A B : Type}

theorem addRules_length (j : Nat) : ∀ (rules : List (Nat × Rule B)) fares, (addRules j rules fares).length = fares.length := by
  intro rules
  induction rules with
  | nil => intro fares; rfl
  | cons a rules ih => intro fares; rw [addRules, List.foldl_cons]; exact (ih _).trans (by simp)

theorem addRules_get (j : Nat) : ∀ (rules : List (Nat × Rule B)) fares (i : Nat),
    (addRules j rules fares)[i]? = fares[i]?.map fun f =>
      f ++ (rules.filter (fun a => a.1 = i)).map fun a => { a.2 with route := some j } := by
  intro rules
  induction rules with
  | nil =>
    intro fares i
    simp only [addRules, List.foldl_nil, List.filter_nil, List.map_nil, List.append_nil]
    cases fares[i]? <;> rfl
  | cons a rules ih =>
    intro fares i
    rw [addRules, List.foldl_cons]
    have := ih (fares.modify a.1 (· ++ [{ a.2 with route := some j }])) i
    rw [addRules] at this
    rw [this, List.getElem?_modify, List.filter_cons]
    by_cases e : a.1 = i
    · simp only [e, decide_true, if_true, List.map_cons]
      cases fares[i]? <;> simp
    · simp only [e, decide_false, Bool.false_eq_true, if_false]
      cases fares[i]? <;> rfl

theorem rulesOf_go (r : Nat) : ∀ (fares : List (List (Rule B))) (k i : Nat) f, fares[i]? = some f →
    ((fares.zipIdx k).flatMap fun f => (f.1.filter (fun x => x.route = some r)).map fun x => (f.2, x)).filter
      (fun a => a.1 = k + i) = (f.filter (fun x => x.route = some r)).map fun x => (k + i, x) := by
  intro fares
  induction fares with
  | nil => intro k i f h; simp at h
  | cons g fares ih =>
    intro k i f h
    rw [List.zipIdx_cons, List.flatMap_cons, List.filter_append]
    cases i with
    | zero =>
      simp only [List.getElem?_cons_zero, Option.some.injEq] at h
      subst h
      have h1 : ((g.filter (fun x => x.route = some r)).map fun x => (k, x)).filter (fun a => a.1 = k + 0) =
          (g.filter (fun x => x.route = some r)).map fun x => (k, x) := by
        rw [List.filter_eq_self]
        intro a ha
        obtain ⟨x, _, rfl⟩ := List.mem_map.mp ha
        simp
      have h2 : ((fares.zipIdx (k + 1)).flatMap fun f => (f.1.filter (fun x => x.route = some r)).map fun x => (f.2, x)).filter
          (fun a => a.1 = k + 0) = [] := by
        rw [List.filter_eq_nil_iff]
        intro a ha
        obtain ⟨p, hp, ha⟩ := List.mem_flatMap.mp ha
        obtain ⟨x, _, rfl⟩ := List.mem_map.mp ha
        have := List.le_snd_of_mem_zipIdx hp
        simp
        omega
      rw [h1, h2, List.append_nil]
      rfl
    | succ i =>
      rw [List.getElem?_cons_succ] at h
      have h1 : ((g.filter (fun x => x.route = some r)).map fun x => (k, x)).filter (fun a => a.1 = k + (i + 1)) = [] := by
        rw [List.filter_eq_nil_iff]
        intro a ha
        obtain ⟨x, _, rfl⟩ := List.mem_map.mp ha
        simp
      rw [h1, List.nil_append]
      have := ih (k + 1) i f h
      rwa [show k + 1 + i = k + (i + 1) by omega] at this

theorem rulesOf_filter (r : Nat) {fares : List (List (Rule B))} {i : Nat} {f : List (Rule B)} (h : fares[i]? = some f) :
    (rulesOf r fares).filter (fun a => a.1 = i) = (f.filter (fun x => x.route = some r)).map fun x => (i, x) := by
  have := rulesOf_go r fares 0 i f h
  rwa [show 0 + i = i by omega] at this

/-- Rules of a route are collected from the rules of that route only. -/
theorem rulesOf_congr (r : Nat) : ∀ {fares fares' : List (List (Rule B))}, fares.length = fares'.length →
    (∀ (i : Nat) f f', fares[i]? = some f → fares'[i]? = some f' →
      f.filter (fun x => x.route = some r) = f'.filter (fun x => x.route = some r)) →
    rulesOf r fares = rulesOf r fares' := by
  suffices ∀ (fares fares' : List (List (Rule B))) (k : Nat), fares.length = fares'.length →
    (∀ (i : Nat) f f', fares[i]? = some f → fares'[i]? = some f' →
      f.filter (fun x => x.route = some r) = f'.filter (fun x => x.route = some r)) →
    ((fares.zipIdx k).flatMap fun f => (f.1.filter (fun x => x.route = some r)).map fun x => (f.2, x)) =
    ((fares'.zipIdx k).flatMap fun f => (f.1.filter (fun x => x.route = some r)).map fun x => (f.2, x)) from
    fun {_ _} h h' => this _ _ 0 h h'
  intro fares
  induction fares with
  | nil => intro fares' k hl _; cases fares' with
    | nil => rfl
    | cons => simp at hl
  | cons g fares ih =>
    intro fares' k hl h
    cases fares' with
    | nil => simp at hl
    | cons g' fares' =>
      rw [List.zipIdx_cons, List.zipIdx_cons, List.flatMap_cons, List.flatMap_cons]
      have h0 := h 0 g g' rfl rfl
      simp only at h0 ⊢
      rw [h0, ih fares' (k + 1) (by simpa using hl) (fun i f f' hf hf' => h (i + 1) f f' hf hf')]

/-! ### trips -/

theorem setTrips_length {j : Nat} : ∀ (ts : List Ref) trips trips', setTrips j ts trips = some trips' →
    trips'.length = trips.length := by
  intro ts
  induction ts with
  | nil => intro trips trips' h; cases h; rfl
  | cons a ts ih =>
    intro trips trips' h
    cases a with
    | dangling => cases h
    | live t =>
      rw [setTrips] at h
      split at h
      · rw [ih _ _ h, List.length_set]
      · cases h

theorem setTrips_get {j : Nat} : ∀ (ts : List Ref) trips trips', setTrips j ts trips = some trips' →
    ∀ t : Nat, (Ref.live t ∈ ts → trips'[t]? = some j) ∧ (Ref.live t ∉ ts → trips'[t]? = trips[t]?) := by
  intro ts
  induction ts with
  | nil =>
    intro trips trips' h t
    cases h
    exact ⟨fun h => absurd h List.not_mem_nil, fun _ => rfl⟩
  | cons a ts ih =>
    intro trips trips' h t
    cases a with
    | dangling => cases h
    | live t0 =>
      rw [setTrips] at h
      split at h
      · rename_i hlt
        obtain ⟨h1, h2⟩ := ih _ _ h t
        constructor
        · intro hm
          by_cases hts : Ref.live t ∈ ts
          · exact h1 hts
          · rcases List.mem_cons.mp hm with e | hm
            · cases e
              rw [h2 hts, List.getElem?_set_self hlt]
            · exact absurd hm hts
        · intro hm
          rw [List.mem_cons, not_or] at hm
          rw [h2 hm.2, List.getElem?_set_ne]
          intro e; subst e; exact hm.1 rfl
      · cases h

theorem setTrips_some {j : Nat} : ∀ (ts : List Ref) trips, (∀ x ∈ ts, ∃ t, x = Ref.live t ∧ t < trips.length) →
    ∃ trips', setTrips j ts trips = some trips' := by
  intro ts
  induction ts with
  | nil => intro trips _; exact ⟨trips, rfl⟩
  | cons a ts ih =>
    intro trips h
    obtain ⟨t, rfl, ht⟩ := h a List.mem_cons_self
    rw [setTrips, if_pos ht]
    exact ih _ (fun x hx => by
      obtain ⟨t', e, h'⟩ := h x (List.mem_cons_of_mem _ hx)
      exact ⟨t', e, by rwa [List.length_set]⟩)

end Verif.Color
