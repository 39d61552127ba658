import Verif.Color.SplitInv

/-!
# Splitting routes by colour: what is collected
-/

namespace Verif.Color

variable {A B : Type}

/-- Ascending keys, no empty lists. -/
structure Wf (m : Refs) : Prop where
  routes : (m.map (·.1)).Pairwise (· < ·)
  colors : ∀ p ∈ m, (p.2.map (·.1)).Pairwise (· < ·)
  nonempty : ∀ p ∈ m, ∀ q ∈ p.2, q.2 ≠ []
  colne : ∀ p ∈ m, p.2 ≠ []

theorem addCol_keys (c : Nat) (ts : List Ref) : ∀ (cs : List (Nat × List Ref)) k,
    k ∈ (addCol c ts cs).map (·.1) → k = c ∨ k ∈ cs.map (·.1) := by
  intro cs
  induction cs with
  | nil => intro k h; simpa [addCol] using h
  | cons p cs ih =>
    intro k h
    obtain ⟨c', ts'⟩ := p
    rw [addCol] at h
    split at h
    · exact .inr h
    · split at h
      · simpa using h
      · rw [List.map_cons, List.mem_cons] at h
        rcases h with h | h
        · exact .inr (by rw [h]; simp)
        · rcases ih k h with h | h
          · exact .inl h
          · exact .inr (List.mem_cons_of_mem _ h)

theorem addCol_sorted (c : Nat) (ts : List Ref) : ∀ (cs : List (Nat × List Ref)),
    (cs.map (·.1)).Pairwise (· < ·) → ((addCol c ts cs).map (·.1)).Pairwise (· < ·) := by
  intro cs
  induction cs with
  | nil => intro _; simp [addCol]
  | cons p cs ih =>
    intro h
    obtain ⟨c', ts'⟩ := p
    rw [addCol]
    split
    · exact h
    · split
      · rename_i hlt
        rw [List.map_cons, List.pairwise_cons]
        refine ⟨?_, h⟩
        intro k hk
        rw [List.map_cons, List.pairwise_cons] at h
        rw [List.map_cons, List.mem_cons] at hk
        rcases hk with hk | hk
        · subst hk; exact hlt
        · exact Nat.lt_trans hlt (h.1 k hk)
      · rw [List.map_cons, List.pairwise_cons] at h ⊢
        refine ⟨?_, ih h.2⟩
        intro k hk
        simp only at h ⊢
        rcases addCol_keys c ts cs k hk with e | hk
        · omega
        · exact h.1 k hk

theorem addCol_in (c : Nat) (ts : List Ref) (c' : Nat) (x : Ref) : ∀ (cs : List (Nat × List Ref)),
    (∃ us, (c', us) ∈ addCol c ts cs ∧ x ∈ us) ↔ (∃ us, (c', us) ∈ cs ∧ x ∈ us) ∨ c' = c ∧ x ∈ ts := by
  intro cs
  induction cs with
  | nil =>
    rw [addCol]
    constructor
    · rintro ⟨us, h, hx⟩
      rw [List.mem_singleton] at h; cases h; exact .inr ⟨rfl, hx⟩
    · rintro (⟨us, h, _⟩ | ⟨rfl, hx⟩)
      · cases h
      · exact ⟨ts, List.mem_singleton.mpr rfl, hx⟩
  | cons p cs ih =>
    obtain ⟨d, us⟩ := p
    rw [addCol]
    split
    · rename_i e
      subst e
      constructor
      · rintro ⟨vs, h, hx⟩
        rcases List.mem_cons.mp h with h | h
        · cases h
          rcases List.mem_append.mp hx with hx | hx
          · exact .inl ⟨us, List.mem_cons_self, hx⟩
          · exact .inr ⟨rfl, hx⟩
        · exact .inl ⟨vs, List.mem_cons_of_mem _ h, hx⟩
      · rintro (⟨vs, h, hx⟩ | ⟨rfl, hx⟩)
        · rcases List.mem_cons.mp h with h | h
          · cases h
            exact ⟨_, List.mem_cons_self, List.mem_append_left _ hx⟩
          · exact ⟨vs, List.mem_cons_of_mem _ h, hx⟩
        · exact ⟨_, List.mem_cons_self, List.mem_append_right _ hx⟩
    · split
      · constructor
        · rintro ⟨vs, h, hx⟩
          rcases List.mem_cons.mp h with h | h
          · cases h; exact .inr ⟨rfl, hx⟩
          · exact .inl ⟨vs, h, hx⟩
        · rintro (⟨vs, h, hx⟩ | ⟨rfl, hx⟩)
          · exact ⟨vs, List.mem_cons_of_mem _ h, hx⟩
          · exact ⟨_, List.mem_cons_self, hx⟩
      · constructor
        · rintro ⟨vs, h, hx⟩
          rcases List.mem_cons.mp h with h | h
          · cases h; exact .inl ⟨us, List.mem_cons_self, hx⟩
          · rcases ih.mp ⟨vs, h, hx⟩ with ⟨ws, h, hx⟩ | h
            · exact .inl ⟨ws, List.mem_cons_of_mem _ h, hx⟩
            · exact .inr h
        · rintro (⟨vs, h, hx⟩ | h)
          · rcases List.mem_cons.mp h with h | h
            · cases h; exact ⟨us, List.mem_cons_self, hx⟩
            · obtain ⟨ws, h, hx⟩ := ih.mpr (.inl ⟨vs, h, hx⟩)
              exact ⟨ws, List.mem_cons_of_mem _ h, hx⟩
          · obtain ⟨ws, h, hx⟩ := ih.mpr (.inr h)
            exact ⟨ws, List.mem_cons_of_mem _ h, hx⟩

theorem addCol_nonempty {c : Nat} {ts : List Ref} (hts : ts ≠ []) : ∀ (cs : List (Nat × List Ref)),
    (∀ q ∈ cs, q.2 ≠ []) → ∀ q ∈ addCol c ts cs, q.2 ≠ [] := by
  intro cs
  induction cs with
  | nil => intro _ q hq; simp [addCol] at hq; subst hq; exact hts
  | cons p cs ih =>
    intro h q hq
    obtain ⟨d, us⟩ := p
    rw [addCol] at hq
    split at hq
    · rcases List.mem_cons.mp hq with e | hq
      · subst e; simp [hts]
      · exact h q (List.mem_cons_of_mem _ hq)
    · split at hq
      · rcases List.mem_cons.mp hq with e | hq
        · subst e; exact hts
        · exact h q hq
      · rcases List.mem_cons.mp hq with e | hq
        · subst e; exact h _ List.mem_cons_self
        · exact ih (fun q hq => h q (List.mem_cons_of_mem _ hq)) q hq

/-! The same for routes. -/

theorem addRef_keys (r c : Nat) (ts : List Ref) : ∀ (m : Refs) k,
    k ∈ (addRef r c ts m).map (·.1) → k = r ∨ k ∈ m.map (·.1) := by
  intro m
  induction m with
  | nil => intro k h; simpa [addRef] using h
  | cons p m ih =>
    intro k h
    obtain ⟨r', cs⟩ := p
    rw [addRef] at h
    split at h
    · exact .inr h
    · split at h
      · simpa using h
      · rw [List.map_cons, List.mem_cons] at h
        rcases h with h | h
        · exact .inr (by rw [h]; simp)
        · rcases ih k h with h | h
          · exact .inl h
          · exact .inr (List.mem_cons_of_mem _ h)

theorem addCol_ne_nil (c : Nat) (ts : List Ref) (cs : List (Nat × List Ref)) : addCol c ts cs ≠ [] := by
  cases cs with
  | nil => simp [addCol]
  | cons p cs =>
    obtain ⟨d, us⟩ := p
    rw [addCol]
    split
    · simp
    · split <;> simp

theorem addRef_wf {r c : Nat} {ts : List Ref} (hts : ts ≠ []) : ∀ (m : Refs), Wf m → Wf (addRef r c ts m) := by
  intro m
  induction m with
  | nil =>
    intro _
    refine ⟨by simp [addRef], ?_, ?_, ?_⟩
    · intro p hp; simp [addRef] at hp; subst hp; simp
    · intro p hp q hq; simp [addRef] at hp; subst hp; simp at hq; subst hq; exact hts
    · intro p hp; simp [addRef] at hp; subst hp; simp
  | cons p m ih =>
    intro h
    obtain ⟨r', cs⟩ := p
    have hm : Wf m := ⟨(List.pairwise_cons.mp h.routes).2, fun p hp => h.colors p (List.mem_cons_of_mem _ hp),
      fun p hp => h.nonempty p (List.mem_cons_of_mem _ hp), fun p hp => h.colne p (List.mem_cons_of_mem _ hp)⟩
    have h1 := List.pairwise_cons.mp h.routes
    rw [addRef]
    split
    · refine ⟨h.routes, ?_, ?_, ?_⟩
      · intro p hp
        rcases List.mem_cons.mp hp with e | hp
        · subst e; exact addCol_sorted c ts cs (h.colors _ List.mem_cons_self)
        · exact hm.colors p hp
      · intro p hp
        rcases List.mem_cons.mp hp with e | hp
        · subst e; exact addCol_nonempty hts cs (h.nonempty _ List.mem_cons_self)
        · exact hm.nonempty p hp
      · intro p hp
        rcases List.mem_cons.mp hp with e | hp
        · subst e; exact addCol_ne_nil c ts cs
        · exact hm.colne p hp
    · split
      · rename_i hlt
        refine ⟨?_, ?_, ?_, ?_⟩
        · rw [List.map_cons, List.pairwise_cons]
          refine ⟨?_, h.routes⟩
          intro k hk
          rw [List.map_cons, List.mem_cons] at hk
          rcases hk with hk | hk
          · subst hk; exact hlt
          · exact Nat.lt_trans hlt (h1.1 k hk)
        · intro p hp
          rcases List.mem_cons.mp hp with e | hp
          · subst e; simp
          · exact h.colors p hp
        · intro p hp
          rcases List.mem_cons.mp hp with e | hp
          · subst e; intro q hq; simp at hq; subst hq; exact hts
          · exact h.nonempty p hp
        · intro p hp
          rcases List.mem_cons.mp hp with e | hp
          · subst e; simp
          · exact h.colne p hp
      · have hw := ih hm
        refine ⟨?_, ?_, ?_, ?_⟩
        · rw [List.map_cons, List.pairwise_cons]
          refine ⟨?_, hw.routes⟩
          intro k hk
          rcases addRef_keys r c ts m k hk with e | hk
          · simp only; omega
          · exact h1.1 k hk
        · intro p hp
          rcases List.mem_cons.mp hp with e | hp
          · subst e; exact h.colors _ List.mem_cons_self
          · exact hw.colors p hp
        · intro p hp
          rcases List.mem_cons.mp hp with e | hp
          · subst e; exact h.nonempty _ List.mem_cons_self
          · exact hw.nonempty p hp
        · intro p hp
          rcases List.mem_cons.mp hp with e | hp
          · subst e; exact h.colne _ List.mem_cons_self
          · exact hw.colne p hp

theorem In_cons (r : Nat) (cs : List (Nat × List Ref)) (m : Refs) (r' c : Nat) (x : Ref) :
    In ((r, cs) :: m) r' c x ↔ (r' = r ∧ ∃ us, (c, us) ∈ cs ∧ x ∈ us) ∨ In m r' c x := by
  constructor
  · rintro ⟨cs', us, h1, h2, h3⟩
    rcases List.mem_cons.mp h1 with h1 | h1
    · cases h1; exact .inl ⟨rfl, us, h2, h3⟩
    · exact .inr ⟨cs', us, h1, h2, h3⟩
  · rintro (⟨rfl, us, h2, h3⟩ | ⟨cs', us, h1, h2, h3⟩)
    · exact ⟨cs, us, List.mem_cons_self, h2, h3⟩
    · exact ⟨cs', us, List.mem_cons_of_mem _ h1, h2, h3⟩

theorem In_nil (r c : Nat) (x : Ref) : ¬ In [] r c x := by
  rintro ⟨cs, us, h, _⟩; cases h

theorem addRef_in (r c : Nat) (ts : List Ref) (r' c' : Nat) (x : Ref) : ∀ (m : Refs),
    In (addRef r c ts m) r' c' x ↔ In m r' c' x ∨ (r' = r ∧ c' = c ∧ x ∈ ts) := by
  intro m
  induction m with
  | nil =>
    rw [addRef, In_cons]
    constructor
    · rintro (⟨rfl, us, h, hx⟩ | h)
      · rw [List.mem_singleton] at h; cases h; exact .inr ⟨rfl, rfl, hx⟩
      · exact absurd h (In_nil _ _ _)
    · rintro (h | ⟨rfl, rfl, hx⟩)
      · exact absurd h (In_nil _ _ _)
      · exact .inl ⟨rfl, ts, List.mem_singleton.mpr rfl, hx⟩
  | cons p m ih =>
    obtain ⟨q, cs⟩ := p
    rw [addRef]
    split
    · rename_i e
      subst e
      rw [In_cons, In_cons, addCol_in]
      constructor
      · rintro (⟨rfl, h | h⟩ | h)
        · exact .inl (.inl ⟨rfl, h⟩)
        · exact .inr ⟨rfl, h⟩
        · exact .inl (.inr h)
      · rintro ((⟨rfl, h⟩ | h) | ⟨rfl, h⟩)
        · exact .inl ⟨rfl, .inl h⟩
        · exact .inr h
        · exact .inl ⟨rfl, .inr h⟩
    · split
      · rw [In_cons]
        constructor
        · rintro (⟨rfl, us, h, hx⟩ | h)
          · rw [List.mem_singleton] at h; cases h; exact .inr ⟨rfl, rfl, hx⟩
          · exact .inl h
        · rintro (h | ⟨rfl, rfl, hx⟩)
          · exact .inr h
          · exact .inl ⟨rfl, ts, List.mem_singleton.mpr rfl, hx⟩
      · rw [In_cons, In_cons, ih]
        constructor
        · rintro (h | h | h)
          · exact .inl (.inl h)
          · exact .inl (.inr h)
          · exact .inr h
        · rintro ((h | h) | h)
          · exact .inl h
          · exact .inr (.inl h)
          · exact .inr (.inr h)

/-! ### the collecting loops -/

theorem collect0_spec {F : Feed A B} {keep : Nat → Bool} (htr : ∀ r ∈ F.trips, r < F.routes.length) :
    ∀ (ts : List Nat) (m : Refs), (∀ t ∈ ts, t < F.trips.length) → Wf m →
    ∃ m', collect0 F keep ts m = some m' ∧ Wf m' ∧ ∀ r c x, In m' r c x ↔ In m r c x ∨
      x = .dangling ∧ ∃ t R, t ∈ ts ∧ keep t = true ∧ F.trips[t]? = some r ∧ F.routes[r]? = some R ∧ c = R.color := by
  intro ts
  induction ts with
  | nil =>
    intro m _ hw
    refine ⟨m, rfl, hw, fun r c x => ⟨.inl, ?_⟩⟩
    rintro (h | ⟨_, t, R, h, _⟩)
    · exact h
    · cases h
  | cons t ts ih =>
    intro m hlt hw
    rw [collect0]
    have hlt' : ∀ t ∈ ts, t < F.trips.length := fun t ht => hlt t (List.mem_cons_of_mem _ ht)
    split
    · rename_i hk
      obtain ⟨r0, h1⟩ : ∃ r0, F.trips[t]? = some r0 := ⟨_, List.getElem?_eq_getElem (hlt t List.mem_cons_self)⟩
      obtain ⟨R0, h2⟩ : ∃ R0, F.routes[r0]? = some R0 := ⟨_, List.getElem?_eq_getElem (htr _ (List.mem_of_getElem? h1))⟩
      simp only [h1, h2]
      obtain ⟨m', e, hw', hin⟩ := ih (addRef r0 R0.color [.dangling] m) hlt' (addRef_wf (by simp) m hw)
      refine ⟨m', e, hw', fun r c x => ?_⟩
      rw [hin, addRef_in, List.mem_singleton]
      constructor
      · rintro ((h | ⟨rfl, rfl, rfl⟩) | ⟨hx, t', R, h3, h4⟩)
        · exact .inl h
        · exact .inr ⟨rfl, t, _, List.mem_cons_self, hk, h1, h2, rfl⟩
        · exact .inr ⟨hx, t', R, List.mem_cons_of_mem _ h3, h4⟩
      · rintro (h | ⟨rfl, t', R, h3, h4, h5, h6, h7⟩)
        · exact .inl (.inl h)
        · rcases List.mem_cons.mp h3 with rfl | h3
          · rw [h1] at h5
            cases h5
            rw [h2] at h6
            cases h6
            exact .inl (.inr ⟨rfl, h7, rfl⟩)
          · exact .inr ⟨rfl, t', R, h3, h4, h5, h6, h7⟩
    · rename_i hk
      obtain ⟨m', e, hw', hin⟩ := ih m hlt' hw
      refine ⟨m', e, hw', fun r c x => ?_⟩
      rw [hin]
      constructor
      · rintro (h | ⟨hx, t', R, h3, h4⟩)
        · exact .inl h
        · exact .inr ⟨hx, t', R, List.mem_cons_of_mem _ h3, h4⟩
      · rintro (h | ⟨rfl, t', R, h3, h4, h5⟩)
        · exact .inl h
        · rcases List.mem_cons.mp h3 with rfl | h3
          · exact absurd h4 hk
          · exact .inr ⟨rfl, t', R, h3, h4, h5⟩

/-- The colour under which a trip of route `R` and matched colour `color` is filed. -/
def Filed (noColor : Nat) (writeColors : Bool) (R : Route A) (color c : Nat) : Prop :=
  (writeColors = true ∧ color ≠ noColor ∧ R.color = noColor ∧ R.text = noColor ∧ c = color) ∨
  (¬ (writeColors = true ∧ color ≠ noColor ∧ R.color = noColor ∧ R.text = noColor) ∧ c = R.color)

theorem Filed.unique {noColor : Nat} {w : Bool} {R : Route A} {color c c' : Nat} (h : Filed noColor w R color c)
    (h' : Filed noColor w R color c') : c = c' := by
  rcases h with ⟨a, b, d, e, rfl⟩ | ⟨a, rfl⟩ <;> rcases h' with ⟨a', b', d', e', rfl⟩ | ⟨a', rfl⟩
  · rfl
  · exact absurd ⟨a, b, d, e⟩ a'
  · exact absurd ⟨a', b', d', e'⟩ a
  · rfl

def LeafIn (F : Feed A B) (noColor : Nat) (w : Bool) (color : Nat) (ts : List Nat) (r c : Nat) (x : Ref) : Prop :=
  ∃ t R, x = .live t ∧ t ∈ ts ∧ F.trips[t]? = some r ∧ F.routes[r]? = some R ∧ Filed noColor w R color c

theorem collectLeaf_spec {F : Feed A B} {noColor : Nat} {w : Bool} {color : Nat} (htr : ∀ r ∈ F.trips, r < F.routes.length) :
    ∀ (ts : List Nat) (m : Refs), (∀ t ∈ ts, t < F.trips.length) → Wf m →
    ∃ m', collectLeaf F noColor w color ts m = some m' ∧ Wf m' ∧ ∀ r c x, In m' r c x ↔ In m r c x ∨
      LeafIn F noColor w color ts r c x := by
  intro ts
  induction ts with
  | nil =>
    intro m _ hw
    refine ⟨m, rfl, hw, fun r c x => ⟨.inl, ?_⟩⟩
    rintro (h | ⟨t, R, _, h, _⟩)
    · exact h
    · cases h
  | cons t ts ih =>
    intro m hlt hw
    rw [collectLeaf]
    have hlt' : ∀ t ∈ ts, t < F.trips.length := fun t ht => hlt t (List.mem_cons_of_mem _ ht)
    obtain ⟨r0, h1⟩ : ∃ r0, F.trips[t]? = some r0 := ⟨_, List.getElem?_eq_getElem (hlt t List.mem_cons_self)⟩
    obtain ⟨R0, h2⟩ : ∃ R0, F.routes[r0]? = some R0 := ⟨_, List.getElem?_eq_getElem (htr _ (List.mem_of_getElem? h1))⟩
    simp only [h1, h2]
    have key : ∃ c0, Filed noColor w R0 color c0 ∧
        (if w = true ∧ color ≠ noColor ∧ R0.color = noColor ∧ R0.text = noColor
          then addRef r0 color [.live t] m else addRef r0 R0.color [.live t] m) =
        addRef r0 c0 [.live t] m := by
      split
      · rename_i h; exact ⟨color, .inl ⟨h.1, h.2.1, h.2.2.1, h.2.2.2, rfl⟩, rfl⟩
      · rename_i h; exact ⟨_, .inr ⟨h, rfl⟩, rfl⟩
    obtain ⟨c0, hf, e0⟩ := key
    rw [e0]
    obtain ⟨m', e, hw', hin⟩ := ih (addRef r0 c0 [.live t] m) hlt' (addRef_wf (by simp) m hw)
    refine ⟨m', e, hw', fun r c x => ?_⟩
    rw [hin, addRef_in, List.mem_singleton]
    constructor
    · rintro ((h | ⟨rfl, rfl, rfl⟩) | ⟨t', R, hx, h3, h4⟩)
      · exact .inl h
      · exact .inr ⟨t, _, rfl, List.mem_cons_self, h1, h2, hf⟩
      · exact .inr ⟨t', R, hx, List.mem_cons_of_mem _ h3, h4⟩
    · rintro (h | ⟨t', R, hx, h3, h5, h6, h7⟩)
      · exact .inl (.inl h)
      · rcases List.mem_cons.mp h3 with rfl | h3
        · rw [h1] at h5
          cases h5
          rw [h2] at h6
          cases h6
          exact .inl (.inr ⟨rfl, h7.unique hf, hx⟩)
        · exact .inr ⟨t', R, hx, h3, h5, h6, h7⟩

theorem collectThread_spec {F : Feed A B} {noColor : Nat} {w : Bool} (htr : ∀ r ∈ F.trips, r < F.routes.length) :
    ∀ (ls : List (Nat × List Nat)) (m : Refs), (∀ l ∈ ls, ∀ t ∈ l.2, t < F.trips.length) → Wf m →
    ∃ m', collectThread F noColor w ls m = some m' ∧ Wf m' ∧ ∀ r c x, In m' r c x ↔ In m r c x ∨
      ∃ l ∈ ls, LeafIn F noColor w l.1 l.2 r c x := by
  intro ls
  induction ls with
  | nil =>
    intro m _ hw
    refine ⟨m, rfl, hw, fun r c x => ⟨.inl, ?_⟩⟩
    rintro (h | ⟨l, h, _⟩)
    · exact h
    · cases h
  | cons l ls ih =>
    intro m hlt hw
    obtain ⟨m1, e1, hw1, hin1⟩ := collectLeaf_spec (F := F) (noColor := noColor) (w := w) (color := l.1) htr l.2 m
      (hlt l List.mem_cons_self) hw
    obtain ⟨m', e, hw', hin⟩ := ih m1 (fun l' hl => hlt l' (List.mem_cons_of_mem _ hl)) hw1
    rw [collectThread, e1]
    refine ⟨m', e, hw', fun r c x => ?_⟩
    rw [hin, hin1]
    constructor
    · rintro ((h | h) | ⟨l', hl, h⟩)
      · exact .inl h
      · exact .inr ⟨l, List.mem_cons_self, h⟩
      · exact .inr ⟨l', List.mem_cons_of_mem _ hl, h⟩
    · rintro (h | ⟨l', hl, h⟩)
      · exact .inl (.inl h)
      · rcases List.mem_cons.mp hl with rfl | hl
        · exact .inl (.inr h)
        · exact .inr ⟨l', hl, h⟩

theorem mergeCol_spec (r0 : Nat) : ∀ (cs : List (Nat × List Ref)) (m : Refs), Wf m → (∀ q ∈ cs, q.2 ≠ []) →
    Wf (cs.foldl (fun m ct => addRef r0 ct.1 ct.2 m) m) ∧ ∀ r c x,
      In (cs.foldl (fun m ct => addRef r0 ct.1 ct.2 m) m) r c x ↔ In m r c x ∨ (r = r0 ∧ ∃ us, (c, us) ∈ cs ∧ x ∈ us) := by
  intro cs
  induction cs with
  | nil =>
    intro m hw _
    refine ⟨hw, fun r c x => ⟨.inl, ?_⟩⟩
    rintro (h | ⟨_, us, h, _⟩)
    · exact h
    · cases h
  | cons q cs ih =>
    intro m hw hne
    rw [List.foldl_cons]
    obtain ⟨h1, h2⟩ := ih (addRef r0 q.1 q.2 m) (addRef_wf (hne q List.mem_cons_self) m hw)
      (fun q hq => hne q (List.mem_cons_of_mem _ hq))
    refine ⟨h1, fun r c x => ?_⟩
    rw [h2, addRef_in]
    obtain ⟨c0, ts0⟩ := q
    constructor
    · rintro ((h | ⟨rfl, rfl, hx⟩) | ⟨rfl, us, h, hx⟩)
      · exact .inl h
      · exact .inr ⟨rfl, ts0, List.mem_cons_self, hx⟩
      · exact .inr ⟨rfl, us, List.mem_cons_of_mem _ h, hx⟩
    · rintro (h | ⟨rfl, us, h, hx⟩)
      · exact .inl (.inl h)
      · rcases List.mem_cons.mp h with h | h
        · cases h; exact .inl (.inr ⟨rfl, rfl, hx⟩)
        · exact .inr ⟨rfl, us, h, hx⟩

theorem merge_spec : ∀ (cols m : Refs), Wf m → (∀ p ∈ cols, ∀ q ∈ p.2, q.2 ≠ []) →
    Wf (merge m cols) ∧ ∀ r c x, In (merge m cols) r c x ↔ In m r c x ∨ In cols r c x := by
  intro cols
  induction cols with
  | nil =>
    intro m hw _
    refine ⟨hw, fun r c x => ⟨.inl, ?_⟩⟩
    rintro (h | h)
    · exact h
    · exact absurd h (In_nil _ _ _)
  | cons p cols ih =>
    intro m hw hne
    obtain ⟨a1, a2⟩ := mergeCol_spec p.1 p.2 m hw (hne p List.mem_cons_self)
    obtain ⟨b1, b2⟩ := ih _ a1 (fun p hp => hne p (List.mem_cons_of_mem _ hp))
    have e : merge m (p :: cols) = merge (p.2.foldl (fun m ct => addRef p.1 ct.1 ct.2 m) m) cols := rfl
    rw [e]
    refine ⟨b1, fun r c x => ?_⟩
    rw [b2, a2, show p = (p.1, p.2) from rfl, In_cons]
    constructor
    · rintro ((h | h) | h)
      · exact .inl h
      · exact .inr (.inl h)
      · exact .inr (.inr h)
    · rintro (h | h | h)
      · exact .inl (.inl h)
      · exact .inl (.inr h)
      · exact .inr h

theorem collectAll_spec {F : Feed A B} {noColor : Nat} {w : Bool} (htr : ∀ r ∈ F.trips, r < F.routes.length) :
    ∀ (ths : List (List (Nat × List Nat))) (m : Refs), (∀ ls ∈ ths, ∀ l ∈ ls, ∀ t ∈ l.2, t < F.trips.length) → Wf m →
    ∃ m', collectAll F noColor w ths m = some m' ∧ Wf m' ∧ ∀ r c x, In m' r c x ↔ In m r c x ∨
      ∃ ls ∈ ths, ∃ l ∈ ls, LeafIn F noColor w l.1 l.2 r c x := by
  intro ths
  induction ths with
  | nil =>
    intro m _ hw
    refine ⟨m, rfl, hw, fun r c x => ⟨.inl, ?_⟩⟩
    rintro (h | ⟨l, h, _⟩)
    · exact h
    · cases h
  | cons ls ths ih =>
    intro m hlt hw
    obtain ⟨m1, e1, hw1, hin1⟩ := collectThread_spec (F := F) (noColor := noColor) (w := w) htr ls []
      (hlt ls List.mem_cons_self) ⟨by simp, fun p hp => by simp at hp, fun p hp => by simp at hp, fun p hp => by simp at hp⟩
    obtain ⟨a1, a2⟩ := merge_spec m1 m hw hw1.nonempty
    obtain ⟨m', e, hw', hin⟩ := ih (merge m m1) (fun l' hl => hlt l' (List.mem_cons_of_mem _ hl)) a1
    rw [collectAll, e1]
    refine ⟨m', e, hw', fun r c x => ?_⟩
    rw [hin, a2, hin1]
    constructor
    · rintro ((h | h | h) | ⟨l', hl, h⟩)
      · exact .inl h
      · exact absurd h (In_nil _ _ _)
      · exact .inr ⟨ls, List.mem_cons_self, h⟩
      · exact .inr ⟨l', List.mem_cons_of_mem _ hl, h⟩
    · rintro (h | ⟨l', hl, h⟩)
      · exact .inl (.inl h)
      · rcases List.mem_cons.mp hl with rfl | hl
        · exact .inl (.inr (.inr h))
        · exact .inr ⟨l', hl, h⟩

end Verif.Color
