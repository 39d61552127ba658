import Verif.Hops.Props

/-!
# C67: the fast variant
-/

set_option linter.unusedSimpArgs false

namespace Verif.Hops

open Verif.HopCache

theorem mem_starts (env : HEnv) (froms : List (Cand × Option Rat)) (tos : List Cand) (i : Nat) (c : Cand) :
    (i, c) ∈ starts env froms tos ↔ ∃ (raw : Rat) (e : Nat), froms[i]? = some (c, some raw) ∧ c.e = some e ∧ connected env e tos = true := by
  unfold starts
  rw [List.mem_map]
  constructor
  · rintro ⟨x, hx, h⟩
    rw [List.mem_filter, List.mem_zipIdx_iff_getElem?] at hx
    obtain ⟨⟨c', raw⟩, i'⟩ := x
    simp only [Prod.mk.injEq] at h
    obtain ⟨rfl, rfl⟩ := h
    obtain ⟨h1, h2⟩ := hx
    simp only [usable] at h2
    split at h2
    · next e r he => exact ⟨r, e, h1, he, h2⟩
    · cases h2
  · rintro ⟨raw, e, h1, h2, h3⟩
    refine ⟨((c, some raw), i), ?_, rfl⟩
    rw [List.mem_filter, List.mem_zipIdx_iff_getElem?]
    refine ⟨h1, ?_⟩
    simp only [usable]
    split
    · next e' r he hr => rw [h2] at he; cases he; exact h3
    · next hn => exact absurd rfl (hn e raw h2)

theorem mem_targets (env : HEnv) (froms tos : List Cand) (cache : Option Cache) (eFrs : List Nat) (maxCost : UInt32) (j : Nat) (c : Cand) :
    (j, c) ∈ targets env froms tos cache eFrs maxCost ↔ tos[j]? = some c ∧ wanted env froms cache eFrs maxCost c = true := by
  unfold targets
  rw [List.mem_map]
  constructor
  · rintro ⟨⟨c', j'⟩, hx, h⟩
    rw [List.mem_filter, List.mem_zipIdx_iff_getElem?] at hx
    simp only [Prod.mk.injEq] at h
    obtain ⟨rfl, rfl⟩ := h
    exact hx
  · rintro ⟨h1, h2⟩
    exact ⟨(c, j), by rw [List.mem_filter, List.mem_zipIdx_iff_getElem?]; exact ⟨h1, h2⟩, rfl⟩

theorem mem_entries (env : HEnv) (inf : UInt32) (mps : Rat) (frs tos : List (Nat × Cand)) (f t : Nat) (cost : UInt32) (i j : Nat) (c : UInt32) :
    ((i, j), c) ∈ entries env inf mps frs tos f t cost ↔
      ∃ fr to : Cand, (i, fr) ∈ frs ∧ (j, to) ∈ tos ∧ fr.e = some f ∧ to.e = some t ∧
        limit inf mps (shift env f t fr.progr to.progr cost) = some c := by
  unfold entries
  rw [List.mem_flatMap]
  constructor
  · rintro ⟨⟨i', fr⟩, hfr, h⟩
    rw [List.mem_filterMap] at h
    obtain ⟨⟨j', to⟩, hto, h⟩ := h
    rw [Option.map_eq_some_iff] at h
    obtain ⟨c', hc, h⟩ := h
    simp only [Prod.mk.injEq] at h
    obtain ⟨⟨rfl, rfl⟩, rfl⟩ := h
    rw [List.mem_filter, decide_eq_true_eq] at hfr hto
    exact ⟨fr, to, hfr.1, hto.1, hfr.2, hto.2, hc⟩
  · rintro ⟨fr, to, h1, h2, h3, h4, h5⟩
    refine ⟨(i, fr), by rw [List.mem_filter]; exact ⟨h1, by simpa using h3⟩, ?_⟩
    rw [List.mem_filterMap]
    refine ⟨(j, to), by rw [List.mem_filter]; exact ⟨h2, by simpa using h4⟩, ?_⟩
    simp only
    rw [h5]
    rfl

theorem fast_fold (env : HEnv) (inf stop : UInt32) (mps : Rat) (init : Nat → UInt32) (eFrs : List Nat) (frs tos : List (Nat × Cand))
    (l : List (Nat × Nat × UInt32)) (st : List ((Nat × Nat) × UInt32) × Option Cache) (y : (Nat × Nat) × UInt32) :
    y ∈ (l.foldl (fastStep env inf stop mps init eFrs frs tos) st).1 ↔
      y ∈ st.1 ∨ ∃ r, r ∈ l ∧ r.2.2 < stop ∧ r.2.2 - init r.2.1 < inf ∧ y ∈ entries env inf mps frs tos r.2.1 r.1 (r.2.2 - init r.2.1) := by
  induction l generalizing st with
  | nil => simp
  | cons r l ih =>
    rw [List.foldl_cons, ih]
    simp only [List.mem_cons, exists_eq_or_imp]
    unfold fastStep
    by_cases h1 : stop ≤ r.2.2
    · rw [if_pos h1]
      simp [UInt32.not_lt.mpr h1]
    · rw [if_neg h1]
      have h1' := UInt32.not_le.mp h1
      simp only [h1', true_and]
      by_cases h2 : inf ≤ r.2.2 - init r.2.1
      · rw [if_pos h2]
        simp [UInt32.not_lt.mpr h2]
      · rw [if_neg h2]
        have h2' := UInt32.not_le.mp h2
        simp only [h2', true_and, List.mem_append]
        grind

/-- **C67 (partial).** Every entry of the fast variant is right: the pair can be reached, the cost is that of a cheapest way and below the maximum.
What is missing for the full claim is that all such pairs are listed; this is not intended here, and see `C67_negation_fast`. -/
theorem C67_fast_sound_partial {turn : Nat → Nat → Option Nat} {env : HEnv} (hg : GraphOk turn env) (hf : FoundOk turn env)
    (froms : List (Cand × Option Rat)) (tos : List Cand) (cache : Option Cache) (maxCost : UInt32) (K : Nat)
    (hs : Sizes env (froms.map (·.1)) tos maxCost K) (i j : Nat) (c : UInt32)
    (h : ((i, j), c) ∈ (hopsFast env froms tos cache maxCost).1) :
    ∃ (fr to : Cand) (raw : Rat), froms[i]? = some (fr, some raw) ∧ tos[j]? = some to ∧ Travel turn env.cost fr to c.toNat ∧ c < maxCost := by
  unfold hopsFast at h
  simp only at h
  split at h
  · cases h
  · rw [fast_fold] at h
    simp only [List.not_mem_nil, false_or] at h
    obtain ⟨r, hr, hlt, hinf, hy⟩ := h
    obtain ⟨_, _, x, hx, hv⟩ := hf.found _ _ _ _ _ r hr hlt
    rw [mem_entries] at hy
    obtain ⟨fr, to, h1, h2, h3, h4, h5⟩ := hy
    rw [mem_starts] at h1
    rw [mem_targets] at h2
    obtain ⟨raw, _, h1, _⟩ := h1
    have hcost : (r.2.2 - (initCost env (maxProgr env (froms.map (·.1))) froms r.2.1 -
        minInit (initCost env (maxProgr env (froms.map (·.1))) froms) (edges ((starts env froms tos).map (·.2))))).toNat = x := by
      rw [UInt32.toNat_sub_of_le _ _ (UInt32.le_iff_toNat_le.mpr (by omega))]
      omega
    rw [← hcost] at hx
    have mf : fr ∈ froms.map (·.1) := List.mem_map.mpr ⟨_, List.mem_of_getElem? h1, rfl⟩
    exact ⟨fr, to, raw, h1, h2.1, (pair_spec hg hs mf (List.mem_of_getElem? h2.1) h3 h4 hinf hx c).mp h5⟩

/-! ### costs of the starts -/

theorem prep_bounds {env : HEnv} {froms tos : List Cand} {maxCost : UInt32} {K : Nat} (hs : Sizes env froms tos maxCost K) {c : Cand}
    (hc : c ∈ froms) {e : Nat} (he : c.e = some e) (raw : Rat) :
    ((env.inv raw).toNat : Rat) ≤ prep env (maxProgr env froms) e c.progr raw ∧
      prep env (maxProgr env froms) e c.progr raw ≤ (((env.inv raw).toNat + K : Nat) : Rat) := by
  obtain ⟨_, m1, m2⟩ := maxProgr_spec hs
  have h1 := m2 c hc e he
  have h2 := (progrC_le env e (hs.from0 c hc) (hs.from1 c hc)).1
  unfold prep
  rw [Rat.natCast_add]
  constructor <;> grind

theorem trunc_toNat {x : Rat} {n : Nat} (hn : n < 4294967296) (h : x ≤ (n : Rat)) : (trunc x).toNat = x.floor.toNat := by
  have := floor_le_nat h
  rw [trunc, UInt32.toNat_ofNat', Nat.mod_eq_of_lt (by omega)]

theorem initCost_aux (env : HEnv) (mps : Rat) (e : Nat) (froms : List (Cand × Option Rat))
    (hb : ∀ c raw, (c, some raw) ∈ froms → c.e = some e → 0 ≤ prep env mps e c.progr raw ∧ prep env mps e c.progr raw ≤ ((4294967295 : Nat) : Rat))
    (m0 : UInt32) :
    let m := froms.foldl (fun m fr => match fr.1.e, fr.2 with
      | some e', some raw =>
        if e' = e then (if prep env mps e' fr.1.progr raw < (m.toNat : Rat) then trunc (prep env mps e' fr.1.progr raw) else m) else m
      | _, _ => m) m0
    m.toNat ≤ m0.toNat ∧ (∀ c raw, (c, some raw) ∈ froms → c.e = some e → m.toNat ≤ (prep env mps e c.progr raw).floor.toNat) ∧
      (m = m0 ∨ ∃ c raw, (c, some raw) ∈ froms ∧ c.e = some e ∧ m.toNat = (prep env mps e c.progr raw).floor.toNat) := by
  induction froms generalizing m0 with
  | nil => simp
  | cons x froms ih =>
    have hb' := fun c raw h => hb c raw (List.mem_cons_of_mem _ h)
    simp only [List.foldl_cons]
    have skip : ∀ (hno : ∀ raw, x.2 = some raw → x.1.e ≠ some e),
        let m := froms.foldl (fun m fr => match fr.1.e, fr.2 with
          | some e', some raw =>
            if e' = e then (if prep env mps e' fr.1.progr raw < (m.toNat : Rat) then trunc (prep env mps e' fr.1.progr raw) else m) else m
          | _, _ => m) m0
        m.toNat ≤ m0.toNat ∧ (∀ c raw, (c, some raw) ∈ x :: froms → c.e = some e → m.toNat ≤ (prep env mps e c.progr raw).floor.toNat) ∧
          (m = m0 ∨ ∃ c raw, (c, some raw) ∈ x :: froms ∧ c.e = some e ∧ m.toNat = (prep env mps e c.progr raw).floor.toNat) := by
      intro hno
      obtain ⟨i1, i2, i3⟩ := ih hb' m0
      refine ⟨i1, ?_, ?_⟩
      · intro c raw hc he
        rcases List.mem_cons.mp hc with rfl | hc
        · exact absurd he (hno raw rfl)
        · exact i2 c raw hc he
      · rcases i3 with i3 | ⟨c, raw, h1, h2, h3⟩
        · exact .inl i3
        · exact .inr ⟨c, raw, List.mem_cons_of_mem _ h1, h2, h3⟩
    obtain ⟨c, o⟩ := x
    cases he : c.e with
    | none => simpa [he] using skip (by intro raw _; simp [he])
    | some e' =>
      cases o with
      | none => simpa [he] using skip (by intro raw h; cases h)
      | some raw =>
        simp only [he]
        by_cases hee : e' = e
        · subst hee
          rw [if_pos rfl]
          obtain ⟨p0, p1⟩ := hb c raw (by simp) he
          have ht := trunc_toNat (x := prep env mps e' c.progr raw) (n := 4294967295) (by omega) p1
          generalize hq : prep env mps e' c.progr raw = q at *
          generalize hm1 : (if q < (m0.toNat : Rat) then trunc q else m0) = m1
          have f1 : m1.toNat ≤ m0.toNat ∧ m1.toNat ≤ q.floor.toNat ∧ (m1 = m0 ∨ m1.toNat = q.floor.toNat) := by
            rw [← hm1]
            split
            · next hlt =>
              rw [ht]
              exact ⟨floor_le_nat (Rat.le_of_lt hlt), Nat.le_refl _, .inr rfl⟩
            · next hge =>
              have := Rat.not_lt.mp hge
              have h3 := Rat.floor_monotone this
              have h4 : ((m0.toNat : Rat)).floor = (m0.toNat : Int) := Rat.floor_intCast (m0.toNat : Int)
              exact ⟨Nat.le_refl _, by omega, .inl rfl⟩
          obtain ⟨i1, i2, i3⟩ := ih hb' m1
          refine ⟨by omega, ?_, ?_⟩
          · intro c2 raw2 hc he2
            rcases List.mem_cons.mp hc with hc | hc
            · simp only [Prod.mk.injEq, Option.some.injEq] at hc
              obtain ⟨rfl, rfl⟩ := hc
              rw [hq]
              exact Nat.le_trans i1 f1.2.1
            · exact i2 c2 raw2 hc he2
          · rcases i3 with i3 | ⟨c2, raw2, h1, h2, h3⟩
            · rcases f1.2.2 with f | f
              · exact .inl (i3.trans f)
              · refine .inr ⟨c, raw, by simp, he, ?_⟩
                rw [hq, i3, f]
            · exact .inr ⟨c2, raw2, List.mem_cons_of_mem _ h1, h2, h3⟩
        · rw [if_neg hee]
          exact skip (by intro raw' _ h; simp only at h; rw [he] at h; cases h; exact hee rfl)

theorem initCost_spec {env : HEnv} {froms : List (Cand × Option Rat)} {tos : List Cand} {maxCost : UInt32} {K : Nat}
    (hs : Sizes env (froms.map (·.1)) tos maxCost K) (hi : InitSizes env froms maxCost K) {e : Nat}
    (hex : ∃ c raw, (c, some raw) ∈ froms ∧ c.e = some e) :
    (∀ c raw, (c, some raw) ∈ froms → c.e = some e →
      (initCost env (maxProgr env (froms.map (·.1))) froms e).toNat ≤ (prep env (maxProgr env (froms.map (·.1))) e c.progr raw).floor.toNat) ∧
    (∃ c raw, (c, some raw) ∈ froms ∧ c.e = some e ∧
      (initCost env (maxProgr env (froms.map (·.1))) froms e).toNat = (prep env (maxProgr env (froms.map (·.1))) e c.progr raw).floor.toNat) ∧
    (initCost env (maxProgr env (froms.map (·.1))) froms e).toNat + maxCost.toNat + 2 * K < 4294967295 := by
  have pb : ∀ c raw, (c, some raw) ∈ froms → c.e = some e →
      (prep env (maxProgr env (froms.map (·.1))) e c.progr raw).floor.toNat + maxCost.toNat + 2 * K < 4294967295 := by
    intro c raw hc he
    have := floor_le_nat (prep_bounds (c := c) hs (List.mem_map.mpr ⟨_, hc, rfl⟩) he raw).2
    have := hi _ hc raw rfl
    omega
  obtain ⟨_, a2, a3⟩ := initCost_aux env (maxProgr env (froms.map (·.1))) e froms (by
    intro c raw hc he
    obtain ⟨b1, b2⟩ := prep_bounds (c := c) hs (List.mem_map.mpr ⟨_, hc, rfl⟩) he raw
    have h0 : (0 : Rat) ≤ ((env.inv raw).toNat : Rat) := by exact_mod_cast Nat.zero_le _
    have h1 : (((env.inv raw).toNat + K : Nat) : Rat) ≤ ((4294967295 : Nat) : Rat) := by
      have := hi _ hc raw rfl
      exact_mod_cast (by omega : (env.inv raw).toNat + K ≤ 4294967295)
    exact ⟨Rat.le_trans h0 b1, Rat.le_trans b2 h1⟩) routeInf
  refine ⟨a2, ?_, ?_⟩
  · rcases a3 with a3 | a3
    · obtain ⟨c, raw, hc, he⟩ := hex
      have h1 := a2 c raw hc he
      have h2 := pb c raw hc he
      rw [a3] at h1
      have : routeInf.toNat = 4294967295 := rfl
      omega
    · exact a3
  · obtain ⟨c, raw, hc, he⟩ := hex
    have h1 := a2 c raw hc he
    have h2 := pb c raw hc he
    exact Nat.lt_of_le_of_lt (Nat.add_le_add_right (Nat.add_le_add_right h1 _) _) h2

theorem minInit_aux (init : Nat → UInt32) (l : List Nat) (m : UInt32) :
    (l.foldl (fun m e => if init e < m then init e else m) m) ≤ m ∧
      ∀ e ∈ l, (l.foldl (fun m e => if init e < m then init e else m) m) ≤ init e := by
  induction l generalizing m with
  | nil => simp
  | cons x l ih =>
    rw [List.foldl_cons]
    generalize hm : (if init x < m then init x else m) = m1
    obtain ⟨i1, i2⟩ := ih m1
    have f : m1 ≤ m ∧ m1 ≤ init x := by
      rw [← hm]; split
      · next h => exact ⟨UInt32.le_of_lt h, UInt32.le_refl _⟩
      · next h => exact ⟨UInt32.le_refl _, UInt32.not_lt.mp h⟩
    refine ⟨UInt32.le_trans i1 f.1, ?_⟩
    intro e he
    rcases List.mem_cons.mp he with rfl | he
    · exact UInt32.le_trans i1 f.2
    · exact i2 e he

theorem maxInit_aux (init : Nat → UInt32) (l : List Nat) (hl : ∀ e ∈ l, init e ≠ routeInf) (m : UInt32) :
    m ≤ (l.foldl (fun m e => if init e ≠ routeInf ∧ m < init e then init e else m) m) ∧
      (∀ e ∈ l, init e ≤ (l.foldl (fun m e => if init e ≠ routeInf ∧ m < init e then init e else m) m)) ∧
      ((l.foldl (fun m e => if init e ≠ routeInf ∧ m < init e then init e else m) m) = m ∨
        ∃ e, e ∈ l ∧ (l.foldl (fun m e => if init e ≠ routeInf ∧ m < init e then init e else m) m) = init e) := by
  induction l generalizing m with
  | nil => simp
  | cons x l ih =>
    rw [List.foldl_cons]
    generalize hm : (if init x ≠ routeInf ∧ m < init x then init x else m) = m1
    obtain ⟨i1, i2, i3⟩ := ih (fun e he => hl e (List.mem_cons_of_mem _ he)) m1
    have f : m ≤ m1 ∧ init x ≤ m1 ∧ (m1 = m ∨ m1 = init x) := by
      rw [← hm]; split
      · next h => exact ⟨UInt32.le_of_lt h.2, UInt32.le_refl _, .inr rfl⟩
      · next h =>
        have : ¬ m < init x := fun h' => h ⟨hl x (by simp), h'⟩
        exact ⟨UInt32.le_refl _, UInt32.not_lt.mp this, .inl rfl⟩
    refine ⟨UInt32.le_trans f.1 i1, ?_, ?_⟩
    · intro e he
      rcases List.mem_cons.mp he with rfl | he
      · exact UInt32.le_trans f.2.1 i1
      · exact i2 e he
    · rcases i3 with i3 | ⟨e, he, i3⟩
      · rcases f.2.2 with f | f
        · exact .inl (i3.trans f)
        · exact .inr ⟨x, by simp, i3.trans f⟩
      · exact .inr ⟨e, List.mem_cons_of_mem _ he, i3⟩

/-- The greatest cost of the search does not wrap around and leaves room for every start. -/
theorem stop_spec {env : HEnv} {froms : List (Cand × Option Rat)} {tos : List Cand} {maxCost : UInt32} {K : Nat}
    (hs : Sizes env (froms.map (·.1)) tos maxCost K) (hi : InitSizes env froms maxCost K) (eFrs : List Nat)
    (he : ∀ e ∈ eFrs, ∃ c raw, (c, some raw) ∈ froms ∧ c.e = some e) (hne : eFrs ≠ []) :
    let raw := initCost env (maxProgr env (froms.map (·.1))) froms
    let lo := minInit raw eFrs
    let inf := addNonOverflow maxCost (trunc (maxProgr env (froms.map (·.1))))
    (inf + (maxInit raw eFrs - lo)).toNat = inf.toNat + (maxInit raw eFrs).toNat - lo.toNat ∧
      ∀ e ∈ eFrs, (raw e - lo).toNat + lo.toNat = (raw e).toNat ∧ (raw e).toNat ≤ (maxInit raw eFrs).toNat := by
  intro raw lo inf
  have hi' := inf_spec hs
  have sp := fun e h => (initCost_spec hs hi (he e h)).2.2
  obtain ⟨_, m2⟩ := minInit_aux raw eFrs routeInf
  obtain ⟨_, x2, x3⟩ := maxInit_aux raw eFrs (by
    intro e h heq
    have := sp e h
    have e2 : (initCost env (maxProgr env (froms.map (·.1))) froms e) = routeInf := heq
    rw [e2] at this
    have : routeInf.toNat = 4294967295 := rfl
    omega) 0
  have lom : ∀ e ∈ eFrs, lo.toNat ≤ (raw e).toNat := fun e h => UInt32.le_iff_toNat_le.mp (m2 e h)
  have him : ∀ e ∈ eFrs, (raw e).toNat ≤ (maxInit raw eFrs).toNat := fun e h => UInt32.le_iff_toNat_le.mp (x2 e h)
  obtain ⟨e0, h0⟩ := List.exists_mem_of_ne_nil eFrs hne
  have l0 := lom e0 h0
  have u0 := him e0 h0
  have top : (maxInit raw eFrs).toNat + maxCost.toNat + K < 4294967295 := by
    rcases x3 with x3 | ⟨e, h, x3⟩
    · have hr := hs.room
      have : (maxInit raw eFrs).toNat = 0 := by
        have : maxInit raw eFrs = 0 := x3
        rw [this]; rfl
      omega
    · have := sp e h
      have e2 : maxInit raw eFrs = raw e := x3
      rw [e2]
      show (initCost env (maxProgr env (froms.map (·.1))) froms e).toNat + _ + _ < _
      omega
  have hle : lo ≤ maxInit raw eFrs := UInt32.le_iff_toNat_le.mpr (by omega)
  refine ⟨?_, ?_⟩
  · rw [UInt32.toNat_add, UInt32.toNat_sub_of_le _ _ hle]
    have : inf.toNat = maxCost.toNat + (maxProgr env (froms.map (·.1))).floor.toNat := hi'.1
    omega
  · intro e h
    have := lom e h
    refine ⟨?_, him e h⟩
    rw [UInt32.toNat_sub_of_le _ _ (UInt32.le_iff_toNat_le.mpr this)]
    omega

theorem starts_edge {env : HEnv} {froms : List (Cand × Option Rat)} {tos : List Cand} {e : Nat}
    (h : e ∈ edges ((starts env froms tos).map (·.2))) : ∃ c raw, (c, some raw) ∈ froms ∧ c.e = some e := by
  rw [mem_edges] at h
  obtain ⟨c, hc, he⟩ := h
  obtain ⟨⟨i, c'⟩, hx, rfl⟩ := List.mem_map.mp hc
  obtain ⟨raw, _, h1, _, _⟩ := (mem_starts env froms tos i c').mp hx
  exact ⟨c', raw, List.mem_of_getElem? h1, he⟩

/-- **C67.** With an exact search the records of the cache stay true under the fast variant as well. -/
theorem C67_fast_cache {turn : Nat → Nat → Option Nat} {env : HEnv} (hb : BestOk turn env)
    (froms : List (Cand × Option Rat)) (tos : List Cand) (cache : Option Cache) (hc : ∀ x, cache = some x → CacheOk turn x)
    (maxCost : UInt32) (K : Nat) (hs : Sizes env (froms.map (·.1)) tos maxCost K) (hi : InitSizes env froms maxCost K) :
    ∀ x, (hopsFast env froms tos cache maxCost).2 = some x → CacheOk turn x := by
  unfold hopsFast
  simp only
  split
  · exact hc
  · next hne =>
    simp only [Bool.or_eq_true, not_or, List.isEmpty_iff] at hne
    obtain ⟨s1, s2⟩ := stop_spec hs hi (edges ((starts env froms tos).map (·.2))) (fun e h => starts_edge h) hne.1
    simp only at s1 s2
    have hl := hb.lost (edges ((starts env froms tos).map (·.2)))
    generalize edges ((starts env froms tos).map (·.2)) = eFrs at *
    generalize edges ((targets env (froms.map (·.1)) tos cache eFrs maxCost).map (·.2)) = eTos at *
    generalize initCost env (maxProgr env (froms.map (·.1))) froms = raw at *
    generalize minInit raw eFrs = lo at *
    generalize addNonOverflow maxCost (trunc (maxProgr env (froms.map (·.1)))) = inf at *
    generalize inf + (maxInit raw eFrs - lo) = stop at *
    specialize hl eTos (fun e => raw e - lo) inf stop
    generalize env.searchN eFrs eTos (fun e => raw e - lo) inf stop = l at *
    generalize ([] : List ((Nat × Nat) × UInt32)) = out
    revert hc
    generalize cache = k
    have : ∀ (out : List ((Nat × Nat) × UInt32)) (k : Option Cache) (frs trs : List (Nat × Cand)), (∀ x, k = some x → CacheOk turn x) →
        ∀ x, (l.foldl (fastStep env inf stop (maxProgr env (froms.map (·.1))) (fun e => raw e - lo) eFrs frs trs) (out, k)).2 = some x →
          CacheOk turn x := by
      induction l with
      | nil => intro out k frs trs hk; exact hk
      | cons r l ih =>
        intro out k frs trs hk
        rw [List.foldl_cons]
        have step : ∀ x, (fastStep env inf stop (maxProgr env (froms.map (·.1))) (fun e => raw e - lo) eFrs frs trs (out, k) r).2 = some x →
            CacheOk turn x := by
          intro x hx
          by_cases hst : stop ≤ r.2.2
          · simp only [fastStep, if_pos hst, Option.map_eq_some_iff] at hx
            obtain ⟨c, hcc, rfl⟩ := hx
            apply cacheOk_setMinFroms eFrs (hk c hcc)
            intro a ha y hy
            have h1 := hl r (by simp) hst a ha y hy
            have h2 := s2 a ha
            omega
          · by_cases hco : inf ≤ r.2.2 - (raw r.2.1 - lo)
            · simp only [fastStep, if_neg hst, if_pos hco] at hx
              exact hk x hx
            · simp only [fastStep, if_neg hst, if_neg hco] at hx
              exact hk x hx
        generalize fastStep env inf stop (maxProgr env (froms.map (·.1))) (fun e => raw e - lo) eFrs frs trs (out, k) r = st at *
        obtain ⟨o, k'⟩ := st
        exact ih (fun r' hr' => hl r' (List.mem_cons_of_mem _ hr')) o k' frs trs step
    intro hc
    exact this out k _ _ hc

/-- Of two candidates, both able to reach the target: the formula of `Travel` without the case distinction. -/
theorem travel_dist {turn : Nat → Nat → Option Nat} {cost : Nat → UInt32} {fr to : Cand} {c : Nat} (h : Travel turn cost fr to c) :
    ∃ ef et x : Nat, fr.e = some ef ∧ to.e = some et ∧ IsDist turn ef et x ∧ c + part cost ef fr.progr = x + part cost et to.progr := by
  obtain ⟨ef, et, h1, h2, h⟩ := h
  rcases h with ⟨rfl, _, h⟩ | ⟨_, x, hx, h⟩
  · exact ⟨ef, ef, 0, h1, h2, isDist_self turn ef, by omega⟩
  · exact ⟨ef, et, x, h1, h2, hx, h⟩

/-- The least cost of a start, in terms of the positions. -/
theorem prep_part {env : HEnv} {froms tos : List Cand} {maxCost : UInt32} {K : Nat} (hs : Sizes env froms tos maxCost K) {c : Cand}
    (hc : c ∈ froms) {e : Nat} (he : c.e = some e) (raw : Rat) :
    (((prep env (maxProgr env froms) e c.progr raw).floor.toNat : Nat) : Rat) ≤
        ((env.inv raw).toNat : Rat) + maxProgr env froms - ((part env.cost e c.progr : Nat) : Rat) ∧
      ((env.inv raw).toNat : Rat) + maxProgr env froms - ((part env.cost e c.progr : Nat) : Rat) <
        (((prep env (maxProgr env froms) e c.progr raw).floor.toNat : Nat) : Rat) + 2 := by
  have hp := progrC_le env e (hs.from0 c hc) (hs.from1 c hc)
  have hb := (prep_bounds hs hc he raw).1
  have h0 : (0 : Rat) ≤ ((env.inv raw).toNat : Rat) := by exact_mod_cast Nat.zero_le _
  have cast : ∀ x : Rat, 0 ≤ x → ((x.floor.toNat : Nat) : Rat) ≤ x ∧ x < ((x.floor.toNat : Nat) : Rat) + 1 := by
    intro x hx
    have e := floor_toNat hx
    have l := Rat.floor_le x
    have u := Rat.lt_floor_add_one x
    have e' : ((x.floor.toNat : Nat) : Rat) = ((x.floor : Int) : Rat) := by rw [← e]; rfl
    rw [e']
    exact ⟨l, by rw [Rat.intCast_add] at u; simpa using u⟩
  have c1 := cast _ (Rat.le_trans h0 hb)
  have c2 := cast _ hp.1
  have e3 : ((part env.cost e c.progr : Nat) : Rat) = (((progrC env e c.progr).floor.toNat : Nat) : Rat) := rfl
  rw [e3]
  generalize (((progrC env e c.progr).floor.toNat : Nat) : Rat) = fp at *
  generalize (((prep env (maxProgr env froms) e c.progr raw).floor.toNat : Nat) : Rat) = fq at *
  unfold prep at c1
  constructor <;> grind

/-- **C67 (partial).** The fast variant keeps the best start: with an exact search and no cache, if every candidate that was reached so far can
reach the target for less than the maximum, then the target is listed with a candidate whose total cost is least, up to one unit.
What is missing: the claim fails if a start lies on the target's edge behind it (`C67_negation_fast`) or with a cache (`C67_negation_fast_cache`). -/
theorem C67_fast_best_partial {turn : Nat → Nat → Option Nat} {env : HEnv} (hg : GraphOk turn env) (hb : BestOk turn env)
    (froms : List (Cand × Option Rat)) (tos : List Cand) (maxCost : UInt32) (K : Nat)
    (hs : Sizes env (froms.map (·.1)) tos maxCost K) (hi : InitSizes env froms maxCost K) (j : Nat) (to : Cand) (hto : tos[j]? = some to)
    (hex : ∃ c raw, (c, some raw) ∈ froms)
    (hall : ∀ c raw, (c, some raw) ∈ froms → ∃ x : Nat, Travel turn env.cost c to x ∧ x < maxCost.toNat) :
    ∃ (i : Nat) (fr : Cand) (raw : Rat) (c : UInt32), froms[i]? = some (fr, some raw) ∧
      ((i, j), c) ∈ (hopsFast env froms tos none maxCost).1 ∧
      ∀ c' raw' (x : Nat), (c', some raw') ∈ froms → Travel turn env.cost c' to x →
        (env.inv raw).toNat + c.toNat ≤ (env.inv raw').toNat + x + 1 := by
  obtain ⟨c0, raw0, h0⟩ := hex
  obtain ⟨x0, ht0, hx0⟩ := hall c0 raw0 h0
  obtain ⟨e0, t, d0, he0, het, hd0, _⟩ := travel_dist ht0
  have mto := List.mem_of_getElem? hto
  -- all candidates with a cost are starts
  have conn : ∀ c raw, (c, some raw) ∈ froms → ∃ e : Nat, c.e = some e ∧ connected env e tos = true ∧ env.compFr e = env.compFr t := by
    intro c raw hc
    obtain ⟨x, hx, _⟩ := hall c raw hc
    obtain ⟨e, t', d, he, het', hd, _⟩ := travel_dist hx
    rw [het] at het'; cases het'
    have q : env.compFr e = env.compFr t := (hg.comp _ _ _ hd.1).trans (hg.comp _ _ _ (Way.here t)).symm
    refine ⟨e, he, ?_, q⟩
    unfold connected
    rw [List.any_eq_true]
    exact ⟨to, mto, by simp [het, q]⟩
  have inStarts : ∀ c raw, (c, some raw) ∈ froms → ∃ i : Nat, froms[i]? = some (c, some raw) ∧ (i, c) ∈ starts env froms tos := by
    intro c raw hc
    obtain ⟨i, hlt, hgi⟩ := List.mem_iff_getElem.mp hc
    obtain ⟨e, he, hcn, _⟩ := conn c raw hc
    have : froms[i]? = some (c, some raw) := by rw [List.getElem?_eq_getElem hlt, hgi]
    exact ⟨i, this, (mem_starts env froms tos i c).mpr ⟨raw, e, this, he, hcn⟩⟩
  have inEdges : ∀ c raw (e : Nat), (c, some raw) ∈ froms → c.e = some e → e ∈ edges ((starts env froms tos).map (·.2)) := by
    intro c raw e hc he
    obtain ⟨i, _, hi⟩ := inStarts c raw hc
    exact (mem_edges _ _).mpr ⟨c, List.mem_map.mpr ⟨_, hi, rfl⟩, he⟩
  have hne : edges ((starts env froms tos).map (·.2)) ≠ [] := List.ne_nil_of_mem (inEdges c0 raw0 e0 h0 he0)
  have tgt : (j, to) ∈ targets env (froms.map (·.1)) tos none (edges ((starts env froms tos).map (·.2))) maxCost := by
    rw [mem_targets]
    refine ⟨hto, ?_⟩
    simp only [wanted, het, Bool.not_false, Bool.and_true]
    obtain ⟨e, he, _, hq⟩ := conn c0 raw0 h0
    unfold connected
    rw [List.any_eq_true]
    exact ⟨c0, List.mem_map.mpr ⟨_, h0, rfl⟩, by simp [he, hq]⟩
  have tin : t ∈ edges ((targets env (froms.map (·.1)) tos none (edges ((starts env froms tos).map (·.2))) maxCost).map (·.2)) :=
    (mem_edges _ _).mpr ⟨to, List.mem_map.mpr ⟨_, tgt, rfl⟩, het⟩
  obtain ⟨s1, s2⟩ := stop_spec hs hi _ (fun e h => starts_edge h) hne
  have isp := inf_spec hs
  simp only at s1 s2
  unfold hopsFast
  simp only
  rw [if_neg (by
    simp only [Bool.or_eq_true, List.isEmpty_iff, not_or]
    exact ⟨hne, List.ne_nil_of_mem tin⟩)]
  obtain ⟨r, hr, hrt⟩ := hb.all (edges ((starts env froms tos).map (·.2)))
    (edges ((targets env (froms.map (·.1)) tos none (edges ((starts env froms tos).map (·.2))) maxCost).map (·.2)))
    (fun e => initCost env (maxProgr env (froms.map (·.1))) froms e -
      minInit (initCost env (maxProgr env (froms.map (·.1))) froms) (edges ((starts env froms tos).map (·.2))))
    (addNonOverflow maxCost (trunc (maxProgr env (froms.map (·.1)))))
    (addNonOverflow maxCost (trunc (maxProgr env (froms.map (·.1)))) +
      (maxInit (initCost env (maxProgr env (froms.map (·.1))) froms) (edges ((starts env froms tos).map (·.2))) -
        minInit (initCost env (maxProgr env (froms.map (·.1))) froms) (edges ((starts env froms tos).map (·.2))))) t tin
  have hlost := hb.lost _ _ _ _ _ r hr
  have hleast := hb.least _ _ _ _ _ r hr
  have hfound := hb.found _ _ _ _ _ r hr
  -- ways of affordable candidates are below the raised bound
  have below : ∀ c raw, (c, some raw) ∈ froms → ∃ (e d : Nat), c.e = some e ∧ IsDist turn e t d ∧
      d < (addNonOverflow maxCost (trunc (maxProgr env (froms.map (·.1))))).toNat := by
    intro c raw hc
    obtain ⟨x, hx, hlt⟩ := hall c raw hc
    obtain ⟨e, t', d, he, het', hd, _⟩ := travel_dist hx
    rw [het] at het'; cases het'
    obtain ⟨d', hd', hl⟩ := travel_bound hs (List.mem_map.mpr ⟨(c, some raw), hc, rfl⟩) he het hx hlt
    exact ⟨e, d', he, hd', hl⟩
  have hlt : r.2.2 < addNonOverflow maxCost (trunc (maxProgr env (froms.map (·.1)))) +
      (maxInit (initCost env (maxProgr env (froms.map (·.1))) froms) (edges ((starts env froms tos).map (·.2))) -
        minInit (initCost env (maxProgr env (froms.map (·.1))) froms) (edges ((starts env froms tos).map (·.2)))) := by
    apply UInt32.not_le.mp
    intro hle
    obtain ⟨e, d, he, hd, hdl⟩ := below c0 raw0 h0
    have hm := inEdges c0 raw0 e h0 he
    have := hlost hle e hm d (hrt ▸ hd.1)
    have := s2 e hm
    omega
  obtain ⟨_, hf, x, hx, hv⟩ := hfound hlt
  have hbest := hleast hlt
  rw [hrt] at hx
  -- the candidate which determines the cost of the start found
  obtain ⟨_, ⟨c1, raw1, h1, he1, hini⟩, _⟩ := initCost_spec hs hi (starts_edge hf)
  obtain ⟨i1, hi1, hs1⟩ := inStarts c1 raw1 h1
  obtain ⟨y1, hy1, hyl⟩ := hall c1 raw1 h1
  obtain ⟨f', t', d1, hf', ht', hd1, heq1⟩ := travel_dist hy1
  rw [he1] at hf'; rw [het] at ht'; cases hf'; cases ht'
  have hxd := hx.unique hd1
  subst hxd
  obtain ⟨e1, d1', he1', hd1', hdl1⟩ := below c1 raw1 h1
  rw [he1] at he1'; cases he1'
  have := hd1'.unique hx
  subst this
  have hval : (r.2.2 - (initCost env (maxProgr env (froms.map (·.1))) froms r.2.1 -
      minInit (initCost env (maxProgr env (froms.map (·.1))) froms) (edges ((starts env froms tos).map (·.2))))).toNat = d1' := by
    rw [UInt32.toNat_sub_of_le _ _ (UInt32.le_iff_toNat_le.mpr (by omega))]
    omega
  have room := hs.room
  have m1 : c1 ∈ froms.map (·.1) := List.mem_map.mpr ⟨_, h1, rfl⟩
  have hyn : (UInt32.ofNat y1).toNat = y1 := by rw [UInt32.toNat_ofNat', Nat.mod_eq_of_lt (by omega)]
  refine ⟨i1, c1, raw1, UInt32.ofNat y1, hi1, ?_, ?_⟩
  · rw [fast_fold]
    refine .inr ⟨r, hr, hlt, UInt32.lt_iff_toNat_lt.mpr (by rw [hval]; exact hdl1), ?_⟩
    rw [mem_entries]
    refine ⟨c1, to, hs1, tgt, he1, by rw [hrt]; exact het, ?_⟩
    rw [hrt]
    rw [pair_spec hg hs m1 mto he1 het (UInt32.lt_iff_toNat_lt.mpr (by rw [hval]; exact hdl1)) (by rw [hval]; exact hx)]
    rw [hyn]
    exact ⟨hy1, UInt32.lt_iff_toNat_lt.mpr (by rw [hyn]; exact hyl)⟩
  · intro c2 raw2 x2 h2 hx2
    rw [hyn]
    obtain ⟨g, t', d2, hg2, ht', hd2, heq2⟩ := travel_dist hx2
    rw [het] at ht'; cases ht'
    have mg := inEdges c2 raw2 g h2 hg2
    have b := hbest g mg d2 (hrt ▸ hd2.1)
    have sg := s2 g mg
    have sf := s2 r.2.1 hf
    have ig := (initCost_spec hs hi (starts_edge mg)).1 c2 raw2 h2 hg2
    have p1 := (prep_part hs m1 he1 raw1).2
    have p2 := (prep_part hs (List.mem_map.mpr ⟨(c2, some raw2), h2, rfl⟩) hg2 raw2).1
    -- everything in whole numbers
    have tot : (initCost env (maxProgr env (froms.map (·.1))) froms r.2.1).toNat + d1' ≤
        (prep env (maxProgr env (froms.map (·.1))) g c2.progr raw2).floor.toNat + d2 := by omega
    rw [hini] at tot
    have totq : (((prep env (maxProgr env (froms.map (·.1))) r.2.1 c1.progr raw1).floor.toNat : Nat) : Rat) + (d1' : Rat) ≤
        (((prep env (maxProgr env (froms.map (·.1))) g c2.progr raw2).floor.toNat : Nat) : Rat) + (d2 : Rat) := by exact_mod_cast tot
    have q1 : (y1 : Rat) + ((part env.cost r.2.1 c1.progr : Nat) : Rat) = (d1' : Rat) + ((part env.cost t to.progr : Nat) : Rat) := by
      exact_mod_cast heq1
    have q2 : (x2 : Rat) + ((part env.cost g c2.progr : Nat) : Rat) = (d2 : Rat) + ((part env.cost t to.progr : Nat) : Rat) := by
      exact_mod_cast heq2
    have fin : (((env.inv raw1).toNat + y1 : Nat) : Rat) < (((env.inv raw2).toNat + x2 + 2 : Nat) : Rat) := by
      simp only [Rat.natCast_add]
      have : ((2 : Nat) : Rat) = 2 := rfl
      simp only at p2
      grind
    have fin' : (env.inv raw1).toNat + y1 < (env.inv raw2).toNat + x2 + 2 := by exact_mod_cast fin
    omega

/-! ### examples and limits -/

def exStarts : List (Cand × Option Rat) := [(⟨some 5, 1/2⟩, some 3), (⟨some 4, 0⟩, some 0), (⟨some 6, 1/2⟩, none), (⟨none, 0⟩, some 0)]

example : Sizes Chain.env (exStarts.map (·.1)) exTos 60 10 ∧ InitSizes Chain.env exStarts 60 10 ∧
    (hopsFast Chain.env exStarts exTos none 60).1 = [((0, 1), 18)] := by
  refine ⟨by constructor <;> decide +kernel, ?_, by decide +kernel⟩
  intro c hc raw hr
  simp only [exStarts, List.mem_cons, List.not_mem_nil, or_false] at hc
  rcases hc with rfl | rfl | rfl | rfl <;> cases hr <;> decide +kernel

/-- `C67_fast_best_partial` on the chain: two starts, the nearer one costs more so far and is still the best. -/
def exTwo : List (Cand × Option Rat) := [(⟨some 5, 1/2⟩, some 3), (⟨some 4, 0⟩, some 0)]

example : Sizes Chain.env (exTwo.map (·.1)) exTos 60 10 ∧ InitSizes Chain.env exTwo 60 10 ∧ (∃ c raw, (c, some raw) ∈ exTwo) ∧
    (∀ c raw, (c, some raw) ∈ exTwo → ∃ x : Nat, Travel Chain.turn Chain.env.cost c ⟨some 7, 3/10⟩ x ∧ x < (60 : UInt32).toNat) := by
  refine ⟨by constructor <;> decide +kernel, ?_, ⟨⟨some 4, 0⟩, 0, by simp [exTwo]⟩, ?_⟩
  · intro c hc raw hr
    simp only [exTwo, List.mem_cons, List.not_mem_nil, or_false] at hc
    rcases hc with rfl | rfl <;> cases hr <;> decide +kernel
  · intro c raw hc
    simp only [exTwo, List.mem_cons, List.not_mem_nil, or_false, Prod.mk.injEq, Option.some.injEq] at hc
    rcases hc with ⟨rfl, rfl⟩ | ⟨rfl, rfl⟩
    · exact ⟨18, ⟨5, 7, rfl, rfl, .inr ⟨by decide, 20, (Chain.dist_iff 5 7 20).mpr (by decide), by decide +kernel⟩⟩, by decide⟩
    · exact ⟨33, ⟨4, 7, rfl, rfl, .inr ⟨by decide, 30, (Chain.dist_iff 4 7 30).mpr (by decide), by decide +kernel⟩⟩, by decide⟩

/-- **C67 (negation).** The fast variant loses targets: the search knows only one best start edge per target edge; if that start lies on the
target's own edge, but behind the target, the pair is skipped, although another candidate reaches the target. The standard variant lists it. -/
theorem C67_negation_fast : ∃ (turn : Nat → Nat → Option Nat) (env : HEnv) (froms : List (Cand × Option Rat)) (tos : List Cand) (maxCost : UInt32),
    GraphOk turn env ∧ SearchOk turn env ∧ BestOk turn env ∧ Sizes env (froms.map (·.1)) tos maxCost 10 ∧ InitSizes env froms maxCost 10 ∧
    (hopsFast env froms tos none maxCost).1 = [] ∧ (hops env false (froms.map (·.1)) tos none maxCost).1 = [((1, 0), 12)] := by
  refine ⟨Chain.turn, Chain.env, [(⟨some 5, 1/2⟩, some 0), (⟨some 4, 0⟩, some 0)], [⟨some 5, 1/5⟩], 60,
    Chain.graphOk, Chain.searchOk, Chain.bestOk, by constructor <;> decide +kernel, ?_, by decide +kernel, by decide +kernel⟩
  intro c hc raw hr
  simp only [List.mem_cons, List.not_mem_nil, or_false] at hc
  rcases hc with rfl | rfl <;> cases hr <;> decide +kernel

/-- **C67 (negation).** The cache is visible in the fast variant: after a call with a smaller maximum an affordable target is dropped, because the
record is compared with the maximum before the start offset is added (Router.tpp:461, 514). -/
theorem C67_negation_fast_cache : ∃ (env : HEnv) (turn : Nat → Nat → Option Nat) (froms : List (Cand × Option Rat)) (tos : List Cand)
    (m₁ m₂ : UInt32), GraphOk turn env ∧ BestOk turn env ∧
    (hopsFast env froms tos none m₂).1 = [((0, 0), 110)] ∧
    (hopsFast env froms tos (hopsFast env froms tos (some empty) m₁).2 m₂).1 = [] := by
  exact ⟨Chain.env, Chain.turn, [(⟨some 1, 1⟩, some 0)], [⟨some 13, 0⟩], 110, 115, Chain.graphOk, Chain.bestOk, by decide +kernel,
    by decide +kernel⟩

end Verif.Hops
