import Verif.Hops.Spec
import Verif.HopCache.Props

/-!
# Costs between two layers of candidates (lemmas)
-/

set_option linter.unusedSimpArgs false

namespace Verif.Hops

open Verif.HopCache

/-! ### edges, ways -/

theorem mem_ins (e x : Nat) (l : List Nat) : x ∈ ins e l ↔ x = e ∨ x ∈ l := by
  induction l with
  | nil => simp [ins]
  | cons y ys ih =>
    simp only [ins]
    split
    · simp
    · split
      · simp only [List.mem_cons, ih]
        grind
      · have : e = y := by omega
        simp [this]

theorem mem_edges_aux (cs : List Cand) (s : List Nat) (x : Nat) :
    x ∈ cs.foldl (fun s c => match c.e with
      | none => s
      | some e => ins e s) s ↔ x ∈ s ∨ ∃ c, c ∈ cs ∧ c.e = some x := by
  induction cs generalizing s with
  | nil => simp
  | cons c cs ih =>
    rw [List.foldl_cons, ih]
    cases h : c.e with
    | none => simp [h]
    | some e =>
      simp only [mem_ins, List.mem_cons, exists_eq_or_imp, h, Option.some.injEq]
      grind

theorem mem_edges (cs : List Cand) (x : Nat) : x ∈ edges cs ↔ ∃ c, c ∈ cs ∧ c.e = some x := by
  have := mem_edges_aux cs [] x
  simp only [List.not_mem_nil, false_or] at this
  exact this

theorem IsDist.unique {turn : Nat → Nat → Option Nat} {a b x y : Nat} (hx : IsDist turn a b x) (hy : IsDist turn a b y) : x = y :=
  Nat.le_antisymm (hx.2 _ hy.1) (hy.2 _ hx.1)

theorem isDist_self (turn : Nat → Nat → Option Nat) (a : Nat) : IsDist turn a a 0 := ⟨.here a, fun _ _ => Nat.zero_le _⟩

theorem way_edge {turn : Nat → Nat → Option Nat} {env : HEnv} (hg : GraphOk turn env) {a b x : Nat} (h : Way turn a b x) (hab : a ≠ b) :
    (env.cost a).toNat ≤ x := by
  cases h with
  | here => exact absurd rfl hab
  | step ht _ => exact Nat.le_trans (hg.edge _ _ _ ht) (Nat.le_add_right _ _)

/-- A cheapest way exists if there is one. -/
theorem exists_isDist {turn : Nat → Nat → Option Nat} {a b : Nat} : ∀ {x : Nat}, Way turn a b x → ∃ y : Nat, y ≤ x ∧ IsDist turn a b y := by
  intro x
  induction x using Nat.strongRecOn with
  | ind x ih =>
    intro h
    by_cases hx : ∃ z : Nat, z < x ∧ Way turn a b z
    · obtain ⟨z, hz, hw⟩ := hx
      obtain ⟨y, hy, hd⟩ := ih z hz hw
      exact ⟨y, by omega, hd⟩
    · exact ⟨x, Nat.le_refl _, h, fun y hy => by
        rcases Nat.lt_or_ge y x with hlt | hge
        · exact absurd ⟨y, hlt, hy⟩ hx
        · exact hge⟩

/-! ### parts of edges -/

theorem floor_toNat {x : Rat} (h : 0 ≤ x) : ((x.floor.toNat : Nat) : Int) = x.floor := by
  have : (0 : Int) ≤ x.floor := Rat.le_floor_iff.mpr (by simpa using h)
  omega

theorem floor_le_nat {x : Rat} {n : Nat} (h : x ≤ (n : Rat)) : x.floor.toNat ≤ n := by
  have h1 := Rat.floor_monotone h
  have h2 : ((n : Rat)).floor = (n : Int) := by
    exact Rat.floor_intCast (n : Int)
  omega

theorem progrC_le (env : HEnv) (e : Nat) {p : Rat} (h0 : 0 ≤ p) (h1 : p ≤ 1) :
    0 ≤ progrC env e p ∧ progrC env e p ≤ ((env.cost e).toNat : Rat) := by
  have hc : (0 : Rat) ≤ ((env.cost e).toNat : Rat) := by exact_mod_cast Nat.zero_le _
  refine ⟨Rat.mul_nonneg hc h0, ?_⟩
  have := Rat.mul_le_mul_of_nonneg_left h1 hc
  unfold progrC
  grind

theorem part_le (env : HEnv) (e : Nat) {p : Rat} (h0 : 0 ≤ p) (h1 : p ≤ 1) : part env.cost e p ≤ (env.cost e).toNat :=
  floor_le_nat (progrC_le env e h0 h1).2

theorem part_mono (env : HEnv) (e : Nat) {p q : Rat} (h : p ≤ q) : part env.cost e p ≤ part env.cost e q := by
  have hc : (0 : Rat) ≤ ((env.cost e).toNat : Rat) := by exact_mod_cast Nat.zero_le _
  have := Rat.floor_monotone (Rat.mul_le_mul_of_nonneg_left h hc)
  unfold part
  omega

theorem part_zero (cost : Nat → UInt32) (e : Nat) : part cost e 0 = 0 := by
  unfold part
  rw [Rat.mul_zero]
  decide +kernel

theorem trunc_part (env : HEnv) (e : Nat) {p : Rat} (h0 : 0 ≤ p) (h1 : p ≤ 1) :
    (trunc (progrC env e p)).toNat = part env.cost e p := by
  have h2 := part_le env e h0 h1
  have h3 := (env.cost e).toNat_lt
  show (UInt32.ofNat (part env.cost e p)).toNat = _
  rw [UInt32.toNat_ofNat', Nat.mod_eq_of_lt (by omega)]

/-! ### the greatest start -/

theorem maxProgr_aux (env : HEnv) (froms : List Cand) (K : Nat) (h1 : ∀ c ∈ froms, 0 ≤ c.progr ∧ c.progr ≤ 1)
    (hK : ∀ c ∈ froms, ∀ e : Nat, c.e = some e → ((env.cost e).toNat : Rat) * c.progr ≤ (K : Rat)) (m0 : Rat) (h0 : 0 ≤ m0) (hm : m0 ≤ (K : Rat)) :
    let m := froms.foldl (fun m fr => match fr.e with
      | none => m
      | some e =>
        let p := if 0 < fr.progr then progrC env e fr.progr else 0
        if m < p then p else m) m0
    m0 ≤ m ∧ m ≤ (K : Rat) ∧ ∀ c ∈ froms, ∀ e : Nat, c.e = some e → progrC env e c.progr ≤ m := by
  induction froms generalizing m0 with
  | nil => simp [hm]
  | cons c cs ih =>
    simp only [List.foldl_cons]
    have h1' := fun x hx => h1 x (List.mem_cons_of_mem _ hx)
    have hK' := fun x hx => hK x (List.mem_cons_of_mem _ hx)
    cases he : c.e with
    | none =>
      simp only
      obtain ⟨a, b, d⟩ := ih h1' hK' m0 h0 hm
      refine ⟨a, b, ?_⟩
      intro x hx e hxe
      rcases List.mem_cons.mp hx with rfl | hx
      · rw [he] at hxe; cases hxe
      · exact d x hx e hxe
    | some e =>
      simp only
      have hp := progrC_le env e (h1 c (by simp)).1 (h1 c (by simp)).2
      have hk : progrC env e c.progr ≤ (K : Rat) := hK c (by simp) e he
      have hz : ¬ 0 < c.progr → progrC env e c.progr = 0 := by
        intro hn
        have : c.progr = 0 := Rat.le_antisymm (Rat.not_lt.mp hn) (h1 c (by simp)).1
        rw [progrC, this, Rat.mul_zero]
      generalize hq : (if 0 < c.progr then progrC env e c.progr else 0) = q
      have hq' : q = progrC env e c.progr := by
        rw [← hq]; split
        · rfl
        · next hn => exact (hz hn).symm
      rw [hq']
      generalize hm' : (if m0 < progrC env e c.progr then progrC env e c.progr else m0) = m1
      have f1 : m0 ≤ m1 ∧ m1 ≤ (K : Rat) ∧ progrC env e c.progr ≤ m1 := by
        rw [← hm']; split <;> grind
      obtain ⟨a, b, d⟩ := ih h1' hK' m1 (by grind) f1.2.1
      refine ⟨by grind, b, ?_⟩
      intro x hx e' hxe
      rcases List.mem_cons.mp hx with rfl | hx
      · rw [he] at hxe; cases hxe; grind
      · exact d x hx e' hxe

theorem maxProgr_spec {env : HEnv} {froms tos : List Cand} {maxCost : UInt32} {K : Nat} (hs : Sizes env froms tos maxCost K) :
    0 ≤ maxProgr env froms ∧ maxProgr env froms ≤ (K : Rat) ∧
      ∀ c ∈ froms, ∀ e : Nat, c.e = some e → progrC env e c.progr ≤ maxProgr env froms :=
  maxProgr_aux env froms K (fun c hc => ⟨hs.from0 c hc, hs.from1 c hc⟩) hs.fromK 0 (by grind) (by exact_mod_cast Nat.zero_le _)

/-- The raised bound. -/
theorem inf_spec {env : HEnv} {froms tos : List Cand} {maxCost : UInt32} {K : Nat} (hs : Sizes env froms tos maxCost K) :
    (addNonOverflow maxCost (trunc (maxProgr env froms))).toNat = maxCost.toNat + (maxProgr env froms).floor.toNat ∧
      (maxProgr env froms).floor.toNat ≤ K := by
  obtain ⟨_, h2, _⟩ := maxProgr_spec hs
  have hf := floor_le_nat h2
  have hr := hs.room
  refine ⟨?_, hf⟩
  rw [C17_addNonOverflow_spec, trunc, UInt32.toNat_ofNat', Nat.mod_eq_of_lt (by omega)]
  omega

/-- Comparing with the raised bound less the greatest start is comparing with the bound. -/
theorem limit_iff {env : HEnv} {froms tos : List Cand} {maxCost : UInt32} {K : Nat} (hs : Sizes env froms tos maxCost K) (c : UInt32) :
    ((c.toNat : Rat) < ((addNonOverflow maxCost (trunc (maxProgr env froms))).toNat : Rat) - maxProgr env froms) ↔ c < maxCost := by
  obtain ⟨h1, _, _⟩ := maxProgr_spec hs
  rw [(inf_spec hs).1]
  generalize maxProgr env froms = m at *
  have e := floor_toNat h1
  have l := Rat.floor_le m
  have u := Rat.lt_floor_add_one m
  have e' : ((m.floor.toNat : Nat) : Rat) = ((m.floor : Int) : Rat) := by rw [← e]; rfl
  rw [Rat.natCast_add, e', UInt32.lt_iff_toNat_lt]
  have u' : m < ((m.floor : Int) : Rat) + 1 := by
    rw [Rat.intCast_add] at u; simpa using u
  generalize ((m.floor : Int) : Rat) = f at *
  constructor
  · intro h
    have : (c.toNat : Rat) < (maxCost.toNat : Rat) := by grind
    exact_mod_cast this
  · intro h
    have : (c.toNat : Rat) + 1 ≤ (maxCost.toNat : Rat) := by exact_mod_cast h
    grind

/-! ### the cache -/

theorem get_set (c : Cache) (a b : Nat) (v : UInt32) (x y : Nat) :
    get (setEx c a b v) x y = (if x = a ∧ y = b then (v, true) else get c x y) ∧
      get (setMin c a b v) x y = if x = a ∧ y = b then (v, false) else get c x y := by
  have h1 := narrow_ofNat v
  have h2 := narrow_ex v
  constructor
  · simp only [HopCache.get, setEx, Cache.set]
    by_cases h : x = a ∧ y = b
    · simp only [if_pos h]
      rw [if_pos (by omega), h2]
    · simp only [if_neg h]
  · simp only [HopCache.get, setMin, Cache.set]
    by_cases h : x = a ∧ y = b
    · simp only [if_pos h]
      rw [if_neg (by omega), h1]
    · simp only [if_neg h]

theorem cacheOk_setEx {turn : Nat → Nat → Option Nat} {c : Cache} (h : CacheOk turn c) {a b : Nat} {v : UInt32}
    (hv : IsDist turn a b v.toNat) : CacheOk turn (setEx c a b v) := by
  intro x y
  rw [(get_set c a b v x y).1]
  split
  · next hxy => rw [hxy.1, hxy.2]; simp [hv]
  · exact h x y

theorem cacheOk_setMin {turn : Nat → Nat → Option Nat} {c : Cache} (h : CacheOk turn c) {a b : Nat} {v : UInt32}
    (hv : ∀ y, Way turn a b y → v.toNat ≤ y) : CacheOk turn (setMin c a b v) := by
  intro x y
  rw [(get_set c a b v x y).2]
  split
  · next hxy => rw [hxy.1, hxy.2]; simpa using hv
  · exact h x y

theorem cacheOk_setMinFroms {turn : Nat → Nat → Option Nat} (as : List Nat) {b : Nat} {v : UInt32} :
    ∀ {c : Cache}, CacheOk turn c → (∀ a ∈ as, ∀ y, Way turn a b y → v.toNat ≤ y) → CacheOk turn (setMinFroms c as b v) := by
  induction as with
  | nil => intro c h _; exact h
  | cons a as ih =>
    intro c h hv
    exact ih (c := setMin c a b v) (cacheOk_setMin h (hv a (by simp))) (fun x hx => hv x (List.mem_cons_of_mem _ hx))

/-- An optional cache. -/
def CacheOk? (turn : Nat → Nat → Option Nat) (c : Option Cache) : Prop := ∀ x, c = some x → CacheOk turn x

/-! ### the matrix of edge costs -/

/-- The cost kept for two edges is right as far as it is below the bound. -/
def Good (turn : Nat → Nat → Option Nat) (inf : UInt32) (a b : Nat) (v : UInt32) : Prop :=
  (v < inf → IsDist turn a b v.toNat) ∧ (inf ≤ v → ∀ y, Way turn a b y → inf.toNat ≤ y)

theorem early_good {turn : Nat → Nat → Option Nat} {env : HEnv} (hg : GraphOk turn env) {needDist : Bool} {inf : UInt32}
    {cache : Option Cache} (hc : CacheOk? turn cache) (h2 : 2 ≤ inf.toNat) {fr to : Nat} {v : UInt32}
    (h : early env needDist inf cache fr to = some v) : Good turn inf fr to v := by
  unfold early at h
  have hinf : Good turn inf fr to inf ↔ ∀ y, Way turn fr to y → inf.toNat ≤ y := by simp [Good]
  by_cases hne : env.compFr fr ≠ env.compTo to
  · simp only [if_pos hne, Option.some.injEq] at h
    rw [← h, hinf]
    exact fun y hy => absurd (hg.comp _ _ _ hy) hne
  · have hle : ¬ inf ≤ (if (look cache fr to).2 = true then 1 else 0) := by
      intro hle
      rw [UInt32.le_iff_toNat_le] at hle
      split at hle <;> simp at hle <;> omega
    · simp only [if_neg hne, if_neg hle] at h
      split at h
      · next hb =>
        simp only [Bool.and_eq_true] at hb
        simp only [Option.some.injEq] at h
        cases cache with
        | none => simp [look] at hb
        | some c =>
          have hd := ((hc c rfl) fr to).1 hb.2
          change (get c fr to).1 = v at h
          rw [h] at hd
          exact ⟨fun _ => hd, fun hi y hy => Nat.le_trans (UInt32.le_iff_toNat_le.mp hi) (hd.2 y hy)⟩
      · cases h

theorem prefill_cell (f : Nat → Option UInt32) (fr : Nat) (l : List Nat) (m : Matrix) (a b : Nat) :
    l.foldl (fun m to => match f to with
      | some c => setM m fr to c
      | none => m) m a b =
    if a = fr ∧ b ∈ l then (f b).getD (m a b) else m a b := by
  induction l generalizing m with
  | nil => simp
  | cons t l ih =>
    rw [List.foldl_cons, ih]
    cases ht : f t with
    | none =>
      simp only [List.mem_cons]
      by_cases h1 : b = t
      · subst h1; simp [ht]
      · simp [h1]
    | some c =>
      simp only [List.mem_cons, setM]
      by_cases h1 : b = t
      · subst h1
        by_cases h2 : a = fr
        · simp [ht, h2]
        · simp [h2]
      · simp [h1]

theorem store_fold {turn : Nat → Nat → Option Nat} {inf : UInt32} {fr : Nat}
    (l : List (Nat × UInt32 × Bool))
    (hf : ∀ r ∈ l, r.2.2 = true → r.2.1 < inf ∧ IsDist turn fr r.1 r.2.1.toNat)
    (hl : ∀ r ∈ l, r.2.2 = false → inf ≤ r.2.1 ∧ ∀ y, Way turn fr r.1 y → inf.toNat ≤ y)
    (st : Matrix × Option Cache) (hc : CacheOk? turn st.2) :
    let r := l.foldl (store inf fr) st
    CacheOk? turn r.2 ∧ (∀ a : Nat, a ≠ fr → r.1 a = st.1 a) ∧
      (∀ t : Nat, (∀ x ∈ l, x.1 ≠ t) → r.1 fr t = st.1 fr t) ∧
      (∀ t : Nat, (∃ x, x ∈ l ∧ x.1 = t) → Good turn inf fr t (r.1 fr t)) := by
  induction l generalizing st with
  | nil => simp [hc]
  | cons x l ih =>
    have hx : Good turn inf fr x.1 x.2.1 := by
      cases hb : x.2.2 with
      | true =>
        obtain ⟨h1, h2⟩ := hf x (by simp) hb
        exact ⟨fun _ => h2, fun hi => absurd (UInt32.lt_iff_toNat_lt.mp h1) (by have := UInt32.le_iff_toNat_le.mp hi; omega)⟩
      | false =>
        obtain ⟨h1, h2⟩ := hl x (by simp) hb
        exact ⟨fun hlt => absurd (UInt32.lt_iff_toNat_lt.mp hlt) (by have := UInt32.le_iff_toNat_le.mp h1; omega), fun _ => h2⟩
    have hc' : CacheOk? turn (store inf fr st x).2 := by
      intro c' h'
      simp only [store, Option.map_eq_some_iff] at h'
      obtain ⟨c, hcc, rfl⟩ := h'
      cases hb : x.2.2 with
      | true => simpa using cacheOk_setEx (hc c hcc) (hf x (by simp) hb).2
      | false => simpa using cacheOk_setMin (hc c hcc) (hl x (by simp) hb).2
    obtain ⟨i1, i2, i3, i4⟩ := ih (fun r hr => hf r (List.mem_cons_of_mem _ hr)) (fun r hr => hl r (List.mem_cons_of_mem _ hr))
      (store inf fr st x) hc'
    simp only [List.foldl_cons]
    refine ⟨i1, ?_, ?_, ?_⟩
    · intro a ha
      rw [i2 a ha]
      funext b
      simp [store, setM, ha]
    · intro t ht
      rw [i3 t (fun y hy => ht y (List.mem_cons_of_mem _ hy))]
      have := ht x (by simp)
      simp only [store, setM]
      rw [if_neg (by intro h; exact this h.2.symm)]
    · intro t ht
      by_cases hin : ∃ y, y ∈ l ∧ y.1 = t
      · exact i4 t hin
      · rw [i3 t (fun y hy he => hin ⟨y, hy, he⟩)]
        obtain ⟨y, hy, he⟩ := ht
        rcases List.mem_cons.mp hy with rfl | hy
        · subst he
          simpa [store, setM] using hx
        · exact absurd ⟨y, hy, he⟩ hin

theorem fromStep_spec {turn : Nat → Nat → Option Nat} {env : HEnv} (hg : GraphOk turn env) (hse : SearchOk turn env) {needDist : Bool}
    {inf : UInt32} (h2 : 2 ≤ inf.toNat) (eTos : List Nat) (st : Matrix × Option Cache) (hc : CacheOk? turn st.2) (fr : Nat) :
    let r := fromStep env needDist inf eTos st fr
    CacheOk? turn r.2 ∧ (∀ a : Nat, a ≠ fr → r.1 a = st.1 a) ∧ ∀ t ∈ eTos, Good turn inf fr t (r.1 fr t) := by
  simp only
  unfold fromStep
  simp only
  generalize hm : (eTos.foldl (fun m to => match early env needDist inf st.2 fr to with
    | some c => setM m fr to c
    | none => m) st.1) = m
  have cell : ∀ a b : Nat, m a b = if a = fr ∧ b ∈ eTos then (early env needDist inf st.2 fr b).getD (st.1 a b) else st.1 a b := by
    intro a b; rw [← hm]; exact prefill_cell (early env needDist inf st.2 fr) fr eTos st.1 a b
  have row : ∀ a : Nat, a ≠ fr → m a = st.1 a := by
    intro a ha; funext b; rw [cell]; simp [ha]
  have known : ∀ t ∈ eTos, (early env needDist inf st.2 fr t).isNone = false → Good turn inf fr t (m fr t) := by
    intro t ht hk
    cases he : early env needDist inf st.2 fr t with
    | none => simp [he] at hk
    | some v =>
      rw [cell, if_pos ⟨rfl, ht⟩, he]
      exact early_good hg hc h2 he
  generalize hr : (eTos.filter fun to => (early env needDist inf st.2 fr to).isNone) = rem
  have memr : ∀ t : Nat, t ∈ rem ↔ t ∈ eTos ∧ (early env needDist inf st.2 fr t).isNone = true := by
    intro t; rw [← hr, List.mem_filter]
  by_cases hemp : rem.isEmpty = true
  · rw [if_pos hemp]
    refine ⟨hc, row, ?_⟩
    intro t ht
    apply known t ht
    cases hb : (early env needDist inf st.2 fr t).isNone with
    | false => rfl
    | true =>
      have := (memr t).mpr ⟨ht, hb⟩
      rw [List.isEmpty_iff.mp hemp] at this
      cases this
  · rw [if_neg hemp]
    obtain ⟨i1, i2, i3, i4⟩ := store_fold (turn := turn) (inf := inf) (fr := fr) (env.search fr rem inf)
      (fun r hr => hse.found fr rem inf r hr) (fun r hr => hse.lost fr rem inf r hr) (m, st.2) hc
    refine ⟨i1, fun a ha => by rw [i2 a ha]; exact row a ha, ?_⟩
    intro t ht
    cases hb : (early env needDist inf st.2 fr t).isNone with
    | true => exact i4 t (hse.all fr rem inf t ((memr t).mpr ⟨ht, hb⟩))
    | false =>
      have : ∀ x ∈ env.search fr rem inf, x.1 ≠ t := by
        intro x hx he
        have := ((memr t).mp (he ▸ hse.only fr rem inf x hx)).2
        rw [hb] at this; cases this
      rw [i3 t this]
      exact known t ht hb

theorem froms_fold {turn : Nat → Nat → Option Nat} {env : HEnv} (hg : GraphOk turn env) (hse : SearchOk turn env) {needDist : Bool}
    {inf : UInt32} (h2 : 2 ≤ inf.toNat) (eTos : List Nat) : ∀ (l : List Nat) (st : Matrix × Option Cache), CacheOk? turn st.2 →
    let r := l.foldl (fromStep env needDist inf eTos) st
    CacheOk? turn r.2 ∧ (∀ a : Nat, a ∉ l → r.1 a = st.1 a) ∧ ∀ a ∈ l, ∀ t ∈ eTos, Good turn inf a t (r.1 a t) := by
  intro l
  induction l with
  | nil => intro st hc; simp [hc]
  | cons x l ih =>
    intro st hc
    obtain ⟨s1, s2, s3⟩ := fromStep_spec hg hse (needDist := needDist) h2 eTos st hc x
    obtain ⟨i1, i2, i3⟩ := ih _ s1
    simp only [List.foldl_cons]
    refine ⟨i1, ?_, ?_⟩
    · intro a ha
      simp only [List.mem_cons, not_or] at ha
      rw [i2 a ha.2, s2 a ha.1]
    · intro a ha t ht
      by_cases hal : a ∈ l
      · exact i3 a hal t ht
      · rcases List.mem_cons.mp ha with rfl | h
        · rw [i2 a hal]; exact s3 t ht
        · exact absurd h hal

/-! ### from edges to positions -/

theorem shift_spec {turn : Nat → Nat → Option Nat} {env : HEnv} (hg : GraphOk turn env) {froms tos : List Cand} {maxCost : UInt32} {K : Nat}
    (hs : Sizes env froms tos maxCost K) {fr to : Cand} (hfr : fr ∈ froms) (hto : to ∈ tos) {ef et : Nat} (hef : fr.e = some ef)
    (het : to.e = some et) {v : UInt32} (hd : IsDist turn ef et v.toNat) (hv : v.toNat < maxCost.toNat + K) (c : Nat) :
    ((shift env ef et fr.progr to.progr v).map (·.toNat) = some c) ↔ Travel turn env.cost fr to c := by
  have pf := trunc_part env ef (hs.from0 _ hfr) (hs.from1 _ hfr)
  have pt := trunc_part env et (hs.to0 _ hto) (hs.to1 _ hto)
  have lf := part_le env ef (hs.from0 _ hfr) (hs.from1 _ hfr)
  have lt := part_le env et (hs.to0 _ hto) (hs.to1 _ hto)
  have kt : part env.cost et to.progr ≤ K := floor_le_nat (hs.toK _ hto _ het)
  have room := hs.room
  unfold shift
  by_cases he : ef = et
  · subst he
    have hv0 : v.toNat = 0 := hd.unique (isDist_self turn ef)
    rw [if_pos rfl]
    by_cases hp : fr.progr ≤ to.progr
    · have hm := part_mono env ef hp
      rw [if_pos hp]
      have e1 : (v + (trunc (progrC env ef to.progr) - trunc (progrC env ef fr.progr))).toNat =
          part env.cost ef to.progr - part env.cost ef fr.progr := by
        rw [UInt32.toNat_add, UInt32.toNat_sub_of_le _ _ (UInt32.le_iff_toNat_le.mpr (by omega)), hv0, pf, pt]
        omega
      simp only [Option.map_some, e1, Option.some.injEq]
      constructor
      · intro h; exact ⟨ef, ef, hef, het, .inl ⟨rfl, hp, by omega⟩⟩
      · rintro ⟨a, b, ha, hb, h⟩
        rw [hef] at ha; rw [het] at hb; cases ha; cases hb
        rcases h with ⟨_, _, h⟩ | ⟨h, _⟩
        · omega
        · exact absurd rfl h
    · rw [if_neg hp]
      simp only [Option.map_none, false_iff, reduceCtorEq]
      rintro ⟨a, b, ha, hb, h⟩
      rw [hef] at ha; rw [het] at hb; cases ha; cases hb
      rcases h with ⟨_, h, _⟩ | ⟨h, _⟩
      · exact hp h
      · exact absurd rfl h
  · rw [if_neg he]
    have hce := way_edge hg hd.1 he
    have e0 : (if 0 < fr.progr then v - trunc (progrC env ef fr.progr) else v).toNat = v.toNat - part env.cost ef fr.progr := by
      split
      · rw [UInt32.toNat_sub_of_le _ _ (UInt32.le_iff_toNat_le.mpr (by omega)), pf]
      · next hn =>
        have : fr.progr = 0 := Rat.le_antisymm (Rat.not_lt.mp hn) (hs.from0 _ hfr)
        rw [this, part_zero]; rfl
    generalize (if 0 < fr.progr then v - trunc (progrC env ef fr.progr) else v) = w at *
    have e1 : (if 0 < to.progr then w + trunc (progrC env et to.progr) else w).toNat =
        v.toNat - part env.cost ef fr.progr + part env.cost et to.progr := by
      split
      · rw [UInt32.toNat_add, pt, e0]; omega
      · next hn =>
        have : to.progr = 0 := Rat.le_antisymm (Rat.not_lt.mp hn) (hs.to0 _ hto)
        rw [this, part_zero, e0]; rfl
    simp only [Option.map_some, e1, Option.some.injEq]
    constructor
    · intro h; exact ⟨ef, et, hef, het, .inr ⟨he, v.toNat, hd, by omega⟩⟩
    · rintro ⟨a, b, ha, hb, h⟩
      rw [hef] at ha; rw [het] at hb; cases ha; cases hb
      rcases h with ⟨h, _⟩ | ⟨_, x, hx, h⟩
      · exact absurd h he
      · have := hx.unique hd; omega

/-- Nothing affordable is beyond the raised bound. -/
theorem travel_bound {turn : Nat → Nat → Option Nat} {env : HEnv} {froms tos : List Cand} {maxCost : UInt32} {K : Nat}
    (hs : Sizes env froms tos maxCost K) {fr to : Cand} (hfr : fr ∈ froms) {ef et : Nat} (hef : fr.e = some ef)
    (het : to.e = some et) {c : Nat} (ht : Travel turn env.cost fr to c) (hc : c < maxCost.toNat) :
    ∃ x : Nat, IsDist turn ef et x ∧ x < (addNonOverflow maxCost (trunc (maxProgr env froms))).toNat := by
  obtain ⟨m0, _, m2⟩ := maxProgr_spec hs
  have hp : part env.cost ef fr.progr ≤ (maxProgr env froms).floor.toNat := by
    have := Rat.floor_monotone (m2 fr hfr ef hef)
    unfold progrC at this
    unfold part
    omega
  rw [(inf_spec hs).1]
  obtain ⟨a, b, ha, hb, h⟩ := ht
  rw [hef] at ha; rw [het] at hb; cases ha; cases hb
  rcases h with ⟨h, _, _⟩ | ⟨_, x, hx, h⟩
  · subst h
    exact ⟨0, isDist_self turn ef, by omega⟩
  · exact ⟨x, hx, by omega⟩

theorem pair_spec {turn : Nat → Nat → Option Nat} {env : HEnv} (hg : GraphOk turn env) {froms tos : List Cand} {maxCost : UInt32} {K : Nat}
    (hs : Sizes env froms tos maxCost K) {fr to : Cand} (hfr : fr ∈ froms) (hto : to ∈ tos) {ef et : Nat} (hef : fr.e = some ef)
    (het : to.e = some et) {v : UInt32} (hv : v < addNonOverflow maxCost (trunc (maxProgr env froms)))
    (hd : IsDist turn ef et v.toNat) (c : UInt32) :
    limit (addNonOverflow maxCost (trunc (maxProgr env froms))) (maxProgr env froms) (shift env ef et fr.progr to.progr v) = some c ↔
      Travel turn env.cost fr to c.toNat ∧ c < maxCost := by
  have i := inf_spec hs
  have hb := UInt32.lt_iff_toNat_lt.mp hv
  have sp := shift_spec hg hs hfr hto hef het hd (by omega) c.toNat
  unfold limit
  rw [Option.filter_eq_some_iff, ← sp]
  simp only [decide_eq_true_eq, limit_iff hs]
  constructor
  · rintro ⟨h1, h2⟩
    exact ⟨by rw [h1]; rfl, h2⟩
  · rintro ⟨h1, h2⟩
    refine ⟨?_, h2⟩
    rw [Option.map_eq_some_iff] at h1
    obtain ⟨d, h1, h3⟩ := h1
    rw [h1, UInt32.toNat_inj.mp h3]

end Verif.Hops
