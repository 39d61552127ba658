import Verif.Hops.Lemmas

/-!
# C67: costs between two layers of candidates
-/

set_option linter.unusedSimpArgs false

namespace Verif.Hops

open Verif.HopCache

/-! ### the standard variant -/

theorem mem_row (env : HEnv) (inf : UInt32) (mps : Rat) (m : Matrix) (tos : List Cand) (fr : Cand × Nat) (y : (Nat × Nat) × UInt32) :
    y ∈ row env inf mps m tos fr ↔
      ∃ (to : Cand) (ef et : Nat), y.1.1 = fr.2 ∧ tos[y.1.2]? = some to ∧ fr.1.e = some ef ∧ to.e = some et ∧
        m ef et < inf ∧ limit inf mps (shift env ef et fr.1.progr to.progr (m ef et)) = some y.2 := by
  unfold row
  cases he : fr.1.e with
  | none => simp
  | some ef =>
    simp only [List.mem_filterMap]
    constructor
    · rintro ⟨to, hto, h⟩
      rw [List.mem_zipIdx_iff_getElem?] at hto
      cases ht : to.1.e with
      | none => simp [ht] at h
      | some et =>
        simp only [ht] at h
        split at h
        · cases h
        · next hn =>
          rw [Option.map_eq_some_iff] at h
          obtain ⟨c', hc, rfl⟩ := h
          exact ⟨to.1, ef, et, rfl, hto, rfl, ht, UInt32.not_le.mp hn, hc⟩
    · rintro ⟨to, ef', et, h1, hto, h2, ht, hlt, hc⟩
      cases h2
      refine ⟨(to, y.1.2), by rw [List.mem_zipIdx_iff_getElem?]; exact hto, ?_⟩
      simp only [ht]
      rw [if_neg (UInt32.not_le.mpr hlt), hc, ← h1]
      rfl

theorem mem_build (env : HEnv) (inf : UInt32) (mps : Rat) (m : Matrix) (froms tos : List Cand) (i j : Nat) (c : UInt32) :
    ((i, j), c) ∈ build env inf mps m froms tos ↔
      ∃ (fr to : Cand) (ef et : Nat), froms[i]? = some fr ∧ tos[j]? = some to ∧ fr.e = some ef ∧ to.e = some et ∧
        m ef et < inf ∧ limit inf mps (shift env ef et fr.progr to.progr (m ef et)) = some c := by
  unfold build
  rw [List.mem_flatMap]
  constructor
  · rintro ⟨fr, hfr, h⟩
    rw [List.mem_zipIdx_iff_getElem?] at hfr
    rw [mem_row] at h
    obtain ⟨to, ef, et, h1, h2, h3, h4⟩ := h
    simp only at h1 h2
    subst h1
    exact ⟨fr.1, to, ef, et, hfr, h2, h3, h4⟩
  · rintro ⟨fr, to, ef, et, hfr, hto, h⟩
    refine ⟨(fr, i), by rw [List.mem_zipIdx_iff_getElem?]; exact hfr, ?_⟩
    rw [mem_row]
    exact ⟨to, ef, et, rfl, hto, h⟩

/-- **C67.** `hops` lists a pair of candidates iff the second one can be reached from the first for less than the maximum cost, and the cost
listed is the cost of a cheapest way, whatever true records the cache holds; the records stay true. -/
theorem C67_hops_exact {turn : Nat → Nat → Option Nat} {env : HEnv} (hg : GraphOk turn env) (hse : SearchOk turn env) (needDist : Bool)
    (froms tos : List Cand) (cache : Option Cache) (hc : ∀ x, cache = some x → CacheOk turn x) (maxCost : UInt32) (K : Nat)
    (hs : Sizes env froms tos maxCost K) :
    (∀ (i j : Nat) (c : UInt32), ((i, j), c) ∈ (hops env needDist froms tos cache maxCost).1 ↔
      ∃ fr to : Cand, froms[i]? = some fr ∧ tos[j]? = some to ∧ Travel turn env.cost fr to c.toNat ∧ c < maxCost) ∧
    (∀ x, (hops env needDist froms tos cache maxCost).2 = some x → CacheOk turn x) := by
  have hi := inf_spec hs
  have h2 := hs.two
  obtain ⟨f1, _, f3⟩ := froms_fold hg hse (needDist := needDist) (inf := addNonOverflow maxCost (trunc (maxProgr env froms))) (by omega)
    (edges tos) (edges froms) (fun _ _ => 0, cache) hc
  refine ⟨?_, f1⟩
  intro i j c
  unfold hops
  simp only
  rw [mem_build]
  generalize hm : ((edges froms).foldl (fromStep env needDist (addNonOverflow maxCost (trunc (maxProgr env froms))) (edges tos))
    (fun _ _ => 0, cache)).1 = m at *
  have good : ∀ (fr to : Cand) (ef et : Nat), fr ∈ froms → to ∈ tos → fr.e = some ef → to.e = some et →
      Good turn (addNonOverflow maxCost (trunc (maxProgr env froms))) ef et (m ef et) := by
    intro fr to ef et hfr hto he ht
    exact f3 ef ((mem_edges froms ef).mpr ⟨fr, hfr, he⟩) et ((mem_edges tos et).mpr ⟨to, hto, ht⟩)
  constructor
  · rintro ⟨fr, to, ef, et, hfr, hto, he, ht, hlt, hl⟩
    have mf := List.mem_of_getElem? hfr
    have mt := List.mem_of_getElem? hto
    exact ⟨fr, to, hfr, hto, (pair_spec hg hs mf mt he ht hlt ((good fr to ef et mf mt he ht).1 hlt) c).mp hl⟩
  · rintro ⟨fr, to, hfr, hto, ht, hlt⟩
    have mf := List.mem_of_getElem? hfr
    have mt := List.mem_of_getElem? hto
    have ht' := ht
    obtain ⟨ef, et, he, het, _⟩ := ht'
    obtain ⟨x, hx, hxi⟩ := travel_bound hs mf he het ht (UInt32.lt_iff_toNat_lt.mp hlt)
    have hgd := good fr to ef et mf mt he het
    have hm' : m ef et < addNonOverflow maxCost (trunc (maxProgr env froms)) := by
      apply UInt32.not_le.mp
      intro hle
      have := hgd.2 hle x hx.1
      omega
    exact ⟨fr, to, ef, et, hfr, hto, he, het, hm', (pair_spec hg hs mf mt he het hm' (hgd.1 hm') c).mpr ⟨ht, hlt⟩⟩

/-- **C67.** No pair is listed twice: the entries come in the order of the first and then of the second position. -/
theorem C67_hops_order (env : HEnv) (needDist : Bool) (froms tos : List Cand) (cache : Option Cache) (maxCost : UInt32) :
    (hops env needDist froms tos cache maxCost).1.Pairwise fun x y =>
      x.1.1 < y.1.1 ∨ (x.1.1 = y.1.1 ∧ x.1.2 < y.1.2) := by
  have idx : ∀ l : List Cand, l.zipIdx.Pairwise fun x y => x.2 < y.2 := by
    intro l
    rw [List.pairwise_iff_getElem]
    intro a b ha hb hab
    simpa using hab
  unfold hops build
  simp only
  rw [List.pairwise_flatMap]
  constructor
  · intro fr _
    unfold row
    cases he : fr.1.e with
    | none => simp
    | some ef =>
      simp only
      rw [List.pairwise_filterMap]
      refine (idx tos).imp ?_
      intro t1 t2 hj a ha b hb
      right
      cases h1 : t1.1.e with
      | none => simp [h1] at ha
      | some e1 =>
        cases h2 : t2.1.e with
        | none => simp [h2] at hb
        | some e2 =>
          simp only [h1] at ha
          simp only [h2] at hb
          split at ha
          · cases ha
          · split at hb
            · cases hb
            · rw [Option.map_eq_some_iff] at ha hb
              obtain ⟨c, _, rfl⟩ := ha
              obtain ⟨d, _, rfl⟩ := hb
              exact ⟨rfl, hj⟩
  · refine (idx froms).imp ?_
    intro x y hxy a ha b hb
    left
    rw [mem_row] at ha hb
    obtain ⟨_, _, _, h1, _⟩ := ha
    obtain ⟨_, _, _, h2, _⟩ := hb
    rw [h1, h2]
    exact hxy

/-! ### a chain of edges for the examples -/

namespace Chain

/-- Edge `n + 1` follows edge `n`, every edge costs 10. -/
def turn (a b : Nat) : Option Nat := if b = a + 1 then some 10 else none

def best (init : Nat → UInt32) (t : Nat) : List Nat → Option (Nat × Nat)
  | [] => none
  | f :: fs =>
    if f ≤ t then
      match best init t fs with
      | none => some (f, (init f).toNat + 10 * (t - f))
      | some (g, w) => if (init f).toNat + 10 * (t - f) ≤ w then some (f, (init f).toNat + 10 * (t - f)) else some (g, w)
    else best init t fs

def env : HEnv where
  cost := fun _ => 10
  compFr := fun _ => 0
  compTo := fun _ => 0
  search := fun fr rem inf => rem.map fun t => if fr ≤ t ∧ 10 * (t - fr) < inf.toNat then (t, UInt32.ofNat (10 * (t - fr)), true) else (t, inf, false)
  searchN := fun froms tos init _ stop => tos.map fun t => match best init t froms with
    | some (f, v) => if v < stop.toNat then (t, f, UInt32.ofNat v) else (t, 0, stop)
    | none => (t, 0, stop)
  inv := trunc

theorem way_iff (a b x : Nat) : Way turn a b x ↔ a ≤ b ∧ x = 10 * (b - a) := by
  constructor
  · intro h
    induction h with
    | here => simp
    | step ht _ ih =>
      unfold turn at ht
      split at ht
      · simp only [Option.some.injEq] at ht
        omega
      · cases ht
  · rintro ⟨h, rfl⟩
    obtain ⟨n, rfl⟩ := Nat.exists_eq_add_of_le h
    clear h
    induction n generalizing a with
    | zero => simpa using Way.here a
    | succ n ih =>
      have := Way.step (turn := turn) (a := a) (b := a + 1) (x := 10) (by simp [turn]) (ih (a + 1))
      have e : 10 + 10 * (a + 1 + n - (a + 1)) = 10 * (a + (n + 1) - a) := by omega
      rw [e] at this
      have e2 : a + 1 + n = a + (n + 1) := by omega
      rw [e2] at this
      exact this

theorem dist_iff (a b x : Nat) : IsDist turn a b x ↔ a ≤ b ∧ x = 10 * (b - a) := by
  unfold IsDist
  rw [way_iff]
  constructor
  · exact fun h => h.1
  · intro h
    exact ⟨h, fun y hy => by rw [way_iff] at hy; omega⟩

theorem graphOk : GraphOk turn env where
  edge := by
    intro a b x h
    unfold turn at h
    split at h
    · simp only [Option.some.injEq] at h
      subst h
      exact Nat.le_refl 10
    · cases h
  comp := fun _ _ _ _ => rfl

theorem searchOk : SearchOk turn env where
  all := by
    intro fr rem inf t ht
    refine ⟨_, List.mem_map.mpr ⟨t, ht, rfl⟩, ?_⟩
    split <;> rfl
  only := by
    intro fr rem inf r hr
    obtain ⟨t, ht, rfl⟩ := List.mem_map.mp hr
    split <;> exact ht
  found := by
    intro fr rem inf r hr
    obtain ⟨t, ht, rfl⟩ := List.mem_map.mp hr
    split
    · next h =>
      intro _
      have := inf.toNat_lt
      have e : (UInt32.ofNat (10 * (t - fr))).toNat = 10 * (t - fr) := by
        rw [UInt32.toNat_ofNat', Nat.mod_eq_of_lt (by omega)]
      exact ⟨UInt32.lt_iff_toNat_lt.mpr (by simp only; omega), by rw [dist_iff]; exact ⟨h.1, by simp only; omega⟩⟩
    · intro h; cases h
  lost := by
    intro fr rem inf r hr
    obtain ⟨t, ht, rfl⟩ := List.mem_map.mp hr
    split
    · intro h; cases h
    · next hn =>
      intro _
      refine ⟨UInt32.le_refl _, ?_⟩
      intro y hy
      rw [way_iff] at hy
      simp only at hy
      omega

theorem best_none (init : Nat → UInt32) (t : Nat) : ∀ fs : List Nat, best init t fs = none → ∀ g ∈ fs, ¬ g ≤ t := by
  intro fs
  induction fs with
  | nil => simp
  | cons f fs ih =>
    intro h g hg
    simp only [best] at h
    by_cases hf : f ≤ t
    · rw [if_pos hf] at h
      split at h
      · cases h
      · split at h <;> cases h
    · rw [if_neg hf] at h
      rcases List.mem_cons.mp hg with rfl | hg
      · exact hf
      · exact ih h g hg

theorem best_some (init : Nat → UInt32) (t f v : Nat) : ∀ fs : List Nat, best init t fs = some (f, v) →
    f ∈ fs ∧ f ≤ t ∧ v = (init f).toNat + 10 * (t - f) ∧ ∀ g ∈ fs, g ≤ t → v ≤ (init g).toNat + 10 * (t - g) := by
  intro fs
  induction fs generalizing f v with
  | nil => simp [best]
  | cons e fs ih =>
    intro h
    simp only [best] at h
    by_cases he : e ≤ t
    · rw [if_pos he] at h
      split at h
      · next hn =>
        simp only [Option.some.injEq, Prod.mk.injEq] at h
        obtain ⟨rfl, rfl⟩ := h
        refine ⟨by simp, he, rfl, ?_⟩
        intro g hg hgt
        rcases List.mem_cons.mp hg with rfl | hg
        · exact Nat.le_refl _
        · exact absurd hgt (best_none init t fs hn g hg)
      · next g w hb =>
        obtain ⟨i1, i2, i3, i4⟩ := ih g w hb
        split at h
        · next hle =>
          simp only [Option.some.injEq, Prod.mk.injEq] at h
          obtain ⟨rfl, rfl⟩ := h
          refine ⟨by simp, he, rfl, ?_⟩
          intro g' hg hgt
          rcases List.mem_cons.mp hg with rfl | hg
          · exact Nat.le_refl _
          · exact Nat.le_trans hle (i4 g' hg hgt)
        · next hle =>
          simp only [Option.some.injEq, Prod.mk.injEq] at h
          obtain ⟨rfl, rfl⟩ := h
          refine ⟨by simp [i1], i2, i3, ?_⟩
          intro g' hg hgt
          rcases List.mem_cons.mp hg with rfl | hg
          · omega
          · exact i4 g' hg hgt
    · rw [if_neg he] at h
      obtain ⟨i1, i2, i3, i4⟩ := ih f v h
      refine ⟨by simp [i1], i2, i3, ?_⟩
      intro g hg hgt
      rcases List.mem_cons.mp hg with rfl | hg
      · exact absurd hgt he
      · exact i4 g hg hgt

theorem bestOk : BestOk turn env where
  found := by
    intro froms tos init stall stop r hr hlt
    obtain ⟨t, ht, rfl⟩ := List.mem_map.mp hr
    revert hlt
    cases hb : best init t froms with
    | none => intro hlt; exact absurd hlt (UInt32.lt_irrefl _)
    | some p =>
      obtain ⟨f, v⟩ := p
      simp only
      split
      · next hv =>
        intro _
        obtain ⟨i1, i2, i3, _⟩ := best_some init t f v froms hb
        have := stop.toNat_lt
        refine ⟨ht, i1, 10 * (t - f), by rw [dist_iff]; exact ⟨i2, rfl⟩, ?_⟩
        simp only
        rw [UInt32.toNat_ofNat', Nat.mod_eq_of_lt (by omega)]
        exact i3
      · intro hlt; exact absurd hlt (UInt32.lt_irrefl _)
  all := by
    intro froms tos init stall stop t ht
    refine ⟨_, List.mem_map.mpr ⟨t, ht, rfl⟩, ?_⟩
    split
    · split <;> rfl
    · rfl
  least := by
    intro froms tos init stall stop r hr hlt g hg y hy
    obtain ⟨t, ht, rfl⟩ := List.mem_map.mp hr
    revert hlt hy
    cases hb : best init t froms with
    | none => intro hlt; exact absurd hlt (UInt32.lt_irrefl _)
    | some p =>
      obtain ⟨f, v⟩ := p
      simp only
      split
      · next hv =>
        intro _ hy
        obtain ⟨_, _, _, i4⟩ := best_some init t f v froms hb
        have := stop.toNat_lt
        rw [way_iff] at hy
        simp only at hy ⊢
        rw [UInt32.toNat_ofNat', Nat.mod_eq_of_lt (by omega)]
        have := i4 g hg hy.1
        omega
      · intro hlt; exact absurd hlt (UInt32.lt_irrefl _)
  lost := by
    intro froms tos init stall stop r hr hlt g hg y hy
    obtain ⟨t, ht, rfl⟩ := List.mem_map.mp hr
    revert hlt hy
    cases hb : best init t froms with
    | none =>
      intro _ hy
      rw [way_iff] at hy
      exact absurd hy.1 (best_none init t froms hb g hg)
    | some p =>
      obtain ⟨f, v⟩ := p
      obtain ⟨_, _, _, i4⟩ := best_some init t f v froms hb
      simp only
      split
      · next hv =>
        intro hle
        have := stop.toNat_lt
        rw [UInt32.le_iff_toNat_le, UInt32.toNat_ofNat', Nat.mod_eq_of_lt (by omega)] at hle
        omega
      · next hv =>
        intro _ hy
        rw [way_iff] at hy
        have := i4 g hg hy.1
        omega

end Chain

/-- `C67_hops_exact` on the chain: two starts (one of them ahead of a target on its own edge), two targets, one of them too far. -/
def exFroms : List Cand := [⟨some 5, 1/2⟩, ⟨some 4, 0⟩, ⟨none, 0⟩]
def exTos : List Cand := [⟨some 5, 1/5⟩, ⟨some 7, 3/10⟩, ⟨some 30, 0⟩]

example : Sizes Chain.env exFroms exTos 60 10 ∧ CacheOk Chain.turn (setEx empty 5 7 20) ∧
    (hops Chain.env false exFroms exTos (some (setEx empty 5 7 20)) 60).1 = [((0, 1), 18), ((1, 0), 12), ((1, 1), 33)] := by
  refine ⟨?_, ?_, by decide +kernel⟩
  · constructor <;> decide +kernel
  · apply cacheOk_setEx
    · intro a b
      simp [HopCache.get, empty, narrow]
    · rw [Chain.dist_iff]; decide

end Verif.Hops
