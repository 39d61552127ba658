import Verif.Journey.Spec

/-!
# Journeys through the map of the file (lemmas)
-/

set_option linter.unusedSectionVars false

namespace Verif.Journey
open Verif.Collapse Verif.Whole
open Verif.Finish (Fin)
open Verif.Names (LineSim)
open Verif.Weights
open Verif.Hops (Way IsDist GraphOk)
open Verif.Full (Trail Net)

variable {P S T D : Type} [DecidableEq P]

/-! ### what a turn costs -/

/-- As `Fits` and `Pays`, in terms of `Verif.Weights`. -/
def VFits (v : Env (Edg Nat P) Nat Nat) (s : LineSim) (c : Nat) : Prop :=
  c < 4294967295 ∧ (v.name.cls = .eq ∨
    ((if s.name then c else v.name.apply c) ≤ 4294967295 ∧
      (if s.fr then (if s.name then c else v.name.apply c) else v.fr.apply (if s.name then c else v.name.apply c)) ≤ 4294967295))

def VPays (v : Env (Edg Nat P) Nat Nat) (e f : Edg Nat P) (x : Nat) : Prop :=
  e.dst = f.src ∧ ∃ s, IsBest v e s ∧ VFits v s (v.cost e).toNat ∧
    x = exactLine v s (v.cost e).toNat + exactTurn v e (some (e.dst, f)) ∧ x < 4294967295

theorem pays_iff (g : Fin P S Nat) (r : Fare P) (e f : Edg Nat P) (x : Nat) : VPays (costEnv g r) e f x ↔ Pays g r e f x := by
  have h : ((costEnv g r).cost e).toNat = e.a.cost % 4294967296 := UInt32.toNat_ofNat'
  unfold VPays Pays
  rw [h]
  exact Iff.rfl


theorem punish_fits (f : Factor) (ok : f.OK) (b : Bool) (c : UInt32) (x : UInt32) :
    (if b then some c else punish f c) = some x ↔ (if b then c.toNat else f.apply c.toNat) ≤ 4294967295 ∧
      x.toNat = (if b then c.toNat else f.apply c.toNat) := by
  have hc := c.toNat_lt
  cases b with
  | true =>
    simp only [if_true, Option.some.injEq]
    constructor
    · rintro rfl; exact ⟨by omega, rfl⟩
    · rintro ⟨_, h⟩; exact (UInt32.toNat_inj.1 h).symm
  | false =>
    simp only [Bool.false_eq_true, if_false, Factor.apply, punish]
    cases h : f.cls with
    | eq =>
      simp only [if_true, Option.some.injEq]
      constructor
      · rintro rfl; exact ⟨by omega, rfl⟩
      · rintro ⟨_, h⟩; exact (UInt32.toNat_inj.1 h).symm
    | lt =>
      have h2 := ok.2 h c.toNat
      simp only [reduceCtorEq, if_false, Option.some.injEq]
      have e : (UInt32.ofNat (f.mul c.toNat)).toNat = f.mul c.toNat := by rw [UInt32.toNat_ofNat']; omega
      constructor
      · rintro rfl; exact ⟨by omega, e⟩
      · rintro ⟨_, h⟩; exact UInt32.toNat_inj.1 (e.trans h.symm)
    | gt =>
      simp only [reduceCtorEq, if_false]
      by_cases hm : f.mul c.toNat > 4294967295
      · rw [if_pos hm]
        constructor
        · intro h; cases h
        · rintro ⟨h, _⟩; omega
      · rw [if_neg hm, Option.some.injEq]
        have e : (UInt32.ofNat (f.mul c.toNat)).toNat = f.mul c.toNat := by rw [UInt32.toNat_ofNat']; omega
        constructor
        · rintro rfl; exact ⟨by omega, e⟩
        · rintro ⟨_, h⟩; exact UInt32.toNat_inj.1 (e.trans h.symm)

theorem lineCost_fits (v : Env (Edg Nat P) Nat Nat) (ok : FactorsOK v) (e : Edg Nat P) (c x : UInt32) (hn : v.name.cls ≠ .eq) (hc : c.toNat < 4294967295) :
    lineCost v e c = some x ↔ VFits v (transitLineSimi v e) c.toNat ∧ x.toNat = exactLine v (transitLineSimi v e) c.toNat ∧
      exactLine v (transitLineSimi v e) c.toNat ≤ 4294967295 := by
  have hx := x.toNat_lt
  unfold lineCost VFits exactLine
  rw [if_neg hn]
  generalize transitLineSimi v e = s
  simp only [hn, false_or, hc, true_and]
  have k1 := punish_fits v.name ok.name s.name c
  cases h1 : (if s.name then some c else punish v.name c) with
  | none =>
    simp only [reduceCtorEq, false_iff]
    rintro ⟨⟨h, _⟩, _⟩
    have e : (UInt32.ofNat (if s.name then c.toNat else v.name.apply c.toNat)).toNat = (if s.name then c.toNat else v.name.apply c.toNat) := by
      rw [UInt32.toNat_ofNat']; exact Nat.mod_eq_of_lt (by omega)
    have := (k1 _).2 ⟨h, e⟩
    rw [h1] at this; cases this
  | some c1 =>
    obtain ⟨a1, a2⟩ := (k1 c1).1 h1
    simp only []
    rw [← a2]
    rw [← a2] at a1
    have k2 := punish_fits v.fr ok.fr s.fr c1
    cases h2 : (if s.fr then some c1 else punish v.fr c1) with
    | none =>
      simp only [reduceCtorEq, false_iff]
      rintro ⟨⟨_, h⟩, _⟩
      have e : (UInt32.ofNat (if s.fr then c1.toNat else v.fr.apply c1.toNat)).toNat = (if s.fr then c1.toNat else v.fr.apply c1.toNat) := by
        rw [UInt32.toNat_ofNat']; exact Nat.mod_eq_of_lt (by omega)
      have := (k2 _).2 ⟨h, e⟩
      rw [h2] at this; cases this
    | some c2 =>
      obtain ⟨b1, b2⟩ := (k2 c2).1 h2
      simp only []
      rw [← b2]
      rw [← b2] at b1
      have k3 := punish_fits v.to ok.to s.to c2 x
      rw [k3]
      constructor
      · rintro ⟨u, w⟩; exact ⟨⟨a1, b1⟩, w, u⟩
      · rintro ⟨_, w, u⟩; exact ⟨u, w⟩

theorem noPen_exact (v : Env (Edg Nat P) Nat Nat) (e : Edg Nat P) (hp : noPen v = true) (c : Nat) :
    exactLine v (transitLineSimi v e) c = c ∧ (c < 4294967295 → VFits v (transitLineSimi v e) c) := by
  by_cases hne : v.name.cls = .eq
  · exact ⟨by unfold exactLine; rw [if_pos hne], fun h => ⟨h, Or.inl hne⟩⟩
  · have hna : v.noAttrs = true := by
      simp only [noPen, Bool.or_eq_true, beq_iff_eq] at hp
      exact hp.resolve_right hne
    refine ⟨?_, fun h => ⟨h, Or.inr ?_⟩⟩
    · unfold exactLine; rw [if_neg hne]; simp [transitLineSimi, hna]
    · simp [transitLineSimi, hna]; omega

theorem call_pays (v : Env (Edg Nat P) Nat Nat) (ok : FactorsOK v) (e f : Edg Nat P) (he : e.dst = f.src) (x : Nat) :
    ((call v .init (.turn e e.dst f)).1 ≠ 4294967295 ∧ (call v .init (.turn e e.dst f)).1.toNat = x) ↔ VPays v e f x := by
  have hb := C16_best_line v e
  have huniq : ∀ s, IsBest v e s → s = transitLineSimi v e := fun s hs => C16_best_unique v e s _ hs hb
  have hM : (4294967295 : UInt32).toNat = 4294967295 := rfl
  have hlt := (v.cost e).toNat_lt
  have main : ∀ c : UInt32, ∀ k : Nat, c.toNat = k → ((turnCost v e c (some (e.dst, f)) ≠ 4294967295 ∧ (turnCost v e c (some (e.dst, f))).toNat = x) ↔
      x = k + exactTurn v e (some (e.dst, f)) ∧ x < 4294967295) := by
    intro c k hk
    have h := turnCost_spec v e (some (e.dst, f)) c
    have hne : turnCost v e c (some (e.dst, f)) ≠ 4294967295 ↔ (turnCost v e c (some (e.dst, f))).toNat ≠ 4294967295 := by
      rw [← hM, ne_eq, ne_eq, UInt32.toNat_inj]
    rw [hne, h, hk]
    omega
  unfold VPays
  show ((callFrom v .init e (some (e.dst, f))).1 ≠ _ ∧ _) ↔ _
  show ((callFrom v .init e (some (e.dst, f))).1 ≠ _ ∧ (callFrom v .init e (some (e.dst, f))).1.toNat = x) ↔ _
  unfold callFrom
  simp only [St.init, reduceCtorEq, if_false]
  by_cases hmax : v.cost e = 4294967295
  · rw [if_pos hmax]
    constructor
    · rintro ⟨h, _⟩; exact absurd hmax h
    · rintro ⟨_, s, _, hf, _⟩
      have := hf.1
      rw [hmax, hM] at this; omega
  · rw [if_neg hmax]
    have hc : (v.cost e).toNat < 4294967295 := by
      have : (v.cost e).toNat ≠ 4294967295 := by rw [← hM]; exact fun h => hmax (UInt32.toNat_inj.1 h)
      omega
    by_cases hp : noPen v = true
    · rw [if_pos hp]
      obtain ⟨n1, n2⟩ := noPen_exact v e hp (v.cost e).toNat
      rw [main _ _ rfl]
      constructor
      · rintro ⟨h1, h2⟩
        exact ⟨he, _, hb, n2 hc, by rw [n1]; exact h1, h2⟩
      · rintro ⟨_, s, hs, _, h1, h2⟩
        have := huniq s hs; subst this
        rw [n1] at h1
        exact ⟨h1, h2⟩
    · rw [if_neg hp]
      have hne : v.name.cls ≠ .eq := by
        intro h; apply hp; simp [noPen, h]
      have k := lineCost_fits v ok e (v.cost e)
      cases hl : lineCost v e (v.cost e) with
      | none =>
        simp only [ne_eq, not_true, false_and, false_iff]
        rintro ⟨_, s, hs, hf, h1, h2⟩
        have := huniq s hs; subst this
        have e1 : (UInt32.ofNat (exactLine v (transitLineSimi v e) (v.cost e).toNat)).toNat = exactLine v (transitLineSimi v e) (v.cost e).toNat := by
          rw [UInt32.toNat_ofNat']; exact Nat.mod_eq_of_lt (by omega)
        have := (k _ hne hc).2 ⟨hf, e1, by omega⟩
        rw [hl] at this; cases this
      | some d =>
        obtain ⟨d1, d2, _⟩ := (k d hne hc).1 hl
        simp only []
        rw [main d _ d2]
        constructor
        · rintro ⟨h1, h2⟩; exact ⟨he, _, hb, d1, h1, h2⟩
        · rintro ⟨_, s, hs, _, h1, h2⟩
          have := huniq s hs; subst this
          exact ⟨h1, h2⟩

theorem turn_spec (g : Fin P S Nat) (r : Fare P) (ok : FactorsOK (costEnv g r)) (i j x : Nat) :
    turn g r i j = some x ↔ ∃ e f, g.es[i]? = some e ∧ g.es[j]? = some f ∧ Pays g r e f x := by
  simp only [← pays_iff]
  unfold turn
  cases hi : g.es[i]? with
  | none => simp
  | some e =>
    cases hj : g.es[j]? with
    | none => simp
    | some f =>
      simp only [Option.some.injEq]
      by_cases h : e.dst = f.src
      · rw [if_pos h]
        have k := call_pays (costEnv g r) ok e f h x
        have : (if (call (costEnv g r) St.init (.turn e e.dst f)).1 = 4294967295 then none
            else some (call (costEnv g r) St.init (.turn e e.dst f)).1.toNat) = some x ↔ VPays (costEnv g r) e f x := by
          rw [← k]
          split
          · simp_all
          · simp_all
        rw [this]
        constructor
        · intro hp; exact ⟨e, f, rfl, rfl, hp⟩
        · rintro ⟨_, _, rfl, rfl, hp⟩; exact hp
      · rw [if_neg h]
        simp only [reduceCtorEq, false_iff]
        rintro ⟨_, _, rfl, rfl, hp⟩
        exact h hp.1

/-- The cost of an edge alone. -/
theorem edgeCost_spec (g : Fin P S Nat) (r : Fare P) (ok : FactorsOK (costEnv g r)) (i : Nat) (e : Edg Nat P) (hi : g.es[i]? = some e) (s : LineSim)
    (hs : Best r e s) :
    (Fits r s (e.a.cost % 4294967296) → (edgeCost g r i).toNat = min 4294967295 (lineToll r s (e.a.cost % 4294967296))) ∧
    (¬ Fits r s (e.a.cost % 4294967296) → (edgeCost g r i).toNat = 4294967295) := by
  have hb := C16_best_line (costEnv g r) e
  have he := C16_best_unique (costEnv g r) e s _ hs hb
  have hc : ((costEnv g r).cost e).toNat = e.a.cost % 4294967296 := UInt32.toNat_ofNat'
  have hM : (4294967295 : UInt32).toNat = 4294967295 := rfl
  have hF : Fits r s (e.a.cost % 4294967296) ↔ VFits (costEnv g r) (transitLineSimi (costEnv g r) e) ((costEnv g r).cost e).toNat := by
    rw [← hc, he]; exact Iff.rfl
  have hL : lineToll r s (e.a.cost % 4294967296) = exactLine (costEnv g r) (transitLineSimi (costEnv g r) e) ((costEnv g r).cost e).toNat := by
    rw [← hc, he]; rfl
  rw [hF, hL]
  unfold edgeCost
  rw [hi]
  show (_ → (callFrom (costEnv g r) .init e none).1.toNat = _) ∧ (_ → (callFrom (costEnv g r) .init e none).1.toNat = _)
  have hlt := ((costEnv g r).cost e).toNat_lt
  generalize costEnv g r = v at *
  unfold callFrom
  simp only [St.init, reduceCtorEq, if_false]
  by_cases hmax : v.cost e = 4294967295
  · rw [if_pos hmax]
    refine ⟨fun h => ?_, fun _ => by rw [hmax, hM]⟩
    have := h.1
    rw [hmax, hM] at this; omega
  · rw [if_neg hmax]
    have hc : (v.cost e).toNat < 4294967295 := by
      have : (v.cost e).toNat ≠ 4294967295 := by rw [← hM]; exact fun h => hmax (UInt32.toNat_inj.1 h)
      omega
    by_cases hp : noPen v = true
    · rw [if_pos hp]
      obtain ⟨n1, n2⟩ := noPen_exact v e hp (v.cost e).toNat
      refine ⟨fun _ => ?_, fun h => absurd (n2 hc) h⟩
      rw [n1]
      simp only [turnCost]
      omega
    · rw [if_neg hp]
      have hne : v.name.cls ≠ .eq := by
        intro h; apply hp; simp [noPen, h]
      have k := lineCost_fits v ok e (v.cost e)
      cases hl : lineCost v e (v.cost e) with
      | none =>
        refine ⟨fun h => ?_, fun _ => rfl⟩
        show 4294967295 = min 4294967295 _
        rcases Nat.lt_or_ge (exactLine v (transitLineSimi v e) (v.cost e).toNat) 4294967295 with hlt' | hge
        · have e1 : (UInt32.ofNat (exactLine v (transitLineSimi v e) (v.cost e).toNat)).toNat = exactLine v (transitLineSimi v e) (v.cost e).toNat := by
            rw [UInt32.toNat_ofNat']; exact Nat.mod_eq_of_lt (by omega)
          have := (k _ hne hc).2 ⟨h, e1, by omega⟩
          rw [hl] at this; cases this
        · omega
      | some d =>
        obtain ⟨d1, d2, d3⟩ := (k d hne hc).1 hl
        refine ⟨fun _ => ?_, fun h => absurd d1 h⟩
        simp only [turnCost]
        omega

/-- Leaving an edge costs at least the edge. -/
theorem turn_edge (g : Fin P S Nat) (r : Fare P) (i j x : Nat) (h : turn g r i j = some x) : (edgeCost g r i).toNat ≤ x := by
  unfold turn at h
  unfold edgeCost
  cases hi : g.es[i]? with
  | none => rw [hi] at h; simp at h
  | some e =>
    rw [hi] at h
    cases hj : g.es[j]? with
    | none => rw [hj] at h; simp at h
    | some f =>
      rw [hj] at h
      simp only [] at h ⊢
      split at h
      · split at h
        · cases h
        · rename_i hne
          cases h
          revert hne
          show ¬ (callFrom _ _ _ _).1 = _ → (callFrom _ _ _ none).1.toNat ≤ (callFrom _ _ _ (some (e.dst, f))).1.toNat
          unfold callFrom
          simp only [St.init, reduceCtorEq, if_false]
          split
          · intro _; exact Nat.le_refl _
          · have key : ∀ c : UInt32, (turnCost (costEnv g r) e c none).toNat ≤ (turnCost (costEnv g r) e c (some (e.dst, f))).toNat := by
              intro c
              rw [turnCost_spec, turnCost_spec]
              simp only [exactTurn]
              omega
            split
            · intro _; exact key _
            · split
              · intro h; exact absurd rfl h
              · intro _; exact key _
      · cases h

/-! ### trails are drives -/

theorem Toll.snoc {g : Fin P S Nat} {r : Fare P} {l : List (Edg Nat P)} {x : Nat} (h : Toll g r l x) {e f : Edg Nat P} {y : Nat}
    (hl : l.getLast? = some e) (hp : Pays g r e f y) : Toll g r (l ++ [f]) (x + y) := by
  induction h with
  | one a =>
    simp only [List.getLast?_singleton, Option.some.injEq] at hl
    subst hl
    have := Toll.more hp (Toll.one f)
    rw [Nat.add_comm] at this
    exact this
  | more hp' _ ih =>
    rw [List.getLast?_cons_cons] at hl
    have := Toll.more hp' (ih hl)
    rw [← Nat.add_assoc] at this
    exact this

theorem trail_toll {g : Fin P S Nat} {r : Fare P} (ok : FactorsOK (costEnv g r)) {a b : Nat} {es : List Nat} {x : Nat}
    (h : Trail (turn g r) a b es x) (ha : a < g.es.length) :
    ∃ l, es.reverse.map (fun i => g.es[i]?) = l.map some ∧ Toll g r l x ∧ l.head? = g.es[a]? ∧ l.getLast? = g.es[b]? := by
  induction h with
  | one =>
    have h0 : g.es[a]? = some g.es[a] := List.getElem?_eq_getElem ha
    refine ⟨[g.es[a]], ?_, .one _, ?_, ?_⟩
    · simp only [List.reverse_cons, List.reverse_nil, List.nil_append, List.map_cons, List.map_nil, h0]
    · rw [h0]; rfl
    · rw [h0]; rfl
  | more _ ht ih =>
    obtain ⟨l, h1, h2, h3, h4⟩ := ih
    obtain ⟨e, f, he, hf, hp⟩ := (turn_spec g r ok _ _ _).1 ht
    have hne : l ≠ [] := by rintro rfl; cases h2
    refine ⟨l ++ [f], ?_, h2.snoc (h4.trans he) hp, ?_, ?_⟩
    · simp only [List.reverse_cons, List.map_append, List.map_cons, List.map_nil, h1, hf]
    · rw [← h3]
      cases l with
      | nil => exact absurd rfl hne
      | cons _ _ => rfl
    · rw [List.getLast?_append, hf]; rfl

theorem getElem?_inj {es : List (Edg Nat P)} (hu : Uniq es) {i j : Nat} {e : Edg Nat P} (hi : es[i]? = some e) (hj : es[j]? = some e) : i = j := by
  obtain ⟨h1, e1⟩ := List.getElem?_eq_some_iff.1 hi
  obtain ⟨h2, e2⟩ := List.getElem?_eq_some_iff.1 hj
  have hp := List.pairwise_iff_getElem.1 hu
  rcases Nat.lt_trichotomy i j with h | h | h
  · exact absurd ⟨by rw [e1, e2], by rw [e1, e2]⟩ (hp i j h1 h2 h)
  · exact h
  · exact absurd ⟨by rw [e1, e2], by rw [e1, e2]⟩ (hp j i h2 h1 h)

theorem toll_way {g : Fin P S Nat} {r : Fare P} (ok : FactorsOK (costEnv g r)) (hu : Uniq g.es) {l : List (Edg Nat P)} {x : Nat}
    (h : Toll g r l x) : (∀ e ∈ l, e ∈ g.es) → ∀ a b, l.head? = g.es[a]? → l.getLast? = g.es[b]? → Way (turn g r) a b x := by
  induction h with
  | one e =>
    intro _ a b ha hb
    have : a = b := getElem?_inj hu ha.symm hb.symm
    subst this
    exact .here a
  | more hp _ ih =>
    rename_i e f l x y _
    intro hm a b ha hb
    obtain ⟨j, hj, hje⟩ := List.mem_iff_getElem.1 (hm f (by simp))
    have hjf : g.es[j]? = some f := by rw [List.getElem?_eq_getElem hj, hje]
    refine .step ((turn_spec g r ok a j x).2 ⟨e, f, ha.symm, hjf, hp⟩) (ih (fun e he => hm e (List.mem_cons_of_mem _ he)) j b ?_ ?_)
    · rw [hjf]; rfl
    · rw [← hb, List.getLast?_cons_cons]

/-! ### what a drive is on the map -/

theorem Toll.next {g : Fin P S Nat} {r : Fare P} {l : List (Edg Nat P)} {x : Nat} (h : Toll g r l x) :
    ∀ pre e f post, l = pre ++ e :: f :: post → ∃ y, Pays g r e f y := by
  induction h with
  | one a =>
    intro pre e f post hl
    have := congrArg List.length hl
    simp at this; omega
  | more hp _ ih =>
    intro pre e f post hl
    cases pre with
    | nil =>
      simp only [List.nil_append, List.cons.injEq] at hl
      obtain ⟨rfl, rfl, _⟩ := hl
      exact ⟨_, hp⟩
    | cons a pre =>
      simp only [List.cons_append, List.cons.injEq] at hl
      exact ih pre e f post hl.2

theorem drive_cons {es : List (Edg Nat P)} {e : Edg Nat P} (he : e ∈ es) (hw : e.a.oneWay ≠ 2) {u : Nat} (h : Finish.Drive es e.dst u) :
    Finish.Drive es e.src u := by
  induction h with
  | refl => exact .step (.refl _) e he rfl hw
  | step _ f hf h1 h2 ih => exact .step ih f hf h1 h2

theorem mid_drive {es : List (Edg Nat P)} (g : Fin P S Nat) (r : Fare P) : ∀ (mid : List (Edg Nat P)),
    (∀ pre e f post, mid = pre ++ e :: f :: post → ∃ y, Pays g r e f y) → (∀ e ∈ mid, e ∈ es ∧ e.a.oneWay ≠ 2) →
    ∀ e f, mid.head? = some e → mid.getLast? = some f → Finish.Drive es e.src f.dst := by
  intro mid
  induction mid with
  | nil => intro _ _ e f h; cases h
  | cons a mid ih =>
    intro hn hm e f he hf
    cases he
    cases mid with
    | nil =>
      cases hf
      exact drive_cons (hm _ List.mem_cons_self).1 (hm _ List.mem_cons_self).2 (.refl _)
    | cons b mid =>
      obtain ⟨y, hp⟩ := hn [] a b mid rfl
      refine drive_cons (hm _ List.mem_cons_self).1 (hm _ List.mem_cons_self).2 ?_
      rw [hp.1]
      refine ih (fun pre e f post h => hn (a :: pre) e f post (by rw [h]; rfl)) (fun e he => hm e (List.mem_cons_of_mem _ he)) b f rfl ?_
      rw [← hf, List.getLast?_cons_cons]

theorem onMap {p : Par P S T D} {d : Osm.Doc P} {ss : List Seg} {at_ : Nat → Option Place} {g : Fin P S Nat} (hs : Shows p d ss at_ g)
    (hn : ∀ e ∈ g.es, e.src ∈ g.nds ∧ e.dst ∈ g.nds) (r : Fare P) {l : List (Edg Nat P)} (hm : ∀ e ∈ l, e ∈ g.es) {x : Nat}
    (ht : Toll g r l x) : OnMap p ss at_ g l where
  drawn := fun e he hne => ⟨hs.made e (hm e he) hne, hs.ends e (hm e he) hne⟩
  permitted := by
    intro pre mid post hl hw e f he hf a b ha hb
    have hmid : ∀ e ∈ mid, e ∈ g.es := fun e he => hm e (by rw [hl]; simp [he])
    have hd := mid_drive (es := g.es) g r mid (fun pre' e f post' h => ht.next (pre ++ pre') e f (post' ++ post) (by rw [hl, h]; simp))
      (fun e he => ⟨hmid e he, hw e he⟩) e f he hf
    have he' := hmid e (List.mem_of_head? he)
    have hf' := hmid f (List.mem_of_getLast? hf)
    exact (hs.travel e.src f.dst a b (hn e he').1 (hn f hf').2 ha hb).1 hd
  ends := by
    intro pre e post hl hp hc
    cases post with
    | nil => exact hp rfl
    | cons f post =>
      obtain ⟨y, _, s, _, hf, _⟩ := ht.next pre e f post hl
      have := hf.1
      rw [hc] at this
      omega

theorem paid {p : Par P S T D} {ss : List Seg} {at_ : Nat → Option Place} {g : Fin P S Nat}
    {refuse : Place × Place → Place × Place → Place → Bool} {arr lea : Place × Place → Place → Edg Nat P} (hT : Turned p ss at_ g refuse arr lea)
    (hn : ∀ e ∈ g.es, e.src ∈ g.nds ∧ e.dst ∈ g.nds) (r : Fare P) {l : List (Edg Nat P)} (hm : ∀ e ∈ l, e ∈ g.es) {x : Nat}
    (ht : Toll g r l x) : Paid g ss at_ refuse arr lea l := by
  intro pre e f post hl he hf q hq
  obtain ⟨y, hd, _⟩ := ht.next pre e f post hl
  have he' := hm e (by rw [hl]; simp)
  have hf' := hm f (by rw [hl]; simp)
  obtain ⟨a, X, hX, hXe⟩ := hT.allInto e.dst q (hn e he').2 hq e he' rfl he
  obtain ⟨b, Y, hY, hYf⟩ := hT.allOutof e.dst q (hn e he').2 hq f hf' hd.symm (by rw [hd]; exact fun h => hf h.symm)
  refine ⟨a, b, X, Y, hX, hY, hXe, hYf, ?_⟩
  have := hT.asked e.dst q (hn e he').2 hq a X b Y hX hY
  rw [hXe, hYf] at this
  rw [← this]
  simp [Refused]

/-! ### components -/

section
variable (c : Finish.Cfg P S Nat D) (ho : ∀ p l, (c.snap.order p l).Perm l) (hn : ∀ n u, u ∈ c.nds n ↔ u < n) (st : Snap.St P S Nat)
  (hs : Snap.Sane st) (hm : Marks st.es) (speed : Edg Nat P → Rat)
include ho hn hs hm

theorem compGr_wf : (compGr c speed st).WF := by
  have T := Finish.stages c ho hn st hs hm
  dsimp only at T
  have key : ∀ e ∈ (collapse (Finish.nodes c (Snap.snapStats c.snap c.ds c.orphans st)) (Snap.snapStats c.snap c.ds c.orphans st).es).map
      (Finish.writeGeom c (Snap.snapStats c.snap c.ds c.orphans st).pos), e.src ∈ (Finish.finish c st).nds ∧ e.dst ∈ (Finish.finish c st).nds := by
    intro e he
    have h2 := List.mem_map_of_mem (f := Finish.simplifyGeom c) he
    exact ⟨(T.nds _).2 ⟨(T.lt _ h2).1, Or.inl ⟨_, h2, Or.inl rfl⟩⟩, (T.nds _).2 ⟨(T.lt _ h2).2, Or.inl ⟨_, h2, Or.inr rfl⟩⟩⟩
  constructor
  · intro n e he
    obtain ⟨h1, h2⟩ := mem_outs.1 he
    exact ⟨h2, (key e h1).2, mem_ins.2 ⟨h1, rfl⟩⟩
  · intro n e he
    obtain ⟨h1, h2⟩ := mem_ins.1 he
    exact ⟨h2, (key e h1).1, mem_outs.2 ⟨h1, rfl⟩⟩

/-- The ends of an edge are in one component. -/
theorem comps_edge (e : Edg Nat P) (he : e ∈ (Finish.finish c st).es) : comps c speed st e.src = comps c speed st e.dst := by
  have T := Finish.stages c ho hn st hs hm
  dsimp only at T
  have wf := compGr_wf c ho hn st hs hm speed
  obtain ⟨s, num, hw, _, hc, _⟩ := Graph.C34_components (compGr c speed st) wf _ (Nat.le_refl _)
  have hcomp : ∀ n, comps c speed st n = s.comp n := by intro n; unfold comps; rw [hw]
  rw [hcomp, hcomp]
  obtain ⟨es3, hp, f, ⟨hf, _⟩, hsf, _⟩ := T.pass
  have base : ∀ x ∈ ((collapse (Finish.nodes c (Snap.snapStats c.snap c.ds c.orphans st)) (Snap.snapStats c.snap c.ds c.orphans st).es).map
      (Finish.writeGeom c (Snap.snapStats c.snap c.ds c.orphans st).pos)).map (Finish.simplifyGeom c), s.comp x.src = s.comp x.dst := by
    intro x hx
    obtain ⟨y, hy, rfl⟩ := List.mem_map.1 hx
    have ho' : y ∈ (compGr c speed st).outs y.src := mem_outs.2 ⟨hy, rfl⟩
    have hi' : y ∈ (compGr c speed st).ins y.dst := mem_ins.2 ⟨hy, rfl⟩
    show s.comp y.src = s.comp y.dst
    refine (hc y.src (wf.ins _ _ hi').2.1 y.dst (wf.outs _ _ ho').2.1).2 ?_
    exact .step (.refl _) ⟨y, Or.inl ⟨ho', rfl⟩⟩
  rcases hsf.back e he with k | ⟨k, _⟩
  · obtain ⟨x, hx, rfl⟩ := List.mem_map.1 k
    rw [hf.src, hf.dst]
    rcases hp.mem x hx with h | ⟨y, h, rfl, _⟩
    · exact base x h
    · exact (base y h).symm
  · rw [k]

end

theorem graphOk {C X : Type} (g : Fin P S Nat) (comp : Nat → Nat) (r : Fare P) (n : Net C X) (hc : ∀ e ∈ g.es, comp e.src = comp e.dst) :
    GraphOk (turn g r) (onGraph g comp r n).h where
  edge := fun a b x h => turn_edge g r a b x h
  comp := by
    intro a b x h
    induction h with
    | here a =>
      show (match g.es[a]? with | some e => comp e.src | none => 0) = (match g.es[a]? with | some e => comp e.dst | none => 0)
      cases ha : g.es[a]? with
      | none => rfl
      | some e => exact hc e (List.mem_of_getElem? ha)
    | step ht _ ih =>
      rename_i a b c x y _
      rw [← ih]
      show (match g.es[a]? with | some e => comp e.src | none => 0) = (match g.es[b]? with | some e => comp e.src | none => 0)
      unfold turn at ht
      cases ha : g.es[a]? with
      | none => rw [ha] at ht; simp at ht
      | some e =>
        cases hb : g.es[b]? with
        | none => rw [ha, hb] at ht; simp at ht
        | some f =>
          rw [ha, hb] at ht
          simp only [] at ht ⊢
          split at ht
          · rename_i he
            rw [hc e (List.mem_of_getElem? ha), he]
          · cases ht

end Verif.Journey
