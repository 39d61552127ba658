import Verif.Weights.Build

/-!
# Integer costs and the heuristic (properties C55, C58)
-/

set_option linter.unusedSectionVars false

namespace Verif.Weights
variable {E N L : Type} [DecidableEq E] [DecidableEq N]

/-! ### rationals -/

theorem natCast_nonneg (n : Nat) : (0 : Rat) ≤ (n : Rat) := by
  exact_mod_cast Nat.zero_le n

theorem le_toNat (z : Int) : (z : Rat) ≤ (z.toNat : Rat) := by
  have : (z : Rat) ≤ ((z.toNat : Int) : Rat) := by
    rw [Rat.intCast_le_intCast]; omega
  rwa [Rat.intCast_natCast] at this

theorem ofNat_toNat (n : Nat) (h : n ≤ 4294967295) : (UInt32.ofNat n).toNat = n :=
  UInt32.toNat_ofNat_of_lt (by simp [UInt32.size]; omega)

theorem ceil_toNat_ge (x : Rat) : x ≤ (x.ceil.toNat : Rat) := by
  have h1 : x ≤ (x.ceil : Rat) := Rat.ceil_le_iff.mp (Int.le_refl _)
  exact Rat.le_trans h1 (le_toNat _)

theorem natCast_le {a b : Nat} : ((a : Rat) ≤ (b : Rat)) ↔ a ≤ b := by
  exact_mod_cast Iff.rfl

theorem div_eq (a b : Rat) : a / b = a * b⁻¹ := Rat.div_def a b

theorem inv_pos {a : Rat} (h : 0 < a) : 0 < a⁻¹ := Rat.inv_pos.mpr h

theorem div_nonneg {a b : Rat} (ha : 0 ≤ a) (hb : 0 < b) : 0 ≤ a / b := by
  rw [div_eq]; exact Rat.mul_nonneg ha (Rat.le_of_lt (inv_pos hb))

theorem div_le_div {a b c : Rat} (h : a ≤ b) (hc : 0 < c) : a / c ≤ b / c := by
  rw [div_eq, div_eq]; exact Rat.mul_le_mul_of_nonneg_right h (Rat.le_of_lt (inv_pos hc))

/-! ### C55 -/

/-- C55. The integer costs are the least integer that is not below ten times the costs, cut off
at the maximum. -/
theorem C55_round_up (c : Rat) (hc : 0 ≤ c) :
    (c * 10 ≤ 4294967295 → c * 10 ≤ ((costToInt c).toNat : Rat) ∧
      ∀ n : Nat, c * 10 ≤ (n : Rat) → (costToInt c).toNat ≤ n) ∧
    (4294967295 < c * 10 → costToInt c = 4294967295) := by
  have hiff : (c * 10).ceil ≤ 4294967295 ↔ c * 10 ≤ 4294967295 := by
    rw [Rat.ceil_le_iff]; simp
  have h0 : 0 ≤ (c * 10).ceil := by
    have h1 : c * 10 ≤ ((c * 10).ceil : Rat) := Rat.ceil_le_iff.mp (Int.le_refl _)
    have h2 : (0 : Rat) ≤ ((c * 10).ceil : Rat) := by grind
    exact_mod_cast h2
  unfold costToInt
  constructor
  · intro h
    have hle := hiff.mpr h
    rw [if_neg (by omega)]
    rw [ofNat_toNat _ (by omega)]
    refine ⟨ceil_toNat_ge _, fun n hn => ?_⟩
    have : (c * 10).ceil ≤ (n : Int) := by rw [Rat.ceil_le_iff, Rat.intCast_natCast]; exact hn
    omega
  · intro h
    have : ¬ (c * 10).ceil ≤ 4294967295 := fun hh => by have := hiff.mp hh; grind
    rw [if_pos (by omega)]

/-- C55: monotone. -/
theorem C55_monotone (c d : Rat) (hc : 0 ≤ c) (h : c ≤ d) : costToInt c ≤ costToInt d := by
  rw [UInt32.le_iff_toNat_le]
  have hd : 0 ≤ d := Rat.le_trans hc h
  by_cases hd' : d * 10 ≤ 4294967295
  · have hc' : c * 10 ≤ 4294967295 := by grind
    apply ((C55_round_up c hc).1 hc').2
    have := ((C55_round_up d hd).1 hd').1
    grind
  · rw [(C55_round_up d hd).2 (by grind)]
    have := (costToInt c).toNat_lt
    simp only [UInt32.reduceToNat]
    omega

example : (costToInt (1 / 3)).toNat = 4 ∧ (costToInt 2).toNat = 20 ∧ (costToInt 500000000).toNat = 4294967295 := by
  decide +kernel

/-- What the later stages need: the maximum or not below. -/
theorem costToInt_ge (c : Rat) (hc : 0 ≤ c) : costToInt c = 4294967295 ∨ c * 10 ≤ ((costToInt c).toNat : Rat) := by
  by_cases h : c * 10 ≤ 4294967295
  · exact Or.inr ((C55_round_up c hc).1 h).1
  · exact Or.inl ((C55_round_up c hc).2 (by grind))

/-! ### C58: the heuristic -/

/-- The positions of nodes and their distance: a pseudometric. -/
structure Dist (P : Type) where
  d : P → P → Rat
  nonneg : ∀ x y, 0 ≤ d x y
  tri : ∀ x y z, d x z ≤ d x y + d y z

theorem heur_floor (h : Heur E) (a : E) :
    (heur h a).toNat = min 4294967295 (max 0 ((h.dist a / h.maxV - h.cent) * 10)).floor.toNat := by
  unfold heur
  simp only
  generalize hv : max 0 ((h.dist a / h.maxV - h.cent) * 10) = v
  have h0 : 0 ≤ v := by rw [← hv, Rat.max_def]; split <;> grind
  by_cases hgt : v > 4294967295
  · rw [if_pos hgt]
    have : (4294967295 : Int) ≤ v.floor := by rw [Rat.le_floor_iff]; grind
    simp only [UInt32.reduceToNat]
    omega
  · rw [if_neg hgt]
    have : v.floor ≤ 4294967295 := by
      have h1 := Rat.floor_le v
      have : (v.floor : Rat) ≤ ((4294967295 : Int) : Rat) := by grind
      exact Rat.intCast_le_intCast.mp this
    rw [ofNat_toNat _ (by omega)]
    omega

/-- The heuristic decreases along an edge by at most its costs. -/
theorem heur_step (h : Heur E) (V : h.maxV > 0) (a b : E) (c : Nat) (x : Rat) (hd : h.dist a ≤ x + h.dist b)
    (hc : c = 4294967295 ∨ x / h.maxV * 10 ≤ (c : Rat)) : (heur h a).toNat ≤ c + (heur h b).toNat := by
  rw [heur_floor h a, heur_floor h b]
  rcases hc with hc | hc
  · omega
  · generalize hva : max 0 ((h.dist a / h.maxV - h.cent) * 10) = va
    generalize hvb : max 0 ((h.dist b / h.maxV - h.cent) * 10) = vb
    have hb0 : 0 ≤ vb := by rw [← hvb, Rat.max_def]; split <;> grind
    have hbv : (h.dist b / h.maxV - h.cent) * 10 ≤ vb := by rw [← hvb, Rat.max_def]; split <;> grind
    have hdiv : h.dist a / h.maxV ≤ x / h.maxV + h.dist b / h.maxV := by
      have := div_le_div hd V
      rw [div_eq, div_eq, div_eq] at *
      grind
    have hav : va ≤ (c : Rat) + vb := by
      rw [← hva, Rat.max_def]
      have := natCast_nonneg c
      split <;> grind
    have h1 : va.floor < (c : Int) + (vb.floor + 1) := by
      rw [Rat.floor_lt_iff]
      have := Rat.lt_floor_add_one vb
      have e : (((c : Int) + (vb.floor + 1) : Int) : Rat) = (c : Rat) + ((vb.floor + 1 : Int) : Rat) := by
        rw [Rat.intCast_add (c : Int), Rat.intCast_natCast]
      rw [e]
      grind
    have h2 : 0 ≤ vb.floor := by rw [Rat.le_floor_iff]; simpa using hb0
    omega

theorem foldl_max (dist : E → Rat) : ∀ (l : List E) (m : Rat),
    let r := l.foldl (fun m e => if dist e > m then dist e else m) m
    m ≤ r ∧ ∀ e ∈ l, dist e ≤ r := by
  intro l
  induction l with
  | nil => intro m; exact ⟨Rat.le_refl, by simp⟩
  | cons x l ih =>
    intro m
    simp only [List.foldl_cons]
    obtain ⟨h1, h2⟩ := ih (if dist x > m then dist x else m)
    refine ⟨?_, ?_⟩
    · split at h1 <;> grind
    · intro e he
      rcases List.mem_cons.mp he with rfl | he
      · split at h1 <;> grind
      · exact h2 e he

/-- C58. At a target the heuristic is 0. -/
theorem C58_target (dist : E → Rat) (V : Rat) (hV : V > 0) (tos : List E) (t : E) (ht : t ∈ tos) :
    heur ⟨dist, V, maxCentD dist V tos⟩ t = 0 := by
  apply UInt32.toNat_inj.mp
  rw [heur_floor]
  have h1 := (foldl_max dist tos 0).2 t ht
  have h2 := div_le_div h1 hV
  have : max 0 ((dist t / V - maxCentD dist V tos) * 10) = 0 := by
    rw [Rat.max_def]
    unfold maxCentD
    split
    · grind
    · rfl
  simp only [this]
  decide

/-! ### edge costs are not below the distance -/

def cap (f : Rat) : Rat := if f < 1 then f else 1

theorem cap_pos {f : Rat} (h : 0 < f) : 0 < cap f := by unfold cap; split <;> grind
theorem cap_le {f : Rat} : cap f ≤ 1 := by unfold cap; split <;> grind
theorem cap_le' {f : Rat} : cap f ≤ f := by unfold cap; split <;> grind

theorem corFac_eq (o : Opts) : corFac o = cap o.name * cap o.fr * cap o.to * cap o.noLines * cap o.oneWayPen := by
  unfold corFac cap
  simp only
  repeat' split
  all_goals grind

theorem mul_cap_le {x y f : Rat} (hx : 0 ≤ x) (h : x ≤ y) : x * cap f ≤ y := by
  have := Rat.mul_le_mul_of_nonneg_left (c := x) (cap_le (f := f)) hx
  grind

theorem mul_cap_le' {x y f : Rat} (hx : 0 ≤ x) (h : x ≤ y) (hf : 0 < f) : x * cap f ≤ y * f := by
  have h1 := Rat.mul_le_mul_of_nonneg_left (c := x) (cap_le' (f := f)) hx
  have h2 := Rat.mul_le_mul_of_nonneg_right (c := f) h (Rat.le_of_lt hf)
  grind

structure Opts.OK (o : Opts) : Prop where
  name : 0 < o.name
  fr : 0 < o.fr
  to : 0 < o.to
  noLines : 0 < o.noLines
  oneWayPen : 0 < o.oneWayPen
  oneWayEntry : 0 ≤ o.oneWayEntry

theorem oneWay_ge (o : Opts) (ok : o.OK) (w : Bool) (c : UInt32) (x : Rat) (hx : 0 ≤ x) (h : x ≤ (c.toNat : Rat)) :
    oneWayCost o w c = 4294967295 ∨ x * cap o.oneWayPen ≤ ((oneWayCost o w c).toNat : Rat) := by
  unfold oneWayCost
  cases w with
  | false => exact Or.inr (mul_cap_le hx h)
  | true =>
    simp only [if_true]
    have h1 := mul_cap_le' hx h ok.oneWayPen
    have h2 := natCast_nonneg c.toNat
    have hp : 0 ≤ (c.toNat : Rat) * o.oneWayPen := Rat.mul_nonneg h2 (Rat.le_of_lt ok.oneWayPen)
    have he := ok.oneWayEntry
    rcases costToInt_ge ((c.toNat : Rat) / 10 * o.oneWayPen + o.oneWayEntry) (by grind) with h3 | h3
    · exact Or.inl h3
    · refine Or.inr ?_
      grind

theorem noLine_ge (o : Opts) (ok : o.OK) (w : Bool) (c : UInt32) (x : Rat) (hx : 0 ≤ x) (h : x ≤ (c.toNat : Rat)) :
    noLineCost o w c = 4294967295 ∨ x * cap o.noLines ≤ ((noLineCost o w c).toNat : Rat) := by
  unfold noLineCost
  by_cases hh : o.noLines ≠ 1 ∧ w = true
  · rw [if_pos hh]
    have h1 := mul_cap_le' hx h ok.noLines
    have h2 := natCast_nonneg c.toNat
    have hp : 0 ≤ (c.toNat : Rat) * o.noLines := Rat.mul_nonneg h2 (Rat.le_of_lt ok.noLines)
    rcases costToInt_ge ((c.toNat : Rat) / 10 * o.noLines) (by grind) with h3 | h3
    · exact Or.inl h3
    · refine Or.inr ?_
      grind
  · rw [if_neg hh]; exact Or.inr (mul_cap_le hx h)

theorem ofQ_cls (f : Rat) : ((Factor.ofQ f).cls = .eq ↔ f = 1) ∧ ((Factor.ofQ f).cls = .gt ↔ 1 < f) ∧
    ((Factor.ofQ f).cls = .lt ↔ f < 1) := by
  unfold Factor.ofQ
  simp only
  by_cases h1 : f < 1
  · rw [if_pos h1]; simp [h1]; grind
  · rw [if_neg h1]
    by_cases h2 : f = 1
    · rw [if_pos h2]; simp [h2]
    · rw [if_neg h2]; simp [h1, h2]; grind

theorem ofQ_ok (f : Rat) : (Factor.ofQ f).OK := by
  constructor
  · intro hg c
    have hg := (ofQ_cls f).2.1.mp hg
    have : ¬ f < 1 := by grind
    simp only [Factor.ofQ, if_neg this]
    have hc := natCast_nonneg c
    have h1 := Rat.mul_le_mul_of_nonneg_left (c := (c : Rat)) (Rat.le_of_lt hg) hc
    have : (c : Int) ≤ ((c : Rat) * f + 1 / 2).floor := by
      rw [Rat.le_floor_iff]
      have : ((c : Int) : Rat) = (c : Rat) := Rat.intCast_natCast c
      rw [this]; grind
    omega
  · intro hl c
    have hl := (ofQ_cls f).2.2.mp hl
    simp only [Factor.ofQ, if_pos hl]
    have hc := natCast_nonneg c
    have h1 := Rat.mul_le_mul_of_nonneg_left (c := (c : Rat)) (Rat.le_of_lt hl) hc
    have : ((c : Rat) * f).ceil ≤ (c : Int) := by
      rw [Rat.ceil_le_iff]
      have : ((c : Int) : Rat) = (c : Rat) := Rat.intCast_natCast c
      rw [this]; grind
    omega

theorem apply_ge (f : Rat) (hf : 0 < f) (c : Nat) (x : Rat) (hx : 0 ≤ x) (h : x ≤ (c : Rat)) :
    x * cap f ≤ ((Factor.ofQ f).apply c : Nat) := by
  unfold Factor.apply
  by_cases h1 : f = 1
  · rw [if_pos ((ofQ_cls f).1.mpr h1)]; exact mul_cap_le hx h
  · rw [if_neg fun hh => h1 ((ofQ_cls f).1.mp hh)]
    by_cases h2 : f < 1
    · simp only [Factor.ofQ, if_pos h2]
      exact Rat.le_trans (mul_cap_le' hx h hf) (ceil_toNat_ge _)
    · have := (ofQ_ok f).1 ((ofQ_cls f).2.1.mpr (by grind)) c
      have h3 : (c : Rat) ≤ ((Factor.ofQ f).mul c : Nat) := natCast_le.mpr this
      exact Rat.le_trans (mul_cap_le hx h) h3

theorem stage_ge (f : Rat) (hf : 0 < f) (b : Bool) (c : Nat) (x : Rat) (hx : 0 ≤ x) (h : x ≤ (c : Rat)) :
    x * cap f ≤ ((if b then c else (Factor.ofQ f).apply c : Nat) : Rat) := by
  cases b with
  | true => exact mul_cap_le hx h
  | false => exact apply_ge f hf c x hx h

/-- The graph as built: every edge has a length that is at least the distance of its ends, the
speed of its level, and the costs written by the three passes. -/
structure Built {P : Type} (env : Env E N L) (o : Opts) (D : Dist P) where
  pos : N → P
  len : E → Rat
  speed : E → Rat
  wrong : E → Bool
  lone : E → Bool
  long : ∀ e, D.d (pos (env.src e)) (pos (env.dst e)) ≤ len e
  len0 : ∀ e, 0 ≤ len e
  speed0 : ∀ e, 0 < speed e
  /-- nothing was cut off before the last pass -/
  fits : ∀ e, geomCost (len e) (speed e) ≠ 4294967295 ∧
    oneWayCost o (wrong e) (geomCost (len e) (speed e)) ≠ 4294967295
  /-- the costs written by the passes; self edges (1765) have the maximum -/
  cost : ∀ e, env.cost e = 4294967295 ∨
    env.cost e = noLineCost o (lone e) (oneWayCost o (wrong e) (geomCost (len e) (speed e)))
  name : env.name = .ofQ o.name
  fr : env.fr = .ofQ o.fr
  to : env.to = .ofQ o.to

/-- C58. The costs of every transition are the maximum or at least ten times the time needed for
the straight line at the corrected speed of the edge, whatever punish factors are configured
(also factors below 1). -/
theorem C58_edge_bound {P : Type} (env : Env E N L) (o : Opts) (ok : o.OK) (D : Dist P) (B : Built env o D)
    (a : E) (t : Option (N × E)) :
    (callFrom env St.init a t).1 = 4294967295 ∨
    D.d (B.pos (env.src a)) (B.pos (env.dst a)) / (B.speed a / corFac o) * 10 ≤
      ((callFrom env St.init a t).1.toNat : Rat) := by
  have fok : FactorsOK env := ⟨B.name ▸ ofQ_ok _, B.fr ▸ ofQ_ok _, B.to ▸ ofQ_ok _⟩
  rcases B.cost a with hc | hc
  · left; unfold callFrom; simp only [hc, if_true]
  · generalize hx0 : B.len a / B.speed a * 10 = x0
    have hx0' : 0 ≤ x0 := by
      rw [← hx0]; have := div_nonneg (B.len0 a) (B.speed0 a); grind
    have s0 : x0 ≤ ((geomCost (B.len a) (B.speed a)).toNat : Rat) := by
      rcases costToInt_ge (B.len a / B.speed a) (div_nonneg (B.len0 a) (B.speed0 a)) with h | h
      · exact absurd h (B.fits a).1
      · rw [hx0] at h; exact h
    have s1 := (oneWay_ge o ok (B.wrong a) _ x0 hx0' s0).resolve_left (B.fits a).2
    have hx1 : 0 ≤ x0 * cap o.oneWayPen := Rat.mul_nonneg hx0' (Rat.le_of_lt (cap_pos ok.oneWayPen))
    rcases noLine_ge o ok (B.lone a) _ _ hx1 s1 with s2 | s2
    · left; unfold callFrom; simp only [hc, s2, if_true]
    · rw [← hc] at s2
      have hx2 : 0 ≤ x0 * cap o.oneWayPen * cap o.noLines := Rat.mul_nonneg hx1 (Rat.le_of_lt (cap_pos ok.noLines))
      rcases C16_no_wrap env fok a t _ (C16_best_line env a) with h | h
      · exact Or.inl h
      · generalize hs : transitLineSimi env a = s at h
        have c1 := cap_pos ok.name
        have c2 := cap_pos ok.fr
        have c3 := cap_pos ok.to
        have hx3 : 0 ≤ x0 * cap o.oneWayPen * cap o.noLines * cap o.name := Rat.mul_nonneg hx2 (Rat.le_of_lt c1)
        have hx4 := Rat.mul_nonneg hx3 (Rat.le_of_lt c2)
        have hline : x0 * cap o.oneWayPen * cap o.noLines * cap o.name * cap o.fr * cap o.to ≤
            (exactLine env s (env.cost a).toNat : Rat) := by
          unfold exactLine
          split
          · have := mul_cap_le (f := o.name) hx2 s2
            have := mul_cap_le (f := o.fr) hx3 this
            exact mul_cap_le (f := o.to) hx4 this
          · rw [B.name, B.fr, B.to]
            have t1 := stage_ge o.name ok.name s.name _ _ hx2 s2
            have t2 := stage_ge o.fr ok.fr s.fr _ _ hx3 t1
            exact stage_ge o.to ok.to s.to _ _ hx4 t2
        have hfac : 0 < corFac o := by
          rw [corFac_eq]
          exact Rat.mul_pos (Rat.mul_pos (Rat.mul_pos (Rat.mul_pos c1 c2) c3) (cap_pos ok.noLines)) (cap_pos ok.oneWayPen)
        have hd : D.d (B.pos (env.src a)) (B.pos (env.dst a)) / (B.speed a / corFac o) * 10 ≤ x0 * corFac o := by
          rw [← hx0]
          have e : ∀ y : Rat, y / (B.speed a / corFac o) = y * corFac o / B.speed a := by
            intro y
            have := Rat.ne_of_gt hfac
            have := Rat.ne_of_gt (B.speed0 a)
            grind
          rw [e]
          have h1 := Rat.mul_le_mul_of_nonneg_right (c := corFac o) (B.long a) (Rat.le_of_lt hfac)
          have h2 := div_le_div h1 (B.speed0 a)
          rw [div_eq, div_eq] at *
          grind
        have hl2 : x0 * (cap o.name * cap o.fr * cap o.to * cap o.noLines * cap o.oneWayPen) ≤
            (exactLine env s (env.cost a).toNat : Rat) := by
          have : x0 * (cap o.name * cap o.fr * cap o.to * cap o.noLines * cap o.oneWayPen) =
            x0 * cap o.oneWayPen * cap o.noLines * cap o.name * cap o.fr * cap o.to := by grind
          rw [this]; exact hline
        by_cases hbig : 4294967295 ≤ exactLine env s (env.cost a).toNat + exactTurn env a t
        · left
          apply UInt32.toNat_inj.mp
          simp only [UInt32.reduceToNat]
          omega
        · right
          have : exactLine env s (env.cost a).toNat ≤ (callFrom env St.init a t).1.toNat := by omega
          rw [← corFac_eq] at hl2
          exact Rat.le_trans hd (Rat.le_trans hl2 (natCast_le.mpr this))

/-! ### paths -/

/-- A path: each edge starts where the one before ends. -/
def IsPath (env : Env E N L) : List E → Prop
  | a :: b :: r => env.dst a = env.src b ∧ IsPath env (b :: r)
  | _ => True

/-- The costs of a path, without those of its last edge, as the search sums them up. -/
def pathCost (env : Env E N L) : List E → Nat
  | a :: b :: r => (call env St.init (.turn a (env.dst a) b)).1.toNat + pathCost env (b :: r)
  | _ => 0

/-- The heuristic for the targets `tos`, built with the speed `V` and some centre. -/
def heurOf {P : Type} (env : Env E N L) (D : Dist P) (pos : N → P) (center : P) (V : Rat) (tos : List E) : Heur E :=
  let dist := fun e => D.d (pos (env.src e)) center
  ⟨dist, V, maxCentD dist V tos⟩

/-- C58. The heuristic is consistent: along a transition it decreases by at most the costs of the
transition. `V` bounds the corrected speed of the edge (C34). -/
theorem C58_consistent {P : Type} (env : Env E N L) (o : Opts) (ok : o.OK) (D : Dist P) (B : Built env o D)
    (center : P) (V : Rat) (tos : List E) (a b : E) (hab : env.dst a = env.src b)
    (hV : B.speed a / corFac o ≤ V) :
    (heur (heurOf env D B.pos center V tos) a).toNat ≤
      (call env St.init (.turn a (env.dst a) b)).1.toNat + (heur (heurOf env D B.pos center V tos) b).toNat := by
  have hfac : 0 < corFac o := by
    rw [corFac_eq]
    exact Rat.mul_pos (Rat.mul_pos (Rat.mul_pos (Rat.mul_pos (cap_pos ok.name) (cap_pos ok.fr)) (cap_pos ok.to))
      (cap_pos ok.noLines)) (cap_pos ok.oneWayPen)
  have hsp : 0 < B.speed a / corFac o := by
    rw [div_eq]; exact Rat.mul_pos (B.speed0 a) (inv_pos hfac)
  have V0 : 0 < V := by grind
  refine heur_step (heurOf env D B.pos center V tos) V0 a b _ (D.d (B.pos (env.src a)) (B.pos (env.dst a))) ?_ ?_
  · show D.d (B.pos (env.src a)) center ≤ _ + D.d (B.pos (env.src b)) center
    rw [← hab]; exact D.tri _ _ _
  · rcases C58_edge_bound env o ok D B a (some (env.dst a, b)) with h | h
    · left
      show (callFrom env St.init a (some (env.dst a, b))).1.toNat = _
      rw [h]; decide
    · right
      refine Rat.le_trans ?_ h
      show _ / V * 10 ≤ _
      generalize hd : D.d (B.pos (env.src a)) (B.pos (env.dst a)) = x
      have hx : 0 ≤ x := by
        rw [← hd]
        exact D.nonneg _ _
      have : x / V ≤ x / (B.speed a / corFac o) := by
        rw [div_eq x V, div_eq x (_ / _)]
        apply Rat.mul_le_mul_of_nonneg_left _ hx
        have h1 := Rat.ne_of_gt V0
        have h2 := Rat.ne_of_gt hsp
        generalize B.speed a / corFac o = y at *
        have e1 : V⁻¹ = y * (V⁻¹ * y⁻¹) := by grind
        have e2 : y⁻¹ = V * (V⁻¹ * y⁻¹) := by grind
        rw [e1]
        conv => rhs; rw [e2]
        exact Rat.mul_le_mul_of_nonneg_right hV
          (Rat.le_of_lt (Rat.mul_pos (inv_pos V0) (inv_pos hsp)))
      grind

/-- C58. The heuristic never overestimates: for every path to a target it is at most the costs
of the path. -/
theorem C58_admissible {P : Type} (env : Env E N L) (o : Opts) (ok : o.OK) (D : Dist P) (B : Built env o D)
    (center : P) (V : Rat) (V0 : 0 < V) (tos : List E) (path : List E) (a t : E)
    (hp : IsPath env path) (ha : path.head? = some a) (ht : path.getLast? = some t) (hto : t ∈ tos)
    (hV : ∀ e ∈ path, B.speed e / corFac o ≤ V) :
    (heur (heurOf env D B.pos center V tos) a).toNat ≤ pathCost env path := by
  induction path generalizing a with
  | nil => cases ha
  | cons x r ih =>
    cases ha
    cases r with
    | nil =>
      cases ht
      rw [show heur (heurOf env D B.pos center V tos) x = 0 from C58_target _ V V0 tos x hto]
      exact Nat.zero_le _
    | cons b r =>
      have h1 := C58_consistent env o ok D B center V tos x b hp.1 (hV x (by simp))
      have h2 := ih b hp.2 rfl (by simpa [List.getLast?_cons_cons] using ht) (fun e he => hV e (by simp [he]))
      simp only [pathCost]
      omega

/-! ### example: a chain of edges of 100 m at 10 m/s, all of them without lines and punished by
factors below 1 -/

def exOpts : Opts := ⟨1 / 2, 1, 1, 2 / 3, 3, 0⟩

def lineDist : Dist Int where
  d := fun x y => ((x - y).natAbs : Nat)
  nonneg := fun x y => natCast_nonneg _
  tri := fun x y z => by
    have : (x - z).natAbs ≤ (x - y).natAbs + (y - z).natAbs := by omega
    have h := natCast_le.mpr this
    rwa [Rat.natCast_add] at h

def exGraph : Env Nat Nat Nat :=
  { exEnv (.ofQ (1 / 2)) (.ofQ 1) (.ofQ 1) 0 with
    cost := fun _ => noLineCost exOpts true (oneWayCost exOpts false (geomCost 100 10))
    src := fun e => e
    dst := fun e => e + 1 }

example : exOpts.OK := by constructor <;> decide +kernel

def exBuilt : Built exGraph exOpts lineDist where
  pos := fun n => 100 * (n : Int)
  len := fun _ => 100
  speed := fun _ => 10
  wrong := fun _ => false
  lone := fun _ => true
  long := fun e => by
    show (((100 * ((e : Nat) : Int) - 100 * ((e + 1 : Nat) : Int)).natAbs : Nat) : Rat) ≤ ((100 : Nat) : Rat)
    exact natCast_le.mpr (by omega)
  len0 := fun _ => by decide
  speed0 := fun _ => by decide
  fits := fun _ => by decide +kernel
  cost := fun _ => Or.inr rfl
  name := rfl
  fr := rfl
  to := rfl

example : corFac exOpts = 1 / 3 := by decide +kernel
example : IsPath exGraph [0, 1, 2, 3] ∧ ¬ IsPath exGraph [0, 1, 2, 4] := by simp [IsPath, exGraph]
example : pathCost exGraph [0, 1, 2, 3] = 102 ∧
    (heur (heurOf exGraph lineDist exBuilt.pos 300 (10 / corFac exOpts) [3]) 0).toNat = 100 := by
  decide +kernel

/-- The correction of the speed by the factors below 1 is needed: with the plain speed the
heuristic exceeds the costs of this path. -/
theorem C58_correction_needed :
    (heur (heurOf exGraph lineDist exBuilt.pos 300 10 [3]) 0).toNat > pathCost exGraph [0, 1, 2, 3] := by
  decide +kernel

end Verif.Weights
