import Verif.Weights.Model

/-!
# Transition costs and the distance heuristic (properties C15, C16, C58)
-/

set_option linter.unusedSectionVars false

namespace Verif.Weights
open Verif.Names (LineSim)
variable {E N L : Type} [DecidableEq E] [DecidableEq N]

/-! ### C15: the memo is invisible -/

/-- The state after a history of calls. -/
def after (env : Env E N L) (st : St E) (qs : List (Query E N)) : St E :=
  qs.foldl (fun st q => (call env st q).2) st

def Memo (env : Env E N L) (st : St E) : Prop :=
  ∀ a, st.lastFrom = some a → env.cost a ≠ 4294967295 ∧ noPen env = false ∧
    lineCost env a (env.cost a) = some st.lastC

theorem callFrom_memo (env : Env E N L) (st : St E) (h : Memo env st) (a : E) (t : Option (N × E)) :
    (callFrom env st a t).1 = (callFrom env St.init a t).1 ∧ Memo env (callFrom env st a t).2 := by
  unfold callFrom
  simp only [St.init, reduceCtorEq, if_false]
  by_cases hc : env.cost a = 4294967295
  · simp only [hc, if_true]; exact ⟨trivial, h⟩
  · simp only [hc, if_false]
    by_cases hl : st.lastFrom = some a
    · obtain ⟨_, h2, h3⟩ := h a hl
      simp only [hl, if_true, h2, Bool.false_eq_true, if_false, h3]
      exact ⟨trivial, h⟩
    · simp only [hl, if_false]
      cases hp : noPen env with
      | true => simp only [if_true]; exact ⟨trivial, h⟩
      | false =>
        simp only [Bool.false_eq_true, if_false]
        cases hlc : lineCost env a (env.cost a) with
        | none => exact ⟨rfl, h⟩
        | some c =>
          refine ⟨rfl, fun b hb => ?_⟩
          cases hb
          exact ⟨hc, hp, hlc⟩

theorem call_memo (env : Env E N L) (st : St E) (h : Memo env st) (q : Query E N) :
    (call env st q).1 = (call env St.init q).1 ∧ Memo env (call env st q).2 := by
  cases q with
  | none => exact ⟨rfl, h⟩
  | edge a => exact callFrom_memo env st h a none
  | turn a n b => exact callFrom_memo env st h a (some (n, b))

/-- C15. Whatever calls a cost function object has answered, its next answer is that of a new
object. -/
theorem C15_cost_history (env : Env E N L) (qs : List (Query E N)) (q : Query E N) :
    (call env (after env St.init qs) q).1 = (call env St.init q).1 := by
  have key : ∀ (qs : List (Query E N)) (st : St E), Memo env st → Memo env (after env st qs) := by
    intro qs
    induction qs with
    | nil => intro st h; exact h
    | cons q qs ih => intro st h; exact ih _ (call_memo env st h q).2
  exact (call_memo env _ (key qs _ (fun a h => by cases h)) q).1

/-- C15 for the heuristic. -/
theorem C15_heur_history (h : Heur E) (as : List E) (a : E) :
    (heurCall h (as.foldl (fun st b => (heurCall h st b).2) St.init) a).1 = heur h a := by
  have key : ∀ (as : List E) (st : St E), (∀ b, st.lastFrom = some b → st.lastC = heur h b) →
      ∀ b, (as.foldl (fun st b => (heurCall h st b).2) st).lastFrom = some b →
        (as.foldl (fun st b => (heurCall h st b).2) st).lastC = heur h b := by
    intro as
    induction as with
    | nil => intro st hs; exact hs
    | cons x as ih =>
      intro st hs
      apply ih
      intro b hb
      simp only at hb ⊢
      unfold heurCall at hb ⊢
      by_cases hx : st.lastFrom = some x
      · simp only [hx, if_true] at hb ⊢; exact hs b (hx.trans hb)
      · simp only [hx, if_false] at hb ⊢; cases hb; rfl
  have := key as St.init (fun b h => by cases h)
  unfold heurCall
  split
  · rename_i hx; exact this a hx
  · rfl

/-! ### C16: specification -/

/-- The effect of an unmatched criterion, without any bound on the numbers. -/
def Factor.apply (f : Factor) (c : Nat) : Nat := if f.cls = .eq then c else f.mul c

/-- Number of matching criteria. -/
def matched (s : LineSim) : Nat := ([s.name, s.fr, s.to].filter id).length

/-- The flags that count for an edge: those of the first of the lines with the most matches; no
matches without lines, all if the trip has no attributes to match. -/
def IsBest (env : Env E N L) (e : E) (s : LineSim) : Prop :=
  if env.noAttrs then s = ⟨true, true, true⟩
  else (∀ l ∈ env.lines e, matched (env.simi l) ≤ matched s) ∧
    (s = ⟨false, false, false⟩ ∨ ∃ pre l post, env.lines e = pre ++ l :: post ∧ s = env.simi l ∧
      ∀ l' ∈ pre, matched (env.simi l') < matched s)

/-- Exact punished costs of an edge. -/
def exactLine (env : Env E N L) (s : LineSim) (c : Nat) : Nat :=
  if env.name.cls = .eq then c
  else
    let c := if s.name then c else env.name.apply c
    let c := if s.fr then c else env.fr.apply c
    if s.to then c else env.to.apply c

/-- A turn is punished if it leads back, or if it is sharp at a crossing. -/
def Punished (env : Env E N L) (a : E) (n : N) (b : E) : Prop :=
  (env.src a = env.dst b ∧ env.dst a = env.src b) ∨ (env.deg n > 2 ∧ env.sharp n a b = true)

def Forbidden (env : Env E N L) (a : E) (n : N) (b : E) : Prop :=
  env.restricted a = true ∧ env.may a b n = false

open Classical in
/-- Exact additional costs of a turn. -/
noncomputable def exactTurn (env : Env E N L) (a : E) : Option (N × E) → Nat
  | none => 0
  | some (n, b) =>
    if env.turnCycle n = true then 0
    else (if Punished env a n b then env.fullTurn.toNat else 0) +
      (if Forbidden env a n b then env.turnRestr.toNat else 0)

/-- What is assumed of the arithmetic of a factor: a factor above 1 does not decrease, one below
1 does not increase (true of `double`, see the model). -/
def Factor.OK (f : Factor) : Prop :=
  (f.cls = .gt → ∀ c, c ≤ f.mul c) ∧ (f.cls = .lt → ∀ c, f.mul c ≤ c)

/-! ### line similarity -/

theorem cnt_le (s : LineSim) : LineSim.cnt s ≤ 3 := by
  obtain ⟨a, b, c⟩ := s
  cases a <;> cases b <;> cases c <;> decide

theorem cnt_eq : matched = LineSim.cnt := by
  funext s
  obtain ⟨a, b, c⟩ := s
  cases a <;> cases b <;> cases c <;> rfl

theorem cnt_all {s : LineSim} (h : (s.name && s.to && s.fr) = true) : LineSim.cnt s = 3 := by
  obtain ⟨a, b, c⟩ := s
  cases a <;> cases b <;> cases c <;> simp_all [LineSim.cnt]

theorem cnt_zero {s : LineSim} (h : LineSim.cnt s = 0) : s = ⟨false, false, false⟩ := by
  obtain ⟨a, b, c⟩ := s
  cases a <;> cases b <;> cases c <;> simp_all [LineSim.cnt]

theorem bestLoop_spec (simi : L → LineSim) : ∀ (ls pre : List L) (best : LineSim),
    (∀ l ∈ pre, LineSim.cnt (simi l) ≤ LineSim.cnt best) →
    (best = ⟨false, false, false⟩ ∨ ∃ p l q, pre = p ++ l :: q ∧ best = simi l ∧
      ∀ l' ∈ p, LineSim.cnt (simi l') < LineSim.cnt best) → (∀ l ∈ pre, LineSim.cnt (simi l) < 3) →
    (∀ l ∈ pre ++ ls, LineSim.cnt (simi l) ≤ LineSim.cnt (bestLoop simi best ls)) ∧
    (bestLoop simi best ls = ⟨false, false, false⟩ ∨ ∃ p l q, pre ++ ls = p ++ l :: q ∧
      bestLoop simi best ls = simi l ∧ ∀ l' ∈ p, LineSim.cnt (simi l') < LineSim.cnt (bestLoop simi best ls)) := by
  intro ls
  induction ls with
  | nil => intro pre best h1 h2 _; rw [List.append_nil]; exact ⟨h1, h2⟩
  | cons x ls ih =>
    intro pre best h1 h2 h3
    simp only [bestLoop]
    by_cases hall : ((simi x).name && (simi x).to && (simi x).fr) = true
    · rw [if_pos hall]
      refine ⟨fun l _ => ?_, Or.inr ⟨pre, x, ls, rfl, rfl, fun l' hl' => ?_⟩⟩
      · rw [cnt_all hall]; exact cnt_le _
      · rw [cnt_all hall]; exact h3 l' hl'
    · rw [if_neg hall]
      have hx3 : LineSim.cnt (simi x) < 3 := by
        generalize simi x = s at hall
        obtain ⟨a, b, c⟩ := s
        cases a <;> cases b <;> cases c <;> simp_all [LineSim.cnt]
      have := ih (pre ++ [x]) (if LineSim.cnt best < LineSim.cnt (simi x) then simi x else best)
      simp only [List.append_assoc, List.singleton_append] at this
      apply this
      · intro l hl
        rcases List.mem_append.mp hl with hl | hl
        · have := h1 l hl
          split <;> omega
        · simp only [List.mem_singleton] at hl
          subst hl
          split <;> omega
      · by_cases hlt : LineSim.cnt best < LineSim.cnt (simi x)
        · rw [if_pos hlt]
          exact Or.inr ⟨pre, x, [], rfl, rfl, fun l' hl' => by have := h1 l' hl'; omega⟩
        · rw [if_neg hlt]
          rcases h2 with h2 | ⟨p, l, q, e, h2, h4⟩
          · exact Or.inl h2
          · exact Or.inr ⟨p, l, q ++ [x], by rw [e]; simp, h2, h4⟩
      · intro l hl
        rcases List.mem_append.mp hl with hl | hl
        · exact h3 l hl
        · simp only [List.mem_singleton] at hl
          subst hl; exact hx3

/-- The flags used are the best ones in the sense of the specification. -/
theorem C16_best_line (env : Env E N L) (e : E) : IsBest env e (transitLineSimi env e) := by
  unfold IsBest transitLineSimi
  rw [cnt_eq]
  cases env.noAttrs with
  | true => simp
  | false =>
    simp only [Bool.false_eq_true, if_false]
    exact bestLoop_spec env.simi (env.lines e) [] _ (by simp) (Or.inl rfl) (by simp)

/-- ... and they are determined by it. -/
theorem C16_best_unique (env : Env E N L) (e : E) (s s' : LineSim) (h : IsBest env e s) (h' : IsBest env e s') :
    s = s' := by
  unfold IsBest at h h'
  rw [cnt_eq] at h h'
  cases hn : env.noAttrs with
  | true => rw [hn] at h h'; simp only [if_true] at h h'; rw [h, h']
  | false =>
    rw [hn] at h h'
    simp only [Bool.false_eq_true, if_false] at h h'
    obtain ⟨h1, h2⟩ := h
    obtain ⟨g1, g2⟩ := h'
    rcases h2 with h2 | ⟨p, l, q, e1, h2, h3⟩
    · subst h2
      rcases g2 with g2 | ⟨p', l', q', e2, g2, g3⟩
      · exact g2.symm
      · have := h1 l' (by rw [e2]; simp)
        rw [← g2] at this
        exact (cnt_zero (by simpa [LineSim.cnt] using this)).symm
    · rcases g2 with g2 | ⟨p', l', q', e2, g2, g3⟩
      · subst g2
        have := g1 l (by rw [e1]; simp)
        rw [← h2] at this
        exact cnt_zero (by simpa [LineSim.cnt] using this)
      · have hc : LineSim.cnt s = LineSim.cnt s' := by
          have a := h1 l' (by rw [e2]; simp)
          have b := g1 l (by rw [e1]; simp)
          rw [← g2] at a; rw [← h2] at b
          omega
        have hlen : p = p' ∧ l = l' := by
          rw [e1] at e2
          rcases List.append_eq_append_iff.mp e2 with ⟨m, rfl, hm⟩ | ⟨m, rfl, hm⟩
          · cases m with
            | nil => simp only [List.nil_append, List.cons.injEq] at hm; exact ⟨by simp, hm.1⟩
            | cons y m =>
              simp only [List.cons_append, List.cons.injEq] at hm
              have := g3 y (by simp)
              rw [← hm.1, ← h2, hc] at this
              omega
          · cases m with
            | nil => simp only [List.nil_append, List.cons.injEq] at hm; exact ⟨by simp, hm.1.symm⟩
            | cons y m =>
              simp only [List.cons_append, List.cons.injEq] at hm
              have := h3 y (by simp)
              rw [← hm.1, ← g2, hc] at this
              omega
        rw [h2, g2, hlen.2]

/-! ### costs -/

theorem toNat_lt (c : UInt32) : c.toNat < 4294967296 := c.toNat_lt

theorem add_wrap (c f : UInt32) (hf : f ≠ 0) :
    (c + f ≤ c ↔ c.toNat + f.toNat > 4294967295) ∧ (¬ c + f ≤ c → (c + f).toNat = c.toNat + f.toNat) := by
  have h1 := c.toNat_lt
  have h2 := f.toNat_lt
  have h3 : f.toNat ≠ 0 := fun h => hf (UInt32.toNat_inj.mp (by simpa using h))
  simp only [UInt32.le_iff_toNat_le, UInt32.toNat_add]
  constructor
  · constructor
    · intro h
      by_cases hh : c.toNat + f.toNat > 4294967295
      · exact hh
      · rw [Nat.mod_eq_of_lt (by omega)] at h; omega
    · intro h
      rw [show c.toNat + f.toNat = (c.toNat + f.toNat - 4294967296) + 4294967296 from by omega, Nat.add_mod_right,
        Nat.mod_eq_of_lt (by omega)]
      omega
  · intro h
    by_cases hh : c.toNat + f.toNat > 4294967295
    · exfalso; apply h
      rw [show c.toNat + f.toNat = (c.toNat + f.toNat - 4294967296) + 4294967296 from by omega, Nat.add_mod_right,
        Nat.mod_eq_of_lt (by omega)]
      omega
    · exact Nat.mod_eq_of_lt (by omega)

/-- `punish` computes the exact value or tells that it does not fit. -/
theorem punish_spec (f : Factor) (ok : f.OK) (c : UInt32) :
    (punish f c = none ∧ f.cls = .gt ∧ f.apply c.toNat > 4294967295) ∨
    ∃ d, punish f c = some d ∧ d.toNat = f.apply c.toNat := by
  have hc := c.toNat_lt
  unfold punish Factor.apply
  cases hcls : f.cls with
  | lt =>
    right
    have := ok.2 hcls c.toNat
    refine ⟨_, rfl, ?_⟩
    simp only [reduceCtorEq, if_false]
    exact UInt32.toNat_ofNat_of_lt (by simp [UInt32.size]; omega)
  | eq => right; exact ⟨c, rfl, by simp⟩
  | gt =>
    simp only [reduceCtorEq, if_false]
    by_cases h : f.mul c.toNat > 4294967295
    · left; exact ⟨by rw [if_pos h], trivial, h⟩
    · right
      rw [if_neg h]
      exact ⟨_, rfl, UInt32.toNat_ofNat_of_lt (by simp [UInt32.size]; omega)⟩

/-- One stage of the line punishment. -/
theorem stage_spec (f : Factor) (ok : f.OK) (b : Bool) (c : UInt32) :
    ((if b then some c else punish f c) = none ∧ (if b then c.toNat else f.apply c.toNat) > 4294967295) ∨
    ∃ d, (if b then some c else punish f c) = some d ∧ d.toNat = if b then c.toNat else f.apply c.toNat := by
  cases b with
  | true => right; exact ⟨c, rfl, rfl⟩
  | false =>
    simp only [Bool.false_eq_true, if_false]
    rcases punish_spec f ok c with ⟨h1, _, h2⟩ | h
    · exact Or.inl ⟨h1, h2⟩
    · exact Or.inr h

/-- The factors do not decrease costs. -/
def Up (env : Env E N L) : Prop := env.name.cls ≠ .lt ∧ env.fr.cls ≠ .lt ∧ env.to.cls ≠ .lt

theorem apply_up {f : Factor} (ok : f.OK) (h : f.cls ≠ .lt) (c : Nat) : c ≤ f.apply c := by
  unfold Factor.apply
  cases hc : f.cls with
  | lt => exact absurd hc h
  | eq => simp
  | gt => simp only [reduceCtorEq, if_false]; exact ok.1 hc c

theorem stage_up {f : Factor} (ok : f.OK) (h : f.cls ≠ .lt) (b : Bool) (c : Nat) :
    c ≤ if b then c else f.apply c := by
  cases b with
  | true => exact Nat.le_refl _
  | false => exact apply_up ok h c

structure FactorsOK (env : Env E N L) : Prop where
  name : env.name.OK
  fr : env.fr.OK
  to : env.to.OK

theorem lineCost_spec (env : Env E N L) (ok : FactorsOK env) (e : E) (c : UInt32) (hn : env.name.cls ≠ .eq) :
    (lineCost env e c = none ∧ (Up env → exactLine env (transitLineSimi env e) c.toNat > 4294967295)) ∨
    ∃ d, lineCost env e c = some d ∧ d.toNat = exactLine env (transitLineSimi env e) c.toNat := by
  unfold lineCost exactLine
  rw [if_neg hn]
  generalize transitLineSimi env e = s
  simp only
  rcases stage_spec env.name ok.name s.name c with ⟨e1, h1⟩ | ⟨d1, e1, h1⟩
  · left
    rw [e1]
    refine ⟨rfl, fun up => ?_⟩
    have := stage_up ok.fr up.2.1 s.fr (if s.name = true then c.toNat else env.name.apply c.toNat)
    have := stage_up ok.to up.2.2 s.to
      (if s.fr = true then (if s.name = true then c.toNat else env.name.apply c.toNat)
        else env.fr.apply (if s.name = true then c.toNat else env.name.apply c.toNat))
    omega
  · rw [e1, ← h1]
    simp only
    rcases stage_spec env.fr ok.fr s.fr d1 with ⟨e2, h2⟩ | ⟨d2, e2, h2⟩
    · left
      rw [e2]
      refine ⟨rfl, fun up => ?_⟩
      have := stage_up ok.to up.2.2 s.to (if s.fr = true then d1.toNat else env.fr.apply d1.toNat)
      omega
    · rw [e2, ← h2]
      simp only
      rcases stage_spec env.to ok.to s.to d2 with ⟨e3, h3⟩ | ⟨d3, e3, h3⟩
      · exact Or.inl ⟨e3, fun _ => h3⟩
      · exact Or.inr ⟨d3, e3, h3⟩

theorem fullTurn_spec (env : Env E N L) (a : E) (n : N) (b : E) (c : UInt32) :
    open Classical in
    let x := if Punished env a n b then env.fullTurn.toNat else 0
    (fullTurn env a n b c = none ∧ c.toNat + x > 4294967295) ∨
    ∃ d, fullTurn env a n b c = some d ∧ d.toNat = c.toNat + x := by
  classical
  intro x
  have add : env.fullTurn ≠ 0 → Punished env a n b →
      (((if c + env.fullTurn ≤ c then none else some (c + env.fullTurn)) = none ∧ c.toNat + x > 4294967295) ∨
      ∃ d, (if c + env.fullTurn ≤ c then none else some (c + env.fullTurn)) = some d ∧ d.toNat = c.toNat + x) := by
    intro h0 hp
    have hx : x = env.fullTurn.toNat := if_pos hp
    obtain ⟨w1, w2⟩ := add_wrap c env.fullTurn h0
    by_cases hw : c + env.fullTurn ≤ c
    · left; rw [if_pos hw, hx]; exact ⟨rfl, w1.mp hw⟩
    · right; rw [if_neg hw, hx]; exact ⟨_, rfl, w2 hw⟩
  have zero : env.fullTurn = 0 ∨ ¬ Punished env a n b → ∃ d, some c = some d ∧ d.toNat = c.toNat + x := by
    intro h
    refine ⟨c, rfl, ?_⟩
    have : x = 0 := by
      rcases h with h | h
      · simp only [x, h]; split <;> rfl
      · exact if_neg h
    omega
  unfold fullTurn
  split
  · rename_i h
    exact add h.1 (Or.inl h.2)
  · rename_i h1
    split
    · rename_i h2
      split
      · rename_i h3
        exact add h2.1 (Or.inr ⟨h2.2, h3⟩)
      · rename_i h3
        refine Or.inr (zero (Or.inr ?_))
        rintro (hp | hp)
        · exact h1 ⟨h2.1, hp⟩
        · exact h3 hp.2
    · rename_i h2
      refine Or.inr (zero ?_)
      by_cases h0 : env.fullTurn = 0
      · exact Or.inl h0
      · right
        rintro (hp | hp)
        · exact h1 ⟨h0, hp⟩
        · exact h2 ⟨h0, hp.1⟩

theorem turnRestr_spec (env : Env E N L) (a : E) (n : N) (b : E) (c : UInt32) :
    open Classical in
    let x := if Forbidden env a n b then env.turnRestr.toNat else 0
    (turnRestr env a n b c = none ∧ c.toNat + x > 4294967295) ∨
    ∃ d, turnRestr env a n b c = some d ∧ d.toNat = c.toNat + x := by
  classical
  intro x
  unfold turnRestr
  by_cases h : (decide (env.turnRestr > 0) && env.restricted a && !env.may a b n) = true
  · rw [if_pos h]
    simp only [Bool.and_eq_true, decide_eq_true_eq, Bool.not_eq_true'] at h
    have h0 : env.turnRestr ≠ 0 := by
      intro e; have := h.1.1; rw [e] at this; exact absurd this (by decide)
    have hx : x = env.turnRestr.toNat := if_pos ⟨h.1.2, h.2⟩
    obtain ⟨w1, w2⟩ := add_wrap c env.turnRestr h0
    by_cases hw : c + env.turnRestr ≤ c
    · left; rw [if_pos hw, hx]; exact ⟨rfl, w1.mp hw⟩
    · right; rw [if_neg hw, hx]; exact ⟨_, rfl, w2 hw⟩
  · rw [if_neg h]
    right
    refine ⟨c, rfl, ?_⟩
    have : x = 0 := by
      by_cases h0 : env.turnRestr = 0
      · simp only [x, h0]; split <;> rfl
      · refine if_neg fun hf => h ?_
        have h0' : env.turnRestr > 0 := by
          rw [gt_iff_lt, UInt32.lt_iff_toNat_lt]
          have : env.turnRestr.toNat ≠ 0 := fun hz => h0 (UInt32.toNat_inj.mp (by simpa using hz))
          simp; omega
        simp [h0', hf.1, hf.2]
    omega

theorem turnCost_spec (env : Env E N L) (a : E) (t : Option (N × E)) (c : UInt32) :
    (turnCost env a c t).toNat = min 4294967295 (c.toNat + exactTurn env a t) := by
  classical
  have hc := c.toNat_lt
  cases t with
  | none => simp only [turnCost, exactTurn]; omega
  | some p =>
    obtain ⟨n, b⟩ := p
    simp only [turnCost, exactTurn]
    cases htc : env.turnCycle n with
    | true => simp only [if_true]; omega
    | false =>
      simp only [Bool.false_eq_true, if_false]
      rcases fullTurn_spec env a n b c with ⟨e1, h1⟩ | ⟨d1, e1, h1⟩
      · rw [e1]
        simp only [UInt32.reduceToNat]
        omega
      · rw [e1]
        simp only
        rcases turnRestr_spec env a n b d1 with ⟨e2, h2⟩ | ⟨d2, e2, h2⟩
        · rw [e2]; simp only [UInt32.reduceToNat]; omega
        · rw [e2]
          have := d2.toNat_lt
          simp only
          omega

/-- C16. If no punish factor is below 1, the costs of a call are the exact costs (punished line
costs plus turn costs, calculated without bounds), cut off at the maximum of 32 bits: they never
wrap around. -/
theorem C16_exact (env : Env E N L) (ok : FactorsOK env) (up : Up env) (a : E) (t : Option (N × E)) (s : LineSim)
    (hs : IsBest env a s) :
    (callFrom env St.init a t).1.toNat =
      min 4294967295 (exactLine env s (env.cost a).toNat + exactTurn env a t) := by
  have hss := C16_best_unique env a _ _ (C16_best_line env a) hs
  subst hss
  have hc := (env.cost a).toNat_lt
  have line_up : ∀ c, c ≤ exactLine env (transitLineSimi env a) c := by
    intro c
    unfold exactLine
    split
    · exact Nat.le_refl _
    · exact Nat.le_trans (stage_up ok.name up.1 _ c) (Nat.le_trans (stage_up ok.fr up.2.1 _ _) (stage_up ok.to up.2.2 _ _))
  unfold callFrom
  simp only [St.init, reduceCtorEq, if_false]
  by_cases hmax : env.cost a = 4294967295
  · rw [if_pos hmax, hmax]
    have := line_up (4294967295 : UInt32).toNat
    simp only [UInt32.reduceToNat] at this ⊢
    omega
  · rw [if_neg hmax]
    by_cases hp : noPen env = true
    · rw [if_pos hp]
      have : exactLine env (transitLineSimi env a) (env.cost a).toNat = (env.cost a).toNat := by
        unfold exactLine
        split
        · rfl
        · rename_i hne
          have hna : env.noAttrs = true := by
            simp only [noPen, Bool.or_eq_true, beq_iff_eq] at hp
            exact hp.resolve_right hne
          simp [transitLineSimi, hna]
      rw [turnCost_spec, this]
    · rw [if_neg hp]
      have hne : env.name.cls ≠ .eq := by
        intro h; apply hp; simp [noPen, h]
      rcases lineCost_spec env ok a (env.cost a) hne with ⟨e1, h1⟩ | ⟨d, e1, h1⟩
      · rw [e1]
        have := h1 up
        simp only [UInt32.reduceToNat]
        omega
      · rw [e1]
        simp only
        rw [turnCost_spec, h1]

/-- C16: the costs of a turn are at least those of its first edge, which are at least the plain
costs. -/
theorem C16_not_cheaper (env : Env E N L) (ok : FactorsOK env) (up : Up env) (a : E) (n : N) (b : E) :
    env.cost a ≤ (call env St.init (.edge a)).1 ∧
    (call env St.init (.edge a)).1 ≤ (call env St.init (.turn a n b)).1 := by
  have h1 := C16_exact env ok up a none _ (C16_best_line env a)
  have h2 := C16_exact env ok up a (some (n, b)) _ (C16_best_line env a)
  have hc := (env.cost a).toNat_lt
  have line_up : (env.cost a).toNat ≤ exactLine env (transitLineSimi env a) (env.cost a).toNat := by
    unfold exactLine
    split
    · exact Nat.le_refl _
    · exact Nat.le_trans (stage_up ok.name up.1 _ _) (Nat.le_trans (stage_up ok.fr up.2.1 _ _) (stage_up ok.to up.2.2 _ _))
  constructor
  · rw [UInt32.le_iff_toNat_le]
    show _ ≤ (callFrom env St.init a none).1.toNat
    rw [h1]
    simp only [exactTurn]
    omega
  · rw [UInt32.le_iff_toNat_le]
    show (callFrom env St.init a none).1.toNat ≤ (callFrom env St.init a (some (n, b))).1.toNat
    rw [h1, h2]
    simp only [exactTurn]
    omega

/-- C16 with arbitrary factors: the costs are the maximum, or the exact costs cut off at the
maximum. -/
theorem C16_no_wrap (env : Env E N L) (ok : FactorsOK env) (a : E) (t : Option (N × E)) (s : LineSim)
    (hs : IsBest env a s) :
    (callFrom env St.init a t).1 = 4294967295 ∨ (callFrom env St.init a t).1.toNat =
      min 4294967295 (exactLine env s (env.cost a).toNat + exactTurn env a t) := by
  have hss := C16_best_unique env a _ _ (C16_best_line env a) hs
  subst hss
  unfold callFrom
  simp only [St.init, reduceCtorEq, if_false]
  by_cases hmax : env.cost a = 4294967295
  · left; rw [if_pos hmax]; exact hmax
  · rw [if_neg hmax]
    by_cases hp : noPen env = true
    · rw [if_pos hp]
      right
      have : exactLine env (transitLineSimi env a) (env.cost a).toNat = (env.cost a).toNat := by
        unfold exactLine
        split
        · rfl
        · rename_i hne
          have hna : env.noAttrs = true := by
            simp only [noPen, Bool.or_eq_true, beq_iff_eq] at hp
            exact hp.resolve_right hne
          simp [transitLineSimi, hna]
      rw [turnCost_spec, this]
    · rw [if_neg hp]
      have hne : env.name.cls ≠ .eq := by
        intro h; apply hp; simp [noPen, h]
      rcases lineCost_spec env ok a (env.cost a) hne with ⟨e1, _⟩ | ⟨d, e1, h1⟩
      · left; rw [e1]
      · right
        rw [e1]
        simp only
        rw [turnCost_spec, h1]

/-! ### exact factors and examples -/

/-- Factor `num / den`, with exact arithmetic: `ceil` below 1, `round` (half up) above. -/
def Factor.ofRat (num den : Nat) : Factor :=
  { cls := compare num den
    mul := fun c => if num < den then (c * num + den - 1) / den else (2 * c * num + den) / (2 * den) }

theorem ofRat_ok (num den : Nat) (h : 0 < den) : (Factor.ofRat num den).OK := by
  constructor
  · intro hg c
    have hg : den < num := by
      simpa [Factor.ofRat, Nat.compare_eq_gt] using hg
    have : ¬ num < den := by omega
    simp only [Factor.ofRat, if_neg this]
    rw [Nat.le_div_iff_mul_le (by omega)]
    have := Nat.mul_le_mul_left (2 * c) (Nat.le_of_lt hg)
    rw [show c * (2 * den) = 2 * c * den by rw [Nat.mul_left_comm, ← Nat.mul_assoc]]
    omega
  · intro hl c
    have hl : num < den := by
      simpa [Factor.ofRat, Nat.compare_eq_lt] using hl
    simp only [Factor.ofRat, if_pos hl]
    apply Nat.le_of_lt_succ
    rw [Nat.div_lt_iff_lt_mul h, Nat.succ_mul]
    have := Nat.mul_le_mul_left c (Nat.le_of_lt hl)
    omega

/-- edge `i` leads from node `i` to node `i + 1`, edge 100 + i back; line 0 matches the name only -/
def exEnv (name fr to : Factor) (fullTurn : UInt32) : Env Nat Nat Nat :=
  { cost := fun e => if e = 7 then 4294967290 else 100
    lines := fun e => if e = 3 then [1, 0] else []
    simi := fun l => ⟨l == 0, false, false⟩
    noAttrs := false
    src := fun e => if e < 100 then e else e - 99
    dst := fun e => if e < 100 then e + 1 else e - 100
    turnCycle := fun _ => false
    deg := fun _ => 4
    sharp := fun _ _ _ => false
    restricted := fun e => e == 5
    may := fun _ _ _ => false
    fullTurn := fullTurn
    turnRestr := 1000
    name := name, fr := fr, to := to }

def exC (e : Env Nat Nat Nat) (q : Query Nat Nat) : Nat := (call e St.init q).1.toNat

example : (List.map (exC (exEnv (.ofRat 3 2) (.ofRat 1 1) (.ofRat 2 1) 600))
    [.edge 3, .edge 4, .turn 3 4 4, .turn 3 4 103, .turn 5 6 6, .turn 5 6 105, .edge 7]) =
    [200, 300, 200, 800, 1300, 1900, 4294967295] := by decide +kernel
-- below 1: cheaper, and an overflow at the edge of the range by the turn only
example : (List.map (exC (exEnv (.ofRat 1 3) (.ofRat 1 1) (.ofRat 1 1) 600)) [.edge 4, .edge 3]) = [34, 100] := by
  decide +kernel
example : exC (exEnv (.ofRat 1 1) (.ofRat 1 1) (.ofRat 1 1) 600) (.turn 7 8 107) = 4294967295 := by decide +kernel
example : FactorsOK (exEnv (.ofRat 3 2) (.ofRat 1 1) (.ofRat 2 1) 600) ∧
    Up (exEnv (.ofRat 3 2) (.ofRat 1 1) (.ofRat 2 1) 600) :=
  ⟨⟨ofRat_ok _ _ (by decide), ofRat_ok _ _ (by decide), ofRat_ok _ _ (by decide)⟩, by decide, by decide, by decide⟩

/-- Finding: if the factor for unmatched line names is 1, the factors for unmatched origins and
destinations are ignored, too (Weights.h:40). -/
theorem C16_limit_name_factor_one : ∃ (env : Env Nat Nat Nat) (e : Nat), env.noAttrs = false ∧
    env.fr = .ofRat 5 1 ∧ (transitLineSimi env e).fr = false ∧ (call env St.init (.edge e)).1 = env.cost e :=
  ⟨exEnv (.ofRat 1 1) (.ofRat 5 1) (.ofRat 5 1) 0, 4, rfl, rfl, rfl, by decide +kernel⟩

end Verif.Weights
