import Verif.Limit.Model
import Verif.Weights.HeurProps
import Verif.Full.Spec
import Verif.Router.Props

/-!
# The first maximum cost of a hop (property C69)
-/

set_option linter.unusedSimpArgs false
set_option linter.unusedSectionVars false

namespace Verif.Limit

open Verif.Trie (Nd)
open Verif.Weights (Env Opts IsPath pathCost natCast_le natCast_nonneg)

variable {E C X P A : Type}

/-! ### specification -/

/-- Average time of the trips at a node, in whole seconds. -/
def mean (n : Nd P A) : Int := n.accTime / (n.trips : Int)

/-- A node with trips, none of whose times in sum is before the start. -/
def Timed (n : Nd P A) : Prop := 0 < n.trips ∧ 0 ≤ n.accTime

/-- `V` is the greatest speed of the components of the candidates on edges, 0 if there is none. -/
def Fastest (speed : E → Rat) (cands : List (Router.Cand E C X)) (V : Rat) : Prop :=
  (∀ c ∈ cands, ∀ e : E, c.e = some e → speed e ≤ V) ∧ ((∃ c ∈ cands, ∃ e : E, c.e = some e ∧ speed e = V) ∨ V = 0) ∧ 0 ≤ V

/-- `t` is the greatest of a minute, the scheduled time and the time a direct line takes at speed `V`. -/
def Time (V d : Rat) (fr to : Nd P A) (t : Rat) : Prop :=
  60 ≤ t ∧ ((mean to - mean fr : Int) : Rat) ≤ t ∧ d / V ≤ t ∧ (t = 60 ∨ t = ((mean to - mean fr : Int) : Rat) ∨ t = d / V)

/-- The product of the factors for unmatched lines. -/
def factor (o : Opts) : Rat := o.name * o.fr * o.to

/-! ### lemmas -/

theorem maxSpeed_fold (speed : E → Rat) : ∀ (cs : List (Router.Cand E C X)) (m : Rat),
    let r := cs.foldl (fun m c => match c.e with
      | none => m
      | some e => if m < speed e then speed e else m) m
    m ≤ r ∧ (∀ c ∈ cs, ∀ e : E, c.e = some e → speed e ≤ r) ∧ ((∃ c ∈ cs, ∃ e : E, c.e = some e ∧ speed e = r) ∨ r = m) := by
  intro cs
  induction cs with
  | nil => intro m; exact ⟨Rat.le_refl, by simp, Or.inr rfl⟩
  | cons c cs ih =>
    intro m
    simp only [List.foldl_cons]
    obtain ⟨h1, h2, h3⟩ := ih (match c.e with
      | none => m
      | some e => if m < speed e then speed e else m)
    generalize hr : List.foldl _ _ cs = r at *
    refine ⟨?_, ?_, ?_⟩
    · cases he : c.e with
      | none => rw [he] at h1; exact h1
      | some e => rw [he] at h1; simp only at h1; split at h1 <;> grind
    · intro c' hc' e he
      rcases List.mem_cons.mp hc' with rfl | hc'
      · rw [he] at h1; simp only at h1; split at h1 <;> grind
      · exact h2 c' hc' e he
    · rcases h3 with ⟨c', hc', e, he, hs⟩ | h3
      · exact Or.inl ⟨c', by simp [hc'], e, he, hs⟩
      · cases he : c.e with
        | none => rw [he] at h3; exact Or.inr h3
        | some e =>
          rw [he] at h3
          simp only at h3
          split at h3
          · exact Or.inl ⟨c, by simp, e, he, h3.symm⟩
          · exact Or.inr h3

theorem maxSpeed_spec (speed : E → Rat) (cs : List (Router.Cand E C X)) : Fastest speed cs (maxSpeed speed cs) := by
  obtain ⟨h1, h2, h3⟩ := maxSpeed_fold speed cs 0
  exact ⟨h2, h3, h1⟩

theorem fastest_unique {speed : E → Rat} {cs : List (Router.Cand E C X)} {V W : Rat}
    (h : Fastest speed cs V) (h' : Fastest speed cs W) : V = W := by
  obtain ⟨a1, a2, a3⟩ := h
  obtain ⟨b1, b2, b3⟩ := h'
  have p1 : V ≤ W := by
    rcases a2 with ⟨c, hc, e, he, rfl⟩ | rfl
    · exact b1 c hc e he
    · exact b3
  have p2 : W ≤ V := by
    rcases b2 with ⟨c, hc, e, he, rfl⟩ | rfl
    · exact a1 c hc e he
    · exact a3
  exact Rat.le_antisymm p1 p2

theorem avg_eq {n : Nd P A} (h : Timed n) : Router.avgTime n = mean n := by
  have : n.trips ≠ 0 := by have := h.1; omega
  simp [Router.avgTime, mean, this, h.2]

theorem toU32_ceil (x : Rat) (h0 : 0 ≤ x) :
    toU32 (.fin (x.ceil : Rat)) = if x ≤ 4294967295 then some (UInt32.ofNat x.ceil.toNat) else none := by
  have hc : (0 : Int) ≤ x.ceil := by
    have h1 := Rat.le_ceil (x := x)
    have : (0 : Rat) ≤ (x.ceil : Rat) := Rat.le_trans h0 h1
    exact_mod_cast this
  have hi : x ≤ 4294967295 ↔ x.ceil ≤ 4294967295 := by
    rw [Rat.ceil_le_iff]; rfl
  simp only [toU32, Rat.floor_intCast]
  by_cases h : x ≤ 4294967295
  · rw [if_pos h, if_pos]
    have h2 := hi.mp h
    constructor
    · have : ((-1 : Int) : Rat) < (x.ceil : Rat) := Rat.intCast_lt_intCast.mpr (by omega)
      exact this
    · have : (x.ceil : Rat) < ((4294967296 : Int) : Rat) := Rat.intCast_lt_intCast.mpr (by omega)
      exact this
  · rw [if_neg h, if_neg]
    rintro ⟨_, h2⟩
    have h3 : (x.ceil : Rat) < ((4294967296 : Int) : Rat) := h2
    have h4 : x.ceil < 4294967296 := Rat.intCast_lt_intCast.mp h3
    exact h (hi.mpr (by omega))

theorem max_time (V d : Rat) (hV : V ≠ 0 ∨ d = 0) {fr to : Nd P A} (hf : Timed fr) (ht : Timed to) {t : Rat} (hT : Time V d fr to t) :
    Dbl.fmax 60 (hopTime V d fr to) = .fin t := by
  obtain ⟨h1, h2, h3, h4⟩ := hT
  simp only [hopTime, avg_eq hf, avg_eq ht]
  have hsub : ((mean to : Int) : Rat) - ((mean fr : Int) : Rat) = ((mean to - mean fr : Int) : Rat) := by
    rw [Rat.intCast_sub]
  rw [hsub]
  generalize ((mean to - mean fr : Int) : Rat) = s at *
  by_cases hv : V = 0
  · have hd : d = 0 := by rcases hV with h | h; exact absurd hv h; exact h
    subst hv hd
    have hz : (0 : Rat) / 0 = 0 := by decide +kernel
    rw [hz] at h3 h4
    simp only [Dbl.quot, if_true, Dbl.below, Bool.false_eq_true, if_false, Dbl.fmax]
    congr 1
    split <;> grind
  · simp only [Dbl.quot, if_neg hv, Dbl.below, decide_eq_true_eq]
    generalize d / V = q at *
    by_cases hq : s < q
    · rw [if_pos hq]; simp only [Dbl.fmax]; congr 1; split <;> grind
    · rw [if_neg hq]; simp only [Dbl.fmax]; congr 1; split <;> grind

theorem prod_eq (o : Opts) (t : Rat) : t * 3 * o.name * o.to * o.fr * 10 = 30 * factor o * t := by
  unfold factor; grind

/-! ### the limit -/

/-- **C69.** The first maximum cost of a hop (in tenths of a second) is three times the time of the hop, raised by all factors for unmatched
lines and rounded up. The time of a hop is the scheduled one, but at least a minute, and at least the time a direct line takes at the greatest
speed. It is defined exactly if this number fits into 32 bits. -/
theorem C69_max_cost_partial (o : Opts) (hF : 0 ≤ factor o) (speed : E → Rat) (dist : Nat → Nat → Rat)
    (nds : List (Nd P A)) (ecm : Nat → List (Router.Cand E C X)) (par nid : Nat) (fr to : Nd P A) (h1 : nds[par]? = some fr)
    (h2 : nds[nid]? = some to) (hf : Timed fr) (ht : Timed to) (V t : Rat) (hV : Fastest speed (ecm par) V)
    (hok : 0 < V ∨ dist par nid = 0) (hT : Time V (dist par nid) fr to t) :
    (limit0 o speed dist nds ecm par nid = none ↔ 4294967295 < 30 * factor o * t) ∧
    ∀ m, limit0 o speed dist nds ecm par nid = some m →
      30 * factor o * t ≤ (m.toNat : Rat) ∧ (m.toNat : Rat) < 30 * factor o * t + 1 := by
  have hVe : maxSpeed speed (ecm par) = V := fastest_unique (maxSpeed_spec _ _) hV
  have hl : limit0 o speed dist nds ecm par nid =
      if 30 * factor o * t ≤ 4294967295 then some (UInt32.ofNat (30 * factor o * t).ceil.toNat) else none := by
    simp only [limit0, h1, h2, maxCost, hVe]
    rw [max_time V (dist par nid) (by rcases hok with h | h; exact Or.inl (by grind); exact Or.inr h) hf ht hT]
    simp only [prod_eq]
    apply toU32_ceil
    have := hT.1
    exact Rat.mul_nonneg (Rat.mul_nonneg (by decide) hF) (by grind)
  rw [hl]
  refine ⟨?_, ?_⟩
  · split <;> simp_all [Rat.not_le] <;> grind
  · intro m hm
    split at hm
    · next h =>
      cases hm
      have hc : (0 : Int) ≤ (30 * factor o * t).ceil := by
        have h0 : (0 : Rat) ≤ 30 * factor o * t := Rat.mul_nonneg (Rat.mul_nonneg (by decide) hF) (by have := hT.1; grind)
        have h3 : (0 : Rat) ≤ ((30 * factor o * t).ceil : Rat) := Rat.le_trans h0 Rat.le_ceil
        exact_mod_cast h3
      have hle : (30 * factor o * t).ceil ≤ 4294967295 := by rw [Rat.ceil_le_iff]; exact h
      have hn : (UInt32.ofNat (30 * factor o * t).ceil.toNat).toNat = (30 * factor o * t).ceil.toNat := by
        rw [UInt32.toNat_ofNat']; exact Nat.mod_eq_of_lt (by omega)
      rw [hn]
      have he : (((30 * factor o * t).ceil.toNat : Nat) : Rat) = ((30 * factor o * t).ceil : Rat) := by
        have : (((30 * factor o * t).ceil.toNat : Nat) : Int) = (30 * factor o * t).ceil := by omega
        rw [← this]; exact (Rat.intCast_natCast _).symm
      rw [he]
      exact ⟨Rat.le_ceil, Rat.ceil_lt⟩
    · cases hm

/-- **C69.** If no candidate of the previous stop lies on the network and the next stop is elsewhere, the conversion of the maximum cost is
undefined. -/
theorem C69_limit_no_network (o : Opts) (speed : E → Rat) (dist : Nat → Nat → Rat) (nds : List (Nd P A))
    (ecm : Nat → List (Router.Cand E C X)) (par nid : Nat) (hn : ∀ c ∈ ecm par, c.e = none) (hd : dist par nid ≠ 0) :
    limit0 o speed dist nds ecm par nid = none := by
  have hv : maxSpeed speed (ecm par) = 0 := by
    rcases (maxSpeed_spec speed (ecm par)).2.1 with ⟨c, hc, e, he, _⟩ | h
    · rw [hn c hc] at he; cases he
    · exact h
  unfold limit0
  split
  · simp [hv, hopTime, Dbl.quot, hd, Dbl.below, maxCost, Dbl.fmax]
  · rfl

/-! ### rides in time are not rejected -/

/-- The nominal costs of a path, without its last edge. -/
def plain (cost : E → UInt32) : List E → Nat
  | a :: b :: r => (cost a).toNat + plain cost (b :: r)
  | _ => 0

/-- No turn of the path is punished or forbidden. -/
def Smooth {N L : Type} (env : Env E N L) : List E → Prop
  | a :: b :: r => ¬ Weights.Punished env a (env.dst a) b ∧ ¬ Weights.Forbidden env a (env.dst a) b ∧ Smooth env (b :: r)
  | _ => True

theorem apply_le (f : Rat) (hf : 1 ≤ f) (b : Bool) (c : Nat) (x : Rat) (h : (c : Rat) ≤ x) :
    ((if b then c else (Weights.Factor.ofQ f).apply c : Nat) : Rat) ≤ x * f + 1 / 2 := by
  have hc := natCast_nonneg c
  have hx : (0 : Rat) ≤ x := Rat.le_trans hc h
  have h1 : x * 1 ≤ x * f := Rat.mul_le_mul_of_nonneg_left hf hx
  cases b with
  | true => simp only [if_true]; grind
  | false =>
    simp only [Bool.false_eq_true, if_false]
    unfold Weights.Factor.apply
    split
    · grind
    · have hn : ¬ f < 1 := by grind
      simp only [Weights.Factor.ofQ, if_neg hn]
      have h2 : (c : Rat) * f ≤ x * f := Rat.mul_le_mul_of_nonneg_right h (by grind)
      have h0 : (0 : Rat) ≤ (c : Rat) * f + 1 / 2 := by
        have := Rat.mul_nonneg hc (show (0 : Rat) ≤ f by grind)
        grind
      have h3 : (0 : Int) ≤ ((c : Rat) * f + 1 / 2).floor := by
        rw [Rat.le_floor_iff]; exact h0
      have h4 : ((((c : Rat) * f + 1 / 2).floor.toNat : Nat) : Rat) = (((c : Rat) * f + 1 / 2).floor : Rat) := by
        have : ((((c : Rat) * f + 1 / 2).floor.toNat : Nat) : Int) = ((c : Rat) * f + 1 / 2).floor := by omega
        rw [← this]; exact (Rat.intCast_natCast _).symm
      rw [h4]
      have := Rat.floor_le ((c : Rat) * f + 1 / 2)
      grind

theorem line_le (o : Opts) (h1 : 1 ≤ o.name) (h2 : 1 ≤ o.fr) (h3 : 1 ≤ o.to) {N L : Type} (env : Env E N L) (hn : env.name = .ofQ o.name)
    (hfr : env.fr = .ofQ o.fr) (hto : env.to = .ofQ o.to) (s : Names.LineSim) (c : Nat) :
    ((Weights.exactLine env s c : Nat) : Rat) ≤ factor o * ((c : Rat) + 3 / 2) := by
  have hc := natCast_nonneg c
  have p1 : (1 : Rat) ≤ o.name * o.fr := by
    have := Rat.mul_le_mul_of_nonneg_left h2 (show (0 : Rat) ≤ o.name by grind); grind
  have p2 : o.name * o.fr * 1 ≤ o.name * o.fr * o.to := Rat.mul_le_mul_of_nonneg_left h3 (by grind)
  have p3 : 1 * (o.fr * o.to) ≤ o.name * (o.fr * o.to) :=
    Rat.mul_le_mul_of_nonneg_right h1 (Rat.mul_nonneg (by grind) (by grind))
  have p4 : o.to ≤ o.name * o.fr * o.to := by
    have := Rat.mul_le_mul_of_nonneg_right p1 (show (0 : Rat) ≤ o.to by grind); grind
  unfold Weights.exactLine factor
  rw [hn, hfr, hto]
  split
  · have : 1 * (c : Rat) ≤ o.name * o.fr * o.to * (c : Rat) := Rat.mul_le_mul_of_nonneg_right (by grind) hc
    grind
  · have a1 := apply_le o.name h1 s.name c c Rat.le_refl
    have a2 := apply_le o.fr h2 s.fr _ _ a1
    have a3 := apply_le o.to h3 s.to _ _ a2
    refine Rat.le_trans a3 ?_
    grind

variable {N L : Type} [DecidableEq E] [DecidableEq N]

theorem path_le (o : Opts) (h1 : 1 ≤ o.name) (h2 : 1 ≤ o.fr) (h3 : 1 ≤ o.to) (env : Env E N L) (hn : env.name = .ofQ o.name)
    (hfr : env.fr = .ofQ o.fr) (hto : env.to = .ofQ o.to) : ∀ path : List E, Smooth env path →
    ((pathCost env path : Nat) : Rat) ≤ factor o * ((plain env.cost path : Nat) + 3 / 2 * ((path.length - 1 : Nat) : Rat))
  | [], _ => by simp [pathCost, plain, Rat.add_zero]
  | [_], _ => by simp [pathCost, plain, Rat.add_zero]
  | a :: b :: r, hs => by
    obtain ⟨s1, s2, s3⟩ := hs
    have ih := path_le o h1 h2 h3 env hn hfr hto (b :: r) s3
    have ok : Weights.FactorsOK env := ⟨hn ▸ Weights.ofQ_ok _, hfr ▸ Weights.ofQ_ok _, hto ▸ Weights.ofQ_ok _⟩
    have nlt : ∀ f : Rat, 1 ≤ f → (Weights.Factor.ofQ f).cls ≠ .lt := by
      intro f hf h
      have := (Weights.ofQ_cls f).2.2.mp h
      grind
    have up : Weights.Up env := ⟨hn ▸ nlt _ h1, hfr ▸ nlt _ h2, hto ▸ nlt _ h3⟩
    have he := Weights.C16_exact env ok up a (some (env.dst a, b)) _ (Weights.C16_best_line env a)
    have h0 : Weights.exactTurn env a (some (env.dst a, b)) = 0 := by
      simp [Weights.exactTurn, s1, s2]
    rw [h0] at he
    have hl := line_le o h1 h2 h3 env hn hfr hto (Weights.transitLineSimi env a) (env.cost a).toNat
    have hle : (Weights.callFrom env Weights.St.init a (some (env.dst a, b))).1.toNat ≤
        Weights.exactLine env (Weights.transitLineSimi env a) (env.cost a).toNat := by omega
    have hle' := natCast_le.mpr hle
    simp only [pathCost, plain, Weights.call, List.length_cons] at ih ⊢
    rw [Rat.natCast_add, Rat.natCast_add]
    have hlen : ((r.length + 1 + 1 - 1 : Nat) : Rat) = ((r.length + 1 - 1 : Nat) : Rat) + 1 := by
      have : r.length + 1 + 1 - 1 = (r.length + 1 - 1) + 1 := by omega
      rw [this, Rat.natCast_add]; rfl
    rw [hlen]
    grind

/-- **C69.** With factors of at least 1: a path without punished turns whose nominal time, plus 0.15 seconds per edge for rounding, is less
than three times the time of the hop is affordable in the first try, whatever lines its edges have. -/
theorem C69_in_time_partial (o : Opts) (h1 : 1 ≤ o.name) (h2 : 1 ≤ o.fr) (h3 : 1 ≤ o.to) (env : Env E N L) (hn : env.name = .ofQ o.name)
    (hfr : env.fr = .ofQ o.fr) (hto : env.to = .ofQ o.to) (speed : E → Rat) (dist : Nat → Nat → Rat)
    (nds : List (Nd P A)) (ecm : Nat → List (Router.Cand E C X)) (par nid : Nat) (fr to : Nd P A) (hp : nds[par]? = some fr)
    (hc : nds[nid]? = some to) (hf : Timed fr) (ht : Timed to) (V t : Rat) (hV : Fastest speed (ecm par) V)
    (hok : 0 < V ∨ dist par nid = 0) (hT : Time V (dist par nid) fr to t) (m : UInt32)
    (hm : limit0 o speed dist nds ecm par nid = some m) (path : List E) (hsm : Smooth env path)
    (hq : ((plain env.cost path : Nat) : Rat) + 3 / 2 * ((path.length - 1 : Nat) : Rat) < 30 * t) :
    pathCost env path < m.toNat := by
  have p1 : (1 : Rat) ≤ o.name * o.fr := by
    have := Rat.mul_le_mul_of_nonneg_left h2 (show (0 : Rat) ≤ o.name by grind); grind
  have p2 : o.name * o.fr * 1 ≤ o.name * o.fr * o.to := Rat.mul_le_mul_of_nonneg_left h3 (by grind)
  have hF : 1 ≤ factor o := by unfold factor; grind
  have hb := ((C69_max_cost_partial o (by grind) speed dist nds ecm par nid fr to hp hc hf ht V t hV hok hT).2 m hm).1
  have ha := path_le o h1 h2 h3 env hn hfr hto path hsm
  have hlt := Rat.mul_lt_mul_of_pos_left hq (show (0 : Rat) < factor o by grind)
  have : ((pathCost env path : Nat) : Rat) < (m.toNat : Rat) := by
    grind
  exact_mod_cast this

/-- **C69.** With factors of at least 1 the maximum cost is at least 1800, and if three times the time of the hop (with factors) is less than
500 million, there is room for the calculations of the router (`Verif.Full.Small`). -/
theorem C69_room (o : Opts) (hF : 1 ≤ factor o) (speed : E → Rat) (dist : Nat → Nat → Rat)
    (nds : List (Nd P A)) (ecm : Nat → List (Router.Cand E C X)) (par nid : Nat) (fr to : Nd P A) (hp : nds[par]? = some fr)
    (hc : nds[nid]? = some to) (hf : Timed fr) (ht : Timed to) (V t : Rat) (hV : Fastest speed (ecm par) V)
    (hok : 0 < V ∨ dist par nid = 0) (hT : Time V (dist par nid) fr to t) (hb : 30 * factor o * t ≤ 500000000) :
    ∃ m, limit0 o speed dist nds ecm par nid = some m ∧ 1800 ≤ m.toNat ∧ ∀ K, K ≤ 100000000 → 8 * m.toNat + 2 * K < 4294967295 := by
  obtain ⟨a1, a2⟩ := C69_max_cost_partial o (by grind) speed dist nds ecm par nid fr to hp hc hf ht V t hV hok hT
  cases hm : limit0 o speed dist nds ecm par nid with
  | none => have := a1.mp hm; grind
  | some m =>
    obtain ⟨b1, b2⟩ := a2 m hm
    refine ⟨m, rfl, ?_, ?_⟩
    · have h60 := hT.1
      have : factor o * 60 ≤ factor o * t := Rat.mul_le_mul_of_nonneg_left h60 (by grind)
      have : ((1800 : Nat) : Rat) ≤ (m.toNat : Rat) := by
        have e : ((1800 : Nat) : Rat) = 1800 := rfl
        rw [e]; grind
      exact_mod_cast this
    · intro K hK
      have : (m.toNat : Rat) < ((500000001 : Nat) : Rat) := by
        have e : ((500000001 : Nat) : Rat) = 500000001 := rfl
        rw [e]; grind
      have : m.toNat < 500000001 := by exact_mod_cast this
      omega

/-! ### weights -/

/-- **C69.** The weight of a cost and its inverse fit: costs handed to the fast variant as weights are found again exactly. -/
theorem C69_inverse (pen : Rat) (hp : 0 < pen) (c : UInt32) : invWeight pen (weight pen c) = some c := by
  have hn : pen ≠ 0 := by grind
  have hx : pen * (c.toNat : Rat) / 10 / pen * 10 + 1 / 2 = (c.toNat : Rat) + 1 / 2 := by
    have := Rat.mul_inv_cancel _ hn
    rw [Rat.div_def, Rat.div_def]
    grind
  have hfl : ((c.toNat : Rat) + 1 / 2).floor = (c.toNat : Int) := by
    have h1 : (c.toNat : Int) ≤ ((c.toNat : Rat) + 1 / 2).floor := by
      rw [Rat.le_floor_iff, Rat.intCast_natCast]; grind
    have h2 : ((c.toNat : Rat) + 1 / 2).floor < (c.toNat : Int) + 1 := by
      rw [Rat.floor_lt_iff, Rat.intCast_add, Rat.intCast_natCast]
      have : ((1 : Int) : Rat) = 1 := rfl
      rw [this]; grind
    omega
  unfold invWeight weight
  simp only [Dbl.quot, if_neg hn, hx, hfl, toU32, Rat.floor_intCast]
  have hlt := c.toNat_lt
  rw [if_pos]
  · simp
  · constructor
    · have : ((-1 : Int) : Rat) < ((c.toNat : Int) : Rat) := Rat.intCast_lt_intCast.mpr (by omega)
      exact this
    · have : ((c.toNat : Int) : Rat) < ((4294967296 : Int) : Rat) := Rat.intCast_lt_intCast.mpr (by omega)
      exact this

/-! ### examples and findings -/

/-- A street of edges `0, 1, 2, …` of 100 tenths of a second each; the line fits on the first five edges. -/
def exEnv (o : Opts) : Env Nat Nat Nat where
  cost := fun _ => 100
  lines := fun e => if e < 5 then [0] else []
  simi := fun _ => ⟨true, true, true⟩
  noAttrs := false
  src := id
  dst := (· + 1)
  turnCycle := fun _ => false
  deg := fun _ => 2
  sharp := fun _ _ _ => false
  restricted := fun _ => false
  may := fun _ _ _ => true
  fullTurn := 600
  turnRestr := 1000
  name := .ofQ o.name
  fr := .ofQ o.fr
  to := .ofQ o.to

/-- Two nodes of a trie, 300 seconds apart, three trips. -/
def exNds : List (Nd Nat (List Nat)) :=
  [⟨"", "", 0, 0, false, 0, 0, 0, [1], []⟩, ⟨"A", "", 0, 0, false, 0, 3, 0, [2], []⟩, ⟨"B", "", 1, 300, true, 901, 3, 1, [], []⟩]

def exEcm (e : Option Nat) (nid : Nat) : List (Router.Cand Nat Nat (Nat × Int)) :=
  if nid = 1 then [⟨none, 0, (0, 0), []⟩, ⟨e, 1, (0, 0), []⟩] else [⟨none, 0, (0, 0), []⟩, ⟨some 9, 1, (0, 0), []⟩]

def exSpeed (e : Nat) : Rat := if e = 0 then 10 else 20

def exDist (_ _ : Nat) : Rat := 2500

/-- factors of `pfaedle.cfg:417-419` -/
def exOpts : Opts := ⟨12 / 10, 105 / 100, 11 / 10, 1, 1, 0⟩

-- 30 · 1.2 · 1.1 · 1.05 · 300
example : limit0 exOpts exSpeed exDist exNds (exEcm (some 0)) 1 2 = some 12474 := by decide +kernel
-- a direct line of 2500 meters at 2 meters per second takes longer than planned
example : limit0 exOpts (fun _ => 2) exDist exNds (exEcm (some 0)) 1 2 = some 51975 := by decide +kernel

/-- The hypotheses of `C69_max_cost_partial` and `C69_in_time_partial` for a path of 60 edges, most of them without a fitting line. -/
example : Timed (exNds[1]'(by decide)) ∧ Timed (exNds[2]'(by decide)) ∧ Fastest exSpeed (exEcm (some 0) 1) 10 ∧
    Time 10 (exDist 1 2) (exNds[1]'(by decide)) (exNds[2]'(by decide)) 300 ∧
    ((plain (exEnv exOpts).cost (List.range 60) : Nat) : Rat) + 3 / 2 * (((List.range 60).length - 1 : Nat) : Rat) < 30 * 300 ∧
    pathCost (exEnv exOpts) (List.range 60) = 8006 := by
  refine ⟨by simp [Timed, exNds], by simp [Timed, exNds], ?_, ?_, by decide +kernel, by decide +kernel⟩
  · refine ⟨?_, Or.inl ⟨⟨some 0, 1, (0, 0), []⟩, by simp [exEcm], 0, rfl, rfl⟩, by decide⟩
    intro c hc e he
    simp only [exEcm, if_true, List.mem_cons, List.not_mem_nil, or_false] at hc
    rcases hc with rfl | rfl
    · cases he
    · cases he; decide +kernel
  · refine ⟨by decide +kernel, by decide +kernel, by decide +kernel, Or.inr (Or.inl (by decide +kernel))⟩

theorem exSmooth (o : Opts) : ∀ (n k : Nat), Smooth (exEnv o) (List.range' k n)
  | 0, _ => trivial
  | 1, _ => trivial
  | n + 2, k => by
    refine ⟨?_, ?_, exSmooth o (n + 1) (k + 1)⟩
    · rintro (⟨h, _⟩ | ⟨h, _⟩)
      · simp [exEnv] at h; omega
      · simp [exEnv] at h
    · rintro ⟨h, _⟩; simp [exEnv] at h

example : Smooth (exEnv exOpts) (List.range 60) := by rw [List.range_eq_range']; exact exSmooth _ _ _

/-- **C69**, finding: a factor below 1, meant to prefer unmatched edges (pfaedle.cfg:416), makes the maximum cost smaller, although matched edges
do not get cheaper. Here the ride has the right line everywhere and takes a sixth of the planned time, but is beyond the maximum cost even after
all three doublings. -/
theorem C69_negation_small_factor : ∃ (o : Opts) (path : List Nat) (m : UInt32), 0 < o.name ∧ o.fr = 1 ∧ o.to = 1 ∧
    limit0 o exSpeed exDist exNds (exEcm (some 0)) 1 2 = some m ∧ (∀ e ∈ path, Weights.transitLineSimi (exEnv o) e = ⟨true, true, true⟩) ∧
    Smooth (exEnv o) path ∧ plain (exEnv o).cost path * 6 < 300 * 10 ∧ 8 * m.toNat < pathCost (exEnv o) path :=
  ⟨⟨5 / 1000, 1, 1, 1, 1, 0⟩, List.range' 0 5, 45, by decide +kernel, rfl, rfl, by decide +kernel, by decide, exSmooth _ _ _, by decide +kernel,
    by decide +kernel⟩

/-- **C69**, finding: the first stop is far from the network, so that the maximum cost is undefined. If the machine converts infinity to 0, the
cheapest choice for the second stop is its own position; if it converts to the greatest number, it is the candidate on the network. The results
differ between machines. -/
theorem C69_negation_platform :
    limit0 exOpts exSpeed exDist exNds (exEcm none) 1 2 = none ∧
    ∃ env : UInt32 → Router.Env Nat (Option Nat) (Nat × Int) Nat Unit,
      (∀ m nid, (env m).maxCost0 nid = m ∧ (env m).ops = Router.exCost ∧
        (env m).ecm nid = (exEcm none nid).map fun c => ⟨c.e, some c.pen, c.x, c.depPrede⟩) ∧
      (Router.route (env 0) exNds () 2).map (fun hs => hs.map fun h => (h.edges, h.to.place)) = some [([], (none, 0))] ∧
      (Router.route (env 4294967295) exNds () 2).map (fun hs => hs.map fun h => (h.edges, h.to.place)) = some [([], (some 9, 0))] := by
  refine ⟨C69_limit_no_network _ _ _ _ _ _ _ ?_ (by decide +kernel), fun m =>
    { ops := Router.exCost, ecm := fun nid => (exEcm none nid).map fun c => ⟨c.e, some c.pen, c.x, c.depPrede⟩, maxCost0 := fun _ => m
      hops := fun _ _ _ _ => ([], ()), weight := fun _ _ => some 0, path := fun _ _ _ => [] }, fun _ _ => ⟨rfl, rfl, rfl⟩, by decide +kernel,
    by decide +kernel⟩
  intro c hc
  simp only [exEcm, if_true, List.mem_cons, List.not_mem_nil, or_false] at hc
  rcases hc with rfl | rfl <;> rfl

/-- A trip at 8:00 with a stop without times, and a stop ten minutes after the start. -/
def untimed : Trie.Env Nat Nat (List Nat) :=
  { Trie.exEnv with stops := fun _ => [⟨"A", "", 0, some 28800, some 28800⟩, ⟨"B", "", 1, none, none⟩, ⟨"C", "", 2, some 29400, some 29400⟩] }

/-- **C69**, finding: a stop without times gets the time of day of the start as time since the start (TripTrie.tpp:55, 78). The hop to it has
a maximum cost for eight hours here, the hop from it has a negative time. With the transition method "timenorm" the weight of any ride from it is
infinite, so it is never used. -/
theorem C69_limit_untimed : ∃ nds fr to, (Trie.history untimed [⟨0, [], true, false⟩]).map (·.1.nds) = some nds ∧
    nds[3]? = some fr ∧ nds[4]? = some to ∧ fr.name = "B" ∧ to.name = "C" ∧ mean fr = 28800 ∧ mean to = 600 ∧
    ∀ pen c, weightNorm pen c ((mean to : Int) - (mean fr : Int) : Int) = none := by
  refine ⟨[⟨"", "", 0, 0, false, 0, 0, 0, [1], []⟩, ⟨"A", "", 0, 0, false, 0, 1, 0, [2], []⟩, ⟨"B", "", 1, 28800, true, 28800, 1, 1, [3], []⟩,
    ⟨"B", "", 1, 28800, false, 28800, 1, 2, [4], []⟩, ⟨"C", "", 2, 600, true, 600, 1, 3, [], []⟩], _, _, ?_, rfl, rfl, rfl, rfl, rfl, rfl, ?_⟩
  · rfl
  · intro pen c
    simp only [weightNorm]
    rw [if_pos]
    decide +kernel

/-- **C69**: with the transition method "timenorm" a ride that arrives before it starts is never used. Any other ride has a finite weight: the
square of its relative deviation from the time in the timetable, which is taken as ten seconds at least, plus the weight of its cost. -/
theorem C69_norm (pen : Rat) (c : UInt32) (t0 : Rat) : (weightNorm pen c t0 = none ↔ t0 < 0) ∧
    (0 ≤ t0 → ∃ t d : Rat, ((t = t0 ∧ 10 ≤ t0) ∨ (t = 10 ∧ t0 < 10)) ∧ d = (c.toNat : Rat) / 10 / t - 1 ∧
      weightNorm pen c t0 = some (d * d + pen * (c.toNat : Rat) / 10)) := by
  refine ⟨?_, fun h0 => ?_⟩
  · simp only [weightNorm]
    split
    · exact ⟨fun _ => by assumption, fun _ => rfl⟩
    · next h => exact ⟨fun h' => (Option.some_ne_none _ h').elim, fun h' => absurd h' h⟩
  · simp only [weightNorm, weight, if_neg (Rat.not_lt.mpr h0)]
    by_cases h : t0 < 10
    · exact ⟨10, _, .inr ⟨rfl, h⟩, rfl, by rw [if_pos h]⟩
    · exact ⟨t0, _, .inl ⟨rfl, Rat.not_lt.mp h⟩, rfl, by rw [if_neg h]⟩

/-- A ride of two minutes where the timetable has one minute; a ride of five seconds where the timetable has none. -/
example : weightNorm (1 / 10) 1200 60 = some (1 + 12) ∧ weightNorm (1 / 10) 50 0 = some (1 / 4 + 1 / 2) := by decide +kernel

/-- **C69**: with the transition method "distdiff" the weight of a ride is the deviation of its length from the distance in the feed, in either
direction, times the penalty. -/
theorem C69_dist (pen d d0 : Rat) : ∃ w : Rat, (w = d - d0 ∨ w = d0 - d) ∧ 0 ≤ w ∧ weightDist pen d d0 = pen * w := by
  simp only [weightDist]
  split
  · next h => exact ⟨_, .inr rfl, by grind, rfl⟩
  · next h => exact ⟨_, .inl rfl, Rat.not_lt.mp h, rfl⟩

example : weightDist 2 30 50 = 40 ∧ weightDist 2 50 30 = 40 := by decide +kernel

end Verif.Limit
