import Verif.Sections.Spec
import Verif.Config.JoinProps

/-!
# Reading the sections of a configuration (property C79)
-/

namespace Verif.Sections
open Verif.Names (Str)
open Verif.Config

theorem readSec_ok {V : Type} {lib : Lib V} {mots : List Nat} {s : Sec V} {c : MotConfig} :
    readSec lib mots s = .ok c ↔ readable lib s = true ∧ divZero (num lib s) = false ∧ ∃ full restr,
      fullTurn (num lib s) = some full ∧ turnRestrCost (orElse (num lib s) "osm_one_way_entry_cost" 0) = some restr ∧
      c = config lib mots s (num lib s) full restr := by
  unfold readSec
  cases h : readable lib s with
  | false => simp
  | true =>
    cases h2 : divZero (num lib s) with
    | true => simp
    | false =>
      cases h3 : fullTurn (num lib s) with
      | none => simp
      | some full =>
        cases h4 : turnRestrCost (orElse (num lib s) "osm_one_way_entry_cost" 0) with
        | none => simp
        | some restr =>
          simp only [Bool.false_eq_true, if_false, Result.ok.injEq, true_and, Option.some.injEq, Bool.true_eq_false]
          exact ⟨fun e => ⟨full, restr, rfl, rfl, e.symm⟩, fun ⟨_, _, e1, e2, e⟩ => by rw [e, e1, e2]⟩

/-! ### Numbers that are not negative -/

theorem pos_of {V : Type} {lib : Lib V} {s : Sec V} (h : readable lib s = true) {k : String} (hk : k ∈ posKeys) {x : Rat}
    (hx : num lib s k = some x) : 0 ≤ x := by
  unfold readable at h
  simp only [Bool.and_eq_true, List.all_eq_true] at h
  have := h.1.1.1.1.1 k hk
  unfold num at hx
  cases hs : s k with
  | none => rw [hs] at hx; cases hx
  | some v =>
    rw [hs] at hx this
    simp only [okBy, posOk, Option.bind_some] at hx this
    rw [hx] at this
    exact of_decide_eq_true this

/-- The readable values of `posKeys` are not negative. -/
def Pos (get : String → Option Rat) : Prop := ∀ k ∈ posKeys, ∀ x, get k = some x → 0 ≤ x

theorem pos {V : Type} {lib : Lib V} {s : Sec V} (h : readable lib s = true) : Pos (num lib s) :=
  fun _ hk _ hx => pos_of h hk hx

theorem keys_fac : ∀ i, i < 8 → ("routing_lvl" ++ toString i ++ "_fac") ∈ posKeys ∧
    facKeys[i]? = some ("routing_lvl" ++ toString i ++ "_fac") := by decide +kernel

theorem keys_avg : ∀ i, i < 8 → ("osm_lvl" ++ toString i ++ "_avg_speed") ∈ posKeys ∧
    avgKeys[i]? = some ("osm_lvl" ++ toString i ++ "_avg_speed") := by decide +kernel

theorem defSpeed_kmh : ∀ i, i < 8 → ∃ d, kmh[i]? = some d ∧ defSpeed i = d * (2777 / 10000) := by
  intro i hi
  have : i = 0 ∨ i = 1 ∨ i = 2 ∨ i = 3 ∨ i = 4 ∨ i = 5 ∨ i = 6 ∨ i = 7 := by omega
  rcases this with rfl | rfl | rfl | rfl | rfl | rfl | rfl | rfl <;> exact ⟨_, rfl, rfl⟩

theorem speed_is (get : String → Option Rat) (i : Nat) (hi : i < 8) : IsSpeed get i (speed get i) := by
  obtain ⟨d, hd, hv⟩ := defSpeed_kmh i hi
  unfold speed
  cases h : get ("osm_lvl" ++ toString i ++ "_avg_speed") with
  | some x => exact ⟨_, _, d, x, (keys_avg i hi).2, (keys_fac i hi).2, hd, Or.inl ⟨x, h, rfl⟩, rfl⟩
  | none =>
    cases h2 : get ("routing_lvl" ++ toString i ++ "_fac") with
    | some f => exact ⟨_, _, d, 85 / f, (keys_avg i hi).2, (keys_fac i hi).2, hd, Or.inr (Or.inl ⟨h, f, h2, rfl⟩), rfl⟩
    | none => exact ⟨_, _, d, d, (keys_avg i hi).2, (keys_fac i hi).2, hd, Or.inr (Or.inr ⟨h, h2, rfl⟩), hv⟩

theorem div_nonneg {a b : Rat} (ha : 0 ≤ a) (hb : 0 ≤ b) : 0 ≤ a / b := by
  rw [Rat.div_def]
  by_cases h : b = 0
  · rw [h, Rat.inv_zero, Rat.mul_zero]; exact Rat.le_refl
  · exact Rat.mul_nonneg ha (Rat.le_of_lt (Rat.inv_pos.mpr (by grind)))

theorem speed_nonneg {get : String → Option Rat} (hp : Pos get) (i : Nat) (hi : i < 8) : 0 ≤ speed get i := by
  unfold speed
  cases h : get ("osm_lvl" ++ toString i ++ "_avg_speed") with
  | some x =>
    have := hp _ (keys_avg i hi).1 _ h
    show 0 ≤ x * (2777 / 10000)
    grind
  | none =>
    cases h2 : get ("routing_lvl" ++ toString i ++ "_fac") with
    | some f =>
      have := div_nonneg (a := 85) (by grind) (hp _ (keys_fac i hi).1 _ h2)
      show 0 ≤ 85 / f * (2777 / 10000)
      grind
    | none =>
      show 0 ≤ defSpeed i
      have : i = 0 ∨ i = 1 ∨ i = 2 ∨ i = 3 ∨ i = 4 ∨ i = 5 ∨ i = 6 ∨ i = 7 := by omega
      rcases this with rfl | rfl | rfl | rfl | rfl | rfl | rfl | rfl <;> simp only [defSpeed] <;> grind

theorem value_factor (get : String → Option Rat) (old new : String) :
    Value get new old (fun x => 1 + x) 1 (factor get old new) := by
  unfold factor
  cases h : get new with
  | some x => exact Or.inl ⟨x, h, rfl⟩
  | none =>
    cases h2 : get old with
    | some y => exact Or.inr (Or.inl ⟨h, y, h2, rfl⟩)
    | none => exact Or.inr (Or.inr ⟨h, h2, rfl⟩)

theorem value_line (get : String → Option Rat) (new : String) :
    Value get new "routing_line_unmatched_punish_fac" (fun x => 1 + x / 3) 1 (lineFactor get new) := by
  unfold lineFactor
  cases h : get new with
  | some x => exact Or.inl ⟨x, h, rfl⟩
  | none =>
    cases h2 : get "routing_line_unmatched_punish_fac" with
    | some y => exact Or.inr (Or.inl ⟨h, y, h2, rfl⟩)
    | none => exact Or.inr (Or.inr ⟨h, h2, rfl⟩)

theorem value_penalty (get : String → Option Rat) (old new : String) :
    Value get new old (fun x => x * (83 / 10000 / speed get 0)) 0 (penalty get old new) := by
  unfold penalty
  cases h : get new with
  | some x => exact Or.inl ⟨x, h, rfl⟩
  | none =>
    cases h2 : get old with
    | some y => exact Or.inr (Or.inl ⟨h, y, h2, rfl⟩)
    | none => exact Or.inr (Or.inr ⟨h, h2, rfl⟩)

theorem move_eq (get : String → Option Rat) :
    movePenalty get = penalty get "routing_station_distance_punish_fac" "routing_station_move_penalty_fac" := by
  unfold movePenalty penalty
  rw [Rat.zero_mul]

theorem plain (get : String → Option Rat) (k : String) (d : Rat) : Plain get k d (orElse get k d) := by
  unfold orElse
  cases h : get k with
  | some x => exact Or.inl ⟨x, h, rfl⟩
  | none => exact Or.inr ⟨h, rfl⟩

theorem value_nonneg {get : String → Option Rat} (hp : Pos get) {new old : String} (hn : new ∈ posKeys) (ho : old ∈ posKeys)
    {conv : Rat → Rat} (hc : ∀ x, 0 ≤ x → 0 ≤ conv x) {d v : Rat} (hd : 0 ≤ d) (h : Value get new old conv d v) : 0 ≤ v := by
  rcases h with ⟨x, h, rfl⟩ | ⟨-, y, h, rfl⟩ | ⟨-, -, rfl⟩
  · exact hp _ hn _ h
  · exact hc _ (hp _ ho _ h)
  · exact hd

theorem tenths_cost (x : Rat) (h : 0 ≤ x) : toU32 (limited (x * 10)) = some (tenths x) := C61_full_turn x h

theorem tenths_hundred : tenths 100 = 1000 := by decide +kernel

theorem fullTurn_is {get : String → Option Rat} (hp : Pos get) :
    ∃ p, Value get "routing_full_turn_penalty" "routing_full_turn_punish" (fun x => x / speed get 0) 100 p ∧
      fullTurn get = some (tenths p) := by
  unfold fullTurn
  cases h : get "routing_full_turn_penalty" with
  | some x => exact ⟨x, Or.inl ⟨x, h, rfl⟩, tenths_cost x (hp _ (by decide +kernel) _ h)⟩
  | none =>
    cases h2 : get "routing_full_turn_punish" with
    | some y =>
      exact ⟨y / speed get 0, Or.inr (Or.inl ⟨h, y, h2, rfl⟩),
        tenths_cost _ (div_nonneg (hp _ (by decide +kernel) _ h2) (speed_nonneg hp 0 (by decide)))⟩
    | none => exact ⟨100, Or.inr (Or.inr ⟨h, h2, rfl⟩), by rw [tenths_hundred]⟩

/-! ### The greatest speed -/

theorem foldl_max (f : Nat → Rat) : ∀ (l : List Nat) (m : Rat),
    m ≤ l.foldl (fun m i => if f i > m then f i else m) m ∧
    (∀ i ∈ l, f i ≤ l.foldl (fun m i => if f i > m then f i else m) m) ∧
    (l.foldl (fun m i => if f i > m then f i else m) m = m ∨
      ∃ i ∈ l, f i = l.foldl (fun m i => if f i > m then f i else m) m) := by
  intro l
  induction l with
  | nil => intro m; exact ⟨Rat.le_refl, fun i hi => (by cases hi), Or.inl rfl⟩
  | cons a l ih =>
    intro m
    obtain ⟨h1, h2, h3⟩ := ih (if f a > m then f a else m)
    rw [List.foldl_cons]
    refine ⟨?_, ?_, ?_⟩
    · refine Rat.le_trans ?_ h1
      split <;> grind
    · intro i hi
      rcases List.mem_cons.mp hi with rfl | hi
      · refine Rat.le_trans ?_ h1
        split <;> grind
      · exact h2 i hi
    · rcases h3 with h3 | ⟨i, hi, h3⟩
      · by_cases hm : f a > m
        · rw [if_pos hm] at h3 ⊢
          exact Or.inr ⟨a, by simp, h3.symm⟩
        · rw [if_neg hm] at h3 ⊢
          exact Or.inl h3
      · exact Or.inr ⟨i, by simp [hi], h3⟩

/-- A factor, at most 1. -/
def cap1 (x : Rat) : Rat := if x < 1 then x else 1

theorem shrink_eq (f x : Rat) : shrink f x = f * cap1 x := by
  unfold shrink cap1
  split
  · rfl
  · rw [Rat.mul_one]

theorem cap1_le (x : Rat) : cap1 x ≤ x ∧ cap1 x ≤ 1 := by
  unfold cap1
  split <;> grind

theorem cap1_nonneg {x : Rat} (h : 0 ≤ x) : 0 ≤ cap1 x := by
  unfold cap1
  split <;> grind

theorem mul_le {a b c d : Rat} (ha : 0 ≤ a) (hc : 0 ≤ c) (h1 : a ≤ b) (h2 : c ≤ d) : a * c ≤ b * d := by
  have h3 : a * c ≤ b * c := Rat.mul_le_mul_of_nonneg_right h1 hc
  have h4 : b * c ≤ b * d := Rat.mul_le_mul_of_nonneg_left h2 (by grind)
  exact Rat.le_trans h3 h4

theorem prod_nonneg : ∀ l : List Rat, (∀ x ∈ l, 0 ≤ x) → 0 ≤ prod l
  | [], _ => by show (0 : Rat) ≤ 1; grind
  | x :: l, h => Rat.mul_nonneg (h x (by simp)) (prod_nonneg l fun y hy => h y (by simp [hy]))

theorem prod_caps {fs l : List Rat} (h : fs.Sublist l) (hl : ∀ x ∈ l, 0 ≤ x) : prod (l.map cap1) ≤ prod fs := by
  induction h with
  | slnil => exact Rat.le_refl
  | @cons l1 l2 a h ih =>
    have hl2 : ∀ x ∈ l2, 0 ≤ x := fun x hx => hl x (by simp [hx])
    have i := ih hl2
    have hn := prod_nonneg (l2.map cap1) (by
      intro x hx; obtain ⟨y, hy, rfl⟩ := List.mem_map.mp hx; exact cap1_nonneg (hl2 y hy))
    show cap1 a * prod (l2.map cap1) ≤ prod l1
    have := mul_le (cap1_nonneg (hl a (by simp))) hn (cap1_le a).2 i
    rwa [Rat.one_mul] at this
  | @cons_cons l1 l2 a h ih =>
    have hl2 : ∀ x ∈ l2, 0 ≤ x := fun x hx => hl x (by simp [hx])
    have i := ih hl2
    have hn := prod_nonneg (l2.map cap1) (by
      intro x hx; obtain ⟨y, hy, rfl⟩ := List.mem_map.mp hx; exact cap1_nonneg (hl2 y hy))
    exact mul_le (cap1_nonneg (hl a (by simp))) hn (cap1_le a).1 i

theorem caps_reached : ∀ l : List Rat, ∃ fs : List Rat, fs.Sublist l ∧ prod fs = prod (l.map cap1)
  | [] => ⟨[], List.Sublist.refl _, rfl⟩
  | x :: l => by
    obtain ⟨fs, h1, h2⟩ := caps_reached l
    by_cases h : x < 1
    · exact ⟨x :: fs, h1.cons_cons x, by show x * prod fs = cap1 x * _; rw [h2, cap1, if_pos h]⟩
    · exact ⟨fs, h1.cons x, by show prod fs = cap1 x * _; rw [h2, cap1, if_neg h, Rat.one_mul]⟩

theorem speedFac_eq (get : String → Option Rat) :
    speedFac get = prod ([lineName get, lineFrom get, lineTo get, noLines get, oneWayPen get].map cap1) := by
  simp only [speedFac, shrink_eq, List.map, prod]
  grind

theorem div_mul {a b : Rat} (h : b ≠ 0) : a / b * b = a := Rat.div_mul_cancel h

/-! ### The meaning of a section -/

theorem restr_ten {e : Rat} {n : Nat} (he : 0 ≤ e) (h : turnRestrCost e = some n) : n = tenths e * 10 := by
  by_cases hf : tenths e ≤ 429496729
  · rw [C61_turn_partial e he hf] at h; exact (Option.some.inj h).symm
  · rw [C61_negation_undefined e he (by omega)] at h; cases h

/-- **C79 (meaning).** A section that is read gives a configuration whose numbers are what the section says: the new name before the old one
before the default, with units converted; and the greatest speed is the speed of the fastest level with the factors that make it faster. -/
theorem C79_means {V : Type} (lib : Lib V) (mots : List Nat) (s : Sec V) (c : MotConfig) (h : readSec lib mots s = .ok c) :
    Means (given lib s) c := by
  obtain ⟨hr, hz, full, restr, h1, h2, rfl⟩ := readSec_ok.mp h
  have hp := pos hr
  have hg : given lib s = num lib s := rfl
  rw [hg]
  generalize hget : num lib s = get at *
  obtain ⟨p, hp1, hp2⟩ := fullTurn_is hp
  rw [hp2] at h1
  cases h1
  have h0 := speed_is get 0 (by decide)
  have hent : 0 ≤ orElse get "osm_one_way_entry_cost" 0 := by
    rcases plain get "osm_one_way_entry_cost" 0 with ⟨x, hx, e⟩ | ⟨-, e⟩
    · rw [e]; exact hp _ (by decide +kernel) _ hx
    · rw [e]; exact Rat.le_refl
  have hfz : speedFac get ≠ 0 := by
    intro e
    simp [divZero, e] at hz
  have hn1 := value_nonneg hp (by decide +kernel) (by decide +kernel) (by intro x hx; grind) (by grind)
    (value_line get "routing_line_unmatched_time_penalty_fac")
  have hn2 := value_nonneg hp (by decide +kernel) (by decide +kernel) (by intro x hx; grind) (by grind)
    (value_line get "routing_line_station_from_unmatched_time_penalty")
  have hn3 := value_nonneg hp (by decide +kernel) (by decide +kernel) (by intro x hx; grind) (by grind)
    (value_line get "routing_line_station_to_unmatched_time_penalty")
  have hn4 := value_nonneg hp (by decide +kernel) (by decide +kernel) (by intro x hx; grind) (by grind)
    (value_factor get "routing_no_lines_punish_fac" "routing_no_lines_penalty_fac")
  have hn5 := value_nonneg hp (by decide +kernel) (by decide +kernel) (by intro x hx; grind) (by grind)
    (value_factor get "routing_one_way_meter_punish_fac" "osm_one_way_speed_penalty_fac")
  have hall : ∀ x ∈ [lineName get, lineFrom get, lineTo get, noLines get, oneWayPen get], 0 ≤ x := by
    intro x hx
    simp only [List.mem_cons, List.not_mem_nil, or_false] at hx
    rcases hx with rfl | rfl | rfl | rfl | rfl
    · exact hn1
    · exact hn2
    · exact hn3
    · exact hn4
    · exact hn5
  obtain ⟨hm0, hm1, hm2⟩ := foldl_max (speed get) (List.range 8) 0
  have hfac0 : 0 ≤ speedFac get := by
    rw [speedFac_eq]
    apply prod_nonneg
    intro x hx; obtain ⟨y, hy, rfl⟩ := List.mem_map.mp hx; exact cap1_nonneg (hall y hy)
  have hspeeds : ∀ v, v ∈ (List.range 8).map (speed get) ↔ ∃ i, i < 8 ∧ speed get i = v := by
    intro v; simp only [List.mem_map, List.mem_range]
  have hmax : 0 ≤ maxLevel get / speedFac get := div_nonneg hm0 hfac0
  constructor
  case levels => simp [config]
  case speeds =>
    intro i v hv
    have hi : i < 8 := by
      obtain ⟨hlt, -⟩ := List.getElem?_eq_some_iff.mp hv
      simpa [config] using hlt
    have : v = speed get i := by
      simp only [config, List.getElem?_map, List.getElem?_range hi, Option.map_some, Option.some.injEq] at hv
      exact hv.symm
    rw [this]
    exact speed_is get i hi
  case oneWay => exact value_factor get _ _
  case noLines => exact value_factor get _ _
  case noLinesToo => rfl
  case lineName => exact value_line get _
  case lineFrom => exact value_line get _
  case lineTo => exact value_line get _
  case platform => exact ⟨_, h0, value_penalty get _ _⟩
  case nonStation => exact ⟨_, h0, value_penalty get _ _⟩
  case move => exact ⟨_, h0, by show Value _ _ _ _ _ (movePenalty get); rw [move_eq]; exact value_penalty get _ _⟩
  case station => exact plain get _ _
  case transition => exact plain get _ _
  case fullTurn => exact ⟨_, p, h0, hp1, rfl⟩
  case entry => exact plain get _ _
  case restr => exact restr_ten hent h2
  case angle => exact plain get _ _
  case angleToo => rfl
  case snapAngle => exact plain get _ _
  case cand =>
    have := plain get "osm_max_station_cand_distance" (snapDist ((s "osm_max_snap_distance").bind lib.nums) * 2)
    rw [Rat.mul_comm _ 2] at this
    show Plain get _ _ (orElse get "osm_max_station_cand_distance" (snapDist ((s "osm_max_snap_distance").bind lib.nums) * 2))
    rw [Rat.mul_comm _ 2]
    exact this
  case osmStation => exact ⟨_, rfl, plain get _ _, plain get _ _⟩
  case fastest =>
    intro v hv fs hfs
    obtain ⟨i, hi, rfl⟩ := (hspeeds v).mp hv
    have a1 : speed get i ≤ maxLevel get := hm1 i (List.mem_range.mpr hi)
    have a2 := prod_caps hfs hall
    have a3 := Rat.mul_le_mul_of_nonneg_left (c := maxLevel get / speedFac get) a2 hmax
    have e : prod ([lineName get, lineFrom get, lineTo get, noLines get, oneWayPen get].map cap1) = speedFac get :=
      (speedFac_eq get).symm
    have a4 : maxLevel get / speedFac get * prod ([lineName get, lineFrom get, lineTo get, noLines get, oneWayPen get].map cap1)
        = maxLevel get := by rw [e]; exact div_mul hfz
    exact Rat.le_trans (by rw [← a4] at a1; exact a1) a3
  case reached =>
    obtain ⟨fs, hf1, hf2⟩ := caps_reached [lineName get, lineFrom get, lineTo get, noLines get, oneWayPen get]
    have hm : ∃ i, i < 8 ∧ speed get i = maxLevel get := by
      rcases hm2 with e | ⟨i, hi, e⟩
      · refine ⟨0, by decide, ?_⟩
        have b1 := hm1 0 (by decide)
        have b2 := speed_nonneg hp 0 (by decide)
        show speed get 0 = List.foldl _ _ _
        rw [e] at b1 ⊢
        grind
      · exact ⟨i, List.mem_range.mp hi, e⟩
    obtain ⟨i, hi, e⟩ := hm
    refine ⟨_, (hspeeds _).mpr ⟨i, hi, rfl⟩, fs, hf1, ?_⟩
    show speed get i = maxLevel get / speedFac get * prod fs
    rw [hf2, ← speedFac_eq, div_mul hfz, e]

/-- **C79 (meaning of the other options).** -/
theorem C79_rest {V : Type} (lib : Lib V) (mots : List Nat) (s : Sec V) (c : MotConfig) (h : readSec lib mots s = .ok c) :
    Rest lib s c := by
  obtain ⟨hr, -, full, restr, -, -, rfl⟩ := readSec_ok.mp h
  unfold readable at hr
  simp only [Bool.and_eq_true, List.all_eq_true] at hr
  constructor
  case snap =>
    have h1 := hr.1.2
    cases h2 : s "osm_max_snap_distance" with
    | none => exact Or.inr (Or.inr ⟨rfl, by simp [config, h2, snapDist]⟩)
    | some v =>
      rw [h2] at h1
      obtain ⟨l, hl⟩ := Option.isSome_iff_exists.mp h1
      rcases List.eq_nil_or_concat l with rfl | ⟨l', d, rfl⟩
      · exact Or.inr (Or.inl ⟨⟨v, rfl, hl⟩, by simp [config, h2, snapDist, hl]⟩)
      · rw [List.concat_eq_append] at hl
        exact Or.inl ⟨v, l', d, rfl, hl, by simp [config, h2, snapDist, hl]⟩
  case level =>
    have h1 := hr.2
    cases h2 : s "osm_max_snap_level" with
    | none => exact Or.inr ⟨rfl, by simp [config, h2]⟩
    | some v =>
      rw [h2] at h1
      obtain ⟨i, hi⟩ := Option.isSome_iff_exists.mp h1
      refine Or.inl ⟨v, i, rfl, hi, fun h3 h4 => ?_⟩
      simp only [config, h2, Option.bind_some, hi, Option.getD_some]
      omega
  case selfHops =>
    have h1 := hr.1.1.1.2 "routing_no_self_hops" (by decide +kernel)
    cases h2 : s "routing_no_self_hops" with
    | none => exact Or.inr ⟨rfl, by simp [config, h2]⟩
    | some v =>
      rw [h2] at h1
      obtain ⟨b, hb⟩ := Option.isSome_iff_exists.mp h1
      exact Or.inl ⟨v, rfl, by simp [config, h2, hb]⟩
  case stations =>
    have h1 := hr.1.1.1.2 "routing_use_stations" (by decide +kernel)
    cases h2 : s "routing_use_stations" with
    | none => exact Or.inr ⟨rfl, by simp [config, h2]⟩
    | some v =>
      rw [h2] at h1
      obtain ⟨b, hb⟩ := Option.isSome_iff_exists.mp h1
      exact Or.inl ⟨v, rfl, by simp [config, h2, hb]⟩
  all_goals rfl

/-! ### Sections that agree -/

/-- The options that are not single numbers. -/
def otherKeys : List String :=
  ["osm_max_snap_distance", "osm_max_snap_level", "routing_use_stations", "routing_no_self_hops",
   "routing_transition_method", "routing_emission_method", "station_similarity_classification_method",
   "station_normalize_chain", "track_normalize_chain", "line_normalize_chain", "station_id_normalize_chain",
   "osm_filter_keep", "osm_filter_drop", "osm_filter_nohup", "osm_filter_oneway", "osm_filter_oneway_reverse",
   "osm_filter_undirected", "osm_filter_station", "osm_filter_station_blocker", "osm_filter_turning_circle",
   "osm_filter_no_restriction", "osm_node_positive_restriction", "osm_node_negative_restriction", "osm_station_name_attrs",
   "osm_track_number_tags", "osm_station_id_attrs", "osm_edge_track_number_tags", "osm_line_relation_tags",
   "osm_filter_lvl0", "osm_filter_lvl1", "osm_filter_lvl2", "osm_filter_lvl3", "osm_filter_lvl4", "osm_filter_lvl5",
   "osm_filter_lvl6", "osm_filter_lvl7"]

/-- Two sections give the same numbers. -/
structure SameNums (get get' : String → Option Rat) : Prop where
  speed : ∀ i, i < 8 → speed get i = speed get' i
  oneWay : oneWayPen get = oneWayPen get'
  noLines : noLines get = noLines get'
  lineName : lineName get = lineName get'
  lineFrom : lineFrom get = lineFrom get'
  lineTo : lineTo get = lineTo get'
  nonStation : nonStation get = nonStation get'
  platform : penalty get "routing_platform_unmatched_punish" "routing_platform_unmatched_penalty" =
    penalty get' "routing_platform_unmatched_punish" "routing_platform_unmatched_penalty"
  move : movePenalty get = movePenalty get'
  turn : fullTurn get = fullTurn get'
  entry : orElse get "osm_one_way_entry_cost" 0 = orElse get' "osm_one_way_entry_cost" 0
  angle : orElse get "routing_full_turn_angle" 5 = orElse get' "routing_full_turn_angle" 5
  dist : orElse get "osm_max_osm_station_distance" 15 = orElse get' "osm_max_osm_station_distance" 15
  trans : orElse get "routing_transition_penalty_fac" defTransPen = orElse get' "routing_transition_penalty_fac" defTransPen
  snapAngle : get "routing_snap_full_turn_angle" = get' "routing_snap_full_turn_angle"
  cand : get "osm_max_station_cand_distance" = get' "osm_max_station_cand_distance"
  block : get "osm_max_node_block_distance" = get' "osm_max_node_block_distance"
  station : get "routing_station_unmatched_penalty" = get' "routing_station_unmatched_penalty"

theorem SameNums.max {get get' : String → Option Rat} (h : SameNums get get') : maxLevel get = maxLevel get' := by
  have : ∀ (l : List Nat) (m : Rat), (∀ i ∈ l, i < 8) →
      l.foldl (fun m i => if Sections.speed get i > m then Sections.speed get i else m) m =
      l.foldl (fun m i => if Sections.speed get' i > m then Sections.speed get' i else m) m := by
    intro l
    induction l with
    | nil => intro m _; rfl
    | cons a l ih =>
      intro m hl
      rw [List.foldl_cons, List.foldl_cons, h.speed a (hl a (by simp)), ih _ fun i hi => hl i (by simp [hi])]
  exact this _ _ fun i hi => List.mem_range.mp hi

theorem SameNums.fac {get get' : String → Option Rat} (h : SameNums get get') : speedFac get = speedFac get' := by
  rw [speedFac_eq, speedFac_eq, h.oneWay, h.noLines, h.lineName, h.lineFrom, h.lineTo]

theorem config_congr {V : Type} (lib : Lib V) (mots : List Nat) (s t : Sec V) (get get' : String → Option Rat)
    (h : ∀ k ∈ otherKeys, s k = t k) (hn : SameNums get get') (a b : Nat) :
    config lib mots s get a b = config lib mots t get' a b := by
  have hlev : (List.range 8).map (fun i => lib.code (s ("osm_filter_lvl" ++ toString i))) =
      (List.range 8).map (fun i => lib.code (t ("osm_filter_lvl" ++ toString i))) := by
    apply List.map_congr_left
    intro i hi
    rw [h _ ((by decide +kernel : ∀ i, i < 8 → ("osm_filter_lvl" ++ toString i) ∈ otherKeys) i (List.mem_range.mp hi))]
  have hsps : (List.range 8).map (speed get) = (List.range 8).map (speed get') :=
    List.map_congr_left fun i hi => hn.speed i (List.mem_range.mp hi)
  have hor : ∀ k d, get k = get' k → orElse get k d = orElse get' k d := by
    intro k d hk
    unfold orElse
    rw [hk]
  unfold config
  rw [hlev, hsps, hn.max, hn.fac, hn.move, hn.oneWay, hn.noLines, hn.lineName, hn.lineFrom, hn.lineTo, hn.nonStation, hn.platform,
    hn.angle, hn.dist, hn.trans, hn.entry,
    hor "routing_snap_full_turn_angle" _ hn.snapAngle, hor "osm_max_station_cand_distance" _ hn.cand,
    hor "osm_max_node_block_distance" _ hn.block, hor "routing_station_unmatched_penalty" _ hn.station,
    h "osm_filter_nohup" (by decide +kernel), h "osm_filter_keep" (by decide +kernel), h "osm_filter_drop" (by decide +kernel),
    h "osm_filter_oneway" (by decide +kernel), h "osm_filter_oneway_reverse" (by decide +kernel),
    h "osm_filter_undirected" (by decide +kernel), h "osm_filter_station" (by decide +kernel),
    h "osm_filter_station_blocker" (by decide +kernel), h "osm_filter_turning_circle" (by decide +kernel),
    h "station_normalize_chain" (by decide +kernel), h "line_normalize_chain" (by decide +kernel),
    h "track_normalize_chain" (by decide +kernel), h "station_id_normalize_chain" (by decide +kernel),
    h "osm_line_relation_tags" (by decide +kernel), h "osm_station_name_attrs" (by decide +kernel),
    h "osm_track_number_tags" (by decide +kernel), h "osm_station_id_attrs" (by decide +kernel),
    h "osm_edge_track_number_tags" (by decide +kernel), h "osm_max_snap_level" (by decide +kernel),
    h "osm_max_snap_distance" (by decide +kernel), h "osm_node_positive_restriction" (by decide +kernel),
    h "osm_node_negative_restriction" (by decide +kernel), h "osm_filter_no_restriction" (by decide +kernel),
    h "routing_no_self_hops" (by decide +kernel), h "routing_use_stations" (by decide +kernel),
    h "routing_transition_method" (by decide +kernel), h "routing_emission_method" (by decide +kernel),
    h "station_similarity_classification_method" (by decide +kernel)]

theorem readable_congr {V : Type} {lib : Lib V} {s t : Sec V} (hs : readable lib s = true) (ho : ∀ k ∈ otherKeys, s k = t k)
    (hp : ∀ k ∈ posKeys, okBy (posOk lib) (t k) = true) (hr : ∀ k ∈ realKeys, okBy (fun v => (lib.num v).isSome) (t k) = true) :
    readable lib t = true := by
  unfold readable at hs ⊢
  simp only [Bool.and_eq_true, List.all_eq_true] at hs ⊢
  refine ⟨⟨⟨⟨⟨hp, hr⟩, ?_⟩, ?_⟩, ?_⟩, ?_⟩
  · intro k hk
    rw [← ho k ((by decide +kernel : ∀ k ∈ boolKeys, k ∈ otherKeys) k hk)]
    exact hs.1.1.1.2 k hk
  · intro k hk
    rw [← ho k ((by decide +kernel : ∀ k ∈ chainKeys, k ∈ otherKeys) k hk)]
    exact hs.1.1.2 k hk
  · rw [← ho _ (by decide +kernel)]; exact hs.1.2
  · rw [← ho _ (by decide +kernel)]; exact hs.2

/-- A section that gives the same numbers is read in the same way. -/
theorem readSec_same {V : Type} {lib : Lib V} {mots : List Nat} {s t : Sec V} {c : MotConfig} (h : readSec lib mots s = .ok c)
    (ho : ∀ k ∈ otherKeys, s k = t k) (hp : ∀ k ∈ posKeys, okBy (posOk lib) (t k) = true)
    (hr : ∀ k ∈ realKeys, okBy (fun v => (lib.num v).isSome) (t k) = true)
    (hn : SameNums (num lib s) (num lib t))
    (hz : ∀ i, i < 8 → num lib t ("routing_lvl" ++ toString i ++ "_fac") ≠ some 0) : readSec lib mots t = .ok c := by
  obtain ⟨h1, h2, full, restr, h3, h4, rfl⟩ := readSec_ok.mp h
  refine readSec_ok.mpr ⟨readable_congr h1 ho hp hr, ?_, full, restr, by rw [← hn.turn]; exact h3, by rw [← hn.entry]; exact h4,
    config_congr lib mots s t _ _ ho hn full restr⟩
  unfold divZero at h2 ⊢
  rw [← hn.fac, ← hn.speed 0 (by decide)]
  simp only [Bool.or_eq_false_iff] at h2 ⊢
  refine ⟨⟨?_, h2.1.2⟩, h2.2⟩
  rw [List.any_eq_false]
  intro i hi
  simpa using hz i (List.mem_range.mp hi)

theorem no_zero {get : String → Option Rat} (h : divZero get = false) :
    ∀ i, i < 8 → get ("routing_lvl" ++ toString i ++ "_fac") ≠ some 0 := by
  intro i hi e
  unfold divZero at h
  simp only [Bool.or_eq_false_iff, List.any_eq_false] at h
  exact h.1.1 i (List.mem_range.mpr hi) (beq_iff_eq.mpr e)

theorem pos_ok {V : Type} {lib : Lib V} {s : Sec V} (h : readable lib s = true) :
    (∀ k ∈ posKeys, okBy (posOk lib) (s k) = true) ∧ ∀ k ∈ realKeys, okBy (fun v => (lib.num v).isSome) (s k) = true := by
  unfold readable at h
  simp only [Bool.and_eq_true, List.all_eq_true] at h
  exact ⟨h.1.1.1.1.1, h.1.1.1.1.2⟩

/-- **C79 (other names).** An option with a name that is not known changes nothing, and neither does one that has been removed. -/
theorem C79_unknown {V : Type} (lib : Lib V) (mots : List Nat) (s t : Sec V) (h : ∀ k ∈ known, s k = t k) (c : MotConfig) :
    (readSec lib mots s = .ok c ↔ readSec lib mots t = .ok c) ∧ "osm_station_group_attrs" ∉ known ∧
      "osm_max_snap_fallback_distance" ∉ known ∧ "routing_pass_thru_station_punish" ∉ known := by
  have key : ∀ s t : Sec V, (∀ k ∈ known, s k = t k) → readSec lib mots s = .ok c → readSec lib mots t = .ok c := by
    intro s t h hc
    obtain ⟨h1, h2, -⟩ := readSec_ok.mp hc
    have hpos : ∀ k ∈ posKeys, s k = t k := fun k hk => h k ((by decide +kernel : ∀ k ∈ posKeys, k ∈ known) k hk)
    have hreal : ∀ k ∈ realKeys, s k = t k := fun k hk => h k ((by decide +kernel : ∀ k ∈ realKeys, k ∈ known) k hk)
    have hnp : ∀ k ∈ posKeys, num lib s k = num lib t k := fun k hk => by unfold num; rw [hpos k hk]
    have hnr : ∀ k ∈ realKeys, num lib s k = num lib t k := fun k hk => by unfold num; rw [hreal k hk]
    have hsp : ∀ i, i < 8 → speed (num lib s) i = speed (num lib t) i := by
      intro i hi
      unfold speed
      rw [hnp _ (keys_avg i hi).1, hnp _ (keys_fac i hi).1]
    have hfac : ∀ old new, old ∈ posKeys → new ∈ posKeys → factor (num lib s) old new = factor (num lib t) old new := by
      intro old new h1 h2; unfold factor; rw [hnp old h1, hnp new h2]
    have hline : ∀ new, new ∈ posKeys → lineFactor (num lib s) new = lineFactor (num lib t) new := by
      intro new h2; unfold lineFactor; rw [hnp _ (by decide +kernel), hnp new h2]
    have hpen : ∀ old new, old ∈ posKeys → new ∈ posKeys → penalty (num lib s) old new = penalty (num lib t) old new := by
      intro old new h1 h2; unfold penalty; rw [hnp old h1, hnp new h2, hsp 0 (by decide)]
    refine readSec_same hc (fun k hk => h k ((by decide +kernel : ∀ k ∈ otherKeys, k ∈ known) k hk))
      (fun k hk => by rw [← hpos k hk]; exact (pos_ok h1).1 k hk) (fun k hk => by rw [← hreal k hk]; exact (pos_ok h1).2 k hk)
      ?_ (fun i hi => by rw [← hnp _ (keys_fac i hi).1]; exact no_zero h2 i hi)
    constructor
    case speed => exact hsp
    case oneWay => exact hfac _ _ (by decide +kernel) (by decide +kernel)
    case noLines => exact hfac _ _ (by decide +kernel) (by decide +kernel)
    case lineName => exact hline _ (by decide +kernel)
    case lineFrom => exact hline _ (by decide +kernel)
    case lineTo => exact hline _ (by decide +kernel)
    case nonStation => exact hpen _ _ (by decide +kernel) (by decide +kernel)
    case platform => exact hpen _ _ (by decide +kernel) (by decide +kernel)
    case move => rw [move_eq, move_eq]; exact hpen _ _ (by decide +kernel) (by decide +kernel)
    case turn =>
      unfold fullTurn
      rw [hnp "routing_full_turn_punish" (by decide +kernel), hnp "routing_full_turn_penalty" (by decide +kernel), hsp 0 (by decide)]
    case entry => unfold orElse; rw [hnp _ (by decide +kernel)]
    case angle => unfold orElse; rw [hnp _ (by decide +kernel)]
    case dist => unfold orElse; rw [hnr _ (by decide +kernel)]
    case trans => unfold orElse; rw [hnp _ (by decide +kernel)]
    case snapAngle => exact hnp _ (by decide +kernel)
    case cand => exact hnr _ (by decide +kernel)
    case block => exact hnr _ (by decide +kernel)
    case station => exact hnp _ (by decide +kernel)
  exact ⟨⟨key s t h, key t s fun k hk => (h k hk).symm⟩, by decide +kernel, by decide +kernel, by decide +kernel⟩

/-! ### Old names -/

theorem modern_same {V : Type} (lib : Lib V) (write : Rat → V) (v0 : Rat) (s : Sec V) (k : String) (h1 : isOld k = false)
    (h2 : (oldOf k).isNone = true) : modern lib write v0 s k = s k := by
  unfold modern
  rw [h1]
  cases h3 : oldOf k with
  | some r => rw [h3] at h2; cases h2
  | none => cases s k <;> rfl

theorem modern_old {V : Type} (lib : Lib V) (write : Rat → V) (v0 : Rat) (s : Sec V) (k : String) (h1 : isOld k = true) :
    modern lib write v0 s k = none := by
  unfold modern
  rw [h1, if_pos rfl]

theorem modern_new {V : Type} (lib : Lib V) (write : Rat → V) (hw : ∀ x, lib.num (write x) = some x) (v0 : Rat) (s : Sec V)
    (hr : readable lib s = true) (new old : String) (hk : new ∈ posKeys) (c : Conv) (h1 : isOld new = false)
    (h2 : oldOf new = some (old, c)) :
    num lib (modern lib write v0 s) new = match num lib s new with
      | some x => some x
      | none => (num lib s old).map (c.app v0) := by
  have hok := (pos_ok hr).1 new hk
  unfold num modern
  rw [h1, h2]
  cases h3 : s new with
  | some v =>
    rw [h3] at hok
    simp only [okBy, posOk] at hok
    cases h4 : lib.num v with
    | none => rw [h4] at hok; cases hok
    | some x => simp [h4]
  | none =>
    simp only [Bool.false_eq_true, if_false, Option.bind_none, given]
    cases h4 : (s old).bind lib.num with
    | none => rfl
    | some y => simp [hw]

theorem conv_nonneg (v0 : Rat) (h0 : 0 ≤ v0) (c : Conv) (x : Rat) (hx : 0 ≤ x) : 0 ≤ c.app v0 x := by
  cases c with
  | speed => exact div_nonneg (by grind) hx
  | more => show 0 ≤ 1 + x; grind
  | third => show 0 ≤ 1 + x / 3; grind
  | turn => exact div_nonneg hx h0
  | metres => exact Rat.mul_nonneg hx (div_nonneg (by grind) h0)

/-- **C79 (old names).** A section with deprecated options means the same as the section in which each of them is replaced by the new option
with the value the program says it uses instead. The new section has no deprecated option. -/
theorem C79_deprecated {V : Type} (lib : Lib V) (write : Rat → V) (hw : ∀ x, lib.num (write x) = some x) (mots : List Nat)
    (s : Sec V) (c : MotConfig) (h : readSec lib mots s = .ok c) (v0 : Rat) (h0 : IsSpeed (given lib s) 0 v0) :
    readSec lib mots (modern lib write v0 s) = .ok c ∧ ∀ r ∈ table, modern lib write v0 s r.2.1 = none := by
  obtain ⟨hr, hz, -⟩ := readSec_ok.mp h
  have hv0 : v0 = speed (num lib s) 0 := by
    obtain ⟨new, old, d, k, e1, e2, e3, hv, rfl⟩ := h0
    cases e1; cases e2; cases e3
    have hg : given lib s = num lib s := rfl
    rw [hg] at hv
    show _ = match num lib s "osm_lvl0_avg_speed" with
      | some x => x * (2777 / 10000)
      | none => match num lib s "routing_lvl0_fac" with
        | some f => 85 / f * (2777 / 10000)
        | none => 85 * (2777 / 10000)
    rcases hv with ⟨x, e, rfl⟩ | ⟨e, y, e', rfl⟩ | ⟨e, e', rfl⟩
    · rw [e]
    · rw [e, e']
    · rw [e, e']
  have h00 : 0 ≤ v0 := by rw [hv0]; exact speed_nonneg (pos hr) 0 (by decide)
  have hold : ∀ r ∈ table, modern lib write v0 s r.2.1 = none :=
    fun r hr => modern_old _ _ _ _ _ ((by decide +kernel : ∀ r ∈ table, isOld r.2.1 = true) r hr)
  refine ⟨?_, hold⟩
  have hoth : ∀ k ∈ otherKeys, s k = modern lib write v0 s k := fun k hk =>
    (modern_same _ _ _ _ _ ((by decide +kernel : ∀ k ∈ otherKeys, isOld k = false) k hk)
      ((by decide +kernel : ∀ k ∈ otherKeys, (oldOf k).isNone = true) k hk)).symm
  have hreal : ∀ k ∈ realKeys, s k = modern lib write v0 s k := fun k hk =>
    (modern_same _ _ _ _ _ ((by decide +kernel : ∀ k ∈ realKeys, isOld k = false) k hk)
      ((by decide +kernel : ∀ k ∈ realKeys, (oldOf k).isNone = true) k hk)).symm
  have hno : ∀ k, isOld k = true → num lib (modern lib write v0 s) k = none := fun k hk => by
    unfold num; rw [modern_old _ _ _ _ _ hk]; rfl
  have hpos : ∀ k ∈ posKeys, okBy (posOk lib) (modern lib write v0 s k) = true := by
    intro k hk
    unfold modern
    split
    · rfl
    · have := (pos_ok hr).1 k hk
      cases h3 : s k with
      | some v => rw [h3] at this; exact this
      | none =>
        simp only
        cases h4 : oldOf k with
        | none => rfl
        | some r =>
          obtain ⟨old, c⟩ := r
          simp only
          cases h5 : given lib s old with
          | none => rfl
          | some y =>
            simp only [Option.map_some, okBy, posOk, hw]
            have hop : old ∈ posKeys := by
              unfold oldOf at h4
              obtain ⟨r, h6, h7⟩ := Option.map_eq_some_iff.mp h4
              have := (by decide +kernel : ∀ r ∈ table, r.2.1 ∈ posKeys) r (List.mem_of_find?_eq_some h6)
              rw [h7] at this
              exact this
            exact decide_eq_true (conv_nonneg v0 h00 c y (pos hr _ hop _ h5))
  have hsp : ∀ i, i < 8 → speed (num lib s) i = speed (num lib (modern lib write v0 s)) i := by
    intro i hi
    have hc : oldOf ("osm_lvl" ++ toString i ++ "_avg_speed") = some ("routing_lvl" ++ toString i ++ "_fac", .speed) := by
      have : i = 0 ∨ i = 1 ∨ i = 2 ∨ i = 3 ∨ i = 4 ∨ i = 5 ∨ i = 6 ∨ i = 7 := by omega
      rcases this with rfl | rfl | rfl | rfl | rfl | rfl | rfl | rfl <;> rfl
    have a1 := modern_new lib write hw v0 s hr _ _ (keys_avg i hi).1 _
      ((by decide +kernel : ∀ i, i < 8 → isOld ("osm_lvl" ++ toString i ++ "_avg_speed") = false) i hi) hc
    have a2 := hno _ ((by decide +kernel : ∀ i, i < 8 → isOld ("routing_lvl" ++ toString i ++ "_fac") = true) i hi)
    unfold speed
    rw [a1, a2]
    cases num lib s ("osm_lvl" ++ toString i ++ "_avg_speed") with
    | some x => rfl
    | none => cases num lib s ("routing_lvl" ++ toString i ++ "_fac") <;> rfl
  have hfac : ∀ old new, new ∈ posKeys → isOld new = false → isOld old = true → oldOf new = some (old, .more) →
      factor (num lib s) old new = factor (num lib (modern lib write v0 s)) old new := by
    intro old new h1 h2 h3 h4
    unfold factor
    rw [modern_new lib write hw v0 s hr _ _ h1 _ h2 h4, hno _ h3]
    cases num lib s new with
    | some x => rfl
    | none => cases num lib s old <;> rfl
  have hline : ∀ new, new ∈ posKeys → isOld new = false → oldOf new = some ("routing_line_unmatched_punish_fac", .third) →
      lineFactor (num lib s) new = lineFactor (num lib (modern lib write v0 s)) new := by
    intro new h1 h2 h4
    unfold lineFactor
    rw [modern_new lib write hw v0 s hr _ _ h1 _ h2 h4, hno _ (by decide +kernel)]
    cases num lib s new with
    | some x => rfl
    | none => cases num lib s "routing_line_unmatched_punish_fac" <;> rfl
  have hpen : ∀ old new, new ∈ posKeys → isOld new = false → isOld old = true → oldOf new = some (old, .metres) →
      penalty (num lib s) old new = penalty (num lib (modern lib write v0 s)) old new := by
    intro old new h1 h2 h3 h4
    unfold penalty
    rw [modern_new lib write hw v0 s hr _ _ h1 _ h2 h4, hno _ h3]
    cases num lib s new with
    | some x => rfl
    | none =>
      cases num lib s old with
      | none => rfl
      | some y => show _ = y * (83 / 10000 / v0); rw [hv0]; rfl
  have hsame : ∀ k, isOld k = false → (oldOf k).isNone = true → num lib s k = num lib (modern lib write v0 s) k := by
    intro k h1 h2; unfold num; rw [modern_same _ _ _ _ _ h1 h2]
  refine readSec_same h hoth hpos (fun k hk => by rw [← hreal k hk]; exact (pos_ok hr).2 k hk) ?_ (fun i hi => by
    rw [hno _ ((by decide +kernel : ∀ i, i < 8 → isOld ("routing_lvl" ++ toString i ++ "_fac") = true) i hi)]; exact fun e => nomatch e)
  constructor
  case speed => exact hsp
  case oneWay => exact hfac _ _ (by decide +kernel) (by decide +kernel) (by decide +kernel) rfl
  case noLines => exact hfac _ _ (by decide +kernel) (by decide +kernel) (by decide +kernel) rfl
  case lineName => exact hline _ (by decide +kernel) (by decide +kernel) rfl
  case lineFrom => exact hline _ (by decide +kernel) (by decide +kernel) rfl
  case lineTo => exact hline _ (by decide +kernel) (by decide +kernel) rfl
  case nonStation => exact hpen _ _ (by decide +kernel) (by decide +kernel) (by decide +kernel) rfl
  case platform => exact hpen _ _ (by decide +kernel) (by decide +kernel) (by decide +kernel) rfl
  case move => rw [move_eq, move_eq]; exact hpen _ _ (by decide +kernel) (by decide +kernel) (by decide +kernel) rfl
  case turn =>
    unfold fullTurn
    rw [modern_new lib write hw v0 s hr "routing_full_turn_penalty" _ (by decide +kernel) .turn (by decide +kernel) rfl,
      hno "routing_full_turn_punish" (by decide +kernel)]
    cases num lib s "routing_full_turn_penalty" with
    | some x => rfl
    | none =>
      cases num lib s "routing_full_turn_punish" with
      | none => rfl
      | some y => show _ = toU32 (limited (y / v0 * 10)); rw [hv0]
  case entry => unfold orElse; rw [← hsame _ (by decide +kernel) (by decide +kernel)]
  case angle => unfold orElse; rw [← hsame _ (by decide +kernel) (by decide +kernel)]
  case dist => unfold orElse; rw [← hsame _ (by decide +kernel) (by decide +kernel)]
  case trans => unfold orElse; rw [← hsame _ (by decide +kernel) (by decide +kernel)]
  case snapAngle => exact hsame _ (by decide +kernel) (by decide +kernel)
  case cand => exact hsame _ (by decide +kernel) (by decide +kernel)
  case block => exact hsame _ (by decide +kernel) (by decide +kernel)
  case station => exact hsame _ (by decide +kernel) (by decide +kernel)

end Verif.Sections
