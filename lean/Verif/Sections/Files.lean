import Verif.Sections.Props

/-!
# Defaults, rules for lines, and all sections of a file (property C79)
-/

namespace Verif.Sections
open Verif.Names (Str)
open Verif.Config

/-! ### Defaults -/

theorem explicit_same {V : Type} (write : Rat → V) (s : Sec V) (k : String) (h : defaults.lookup k = none) :
    explicit write s k = s k := by
  unfold explicit
  rw [h]
  cases s k <;> rfl

theorem explicit_num {V : Type} (lib : Lib V) (write : Rat → V) (hw : ∀ x, lib.num (write x) = some x) (s : Sec V)
    (hr : readable lib s = true) (k : String) (hk : k ∈ posKeys ∨ k ∈ realKeys) (d : Rat) (h : defaults.lookup k = some d) :
    num lib (explicit write s) k = match num lib s k with
      | some x => some x
      | none => if hasOld s k then none else some d := by
  have hok : ∀ v, s k = some v → ∃ x, lib.num v = some x := by
    intro v hv
    rcases hk with hk | hk
    · have := (pos_ok hr).1 k hk
      rw [hv] at this
      simp only [okBy, posOk] at this
      cases h4 : lib.num v with
      | none => rw [h4] at this; cases this
      | some x => exact ⟨x, rfl⟩
    · have := (pos_ok hr).2 k hk
      rw [hv] at this
      exact Option.isSome_iff_exists.mp this
  unfold num explicit
  rw [h]
  cases h3 : s k with
  | some v =>
    obtain ⟨x, hx⟩ := hok v h3
    simp [hx]
  | none =>
    simp only [Option.bind_none]
    split
    · rfl
    · exact hw d

theorem hasOld_num {V : Type} {lib : Lib V} {s : Sec V} (hr : readable lib s = true) {k old : String} {c : Conv}
    (h : oldOf k = some (old, c)) (ho : old ∈ posKeys) : hasOld s k = (num lib s old).isSome := by
  have := (pos_ok hr).1 old ho
  unfold hasOld num
  rw [h]
  cases h3 : s old with
  | none => simp only [h3]; rfl
  | some v =>
    rw [h3] at this
    simp only [okBy, posOk] at this
    simp only [h3]
    cases h4 : lib.num v with
    | none => rw [h4] at this; cases this
    | some x => simp [h4]

/-- **C79 (defaults).** Writing down the default of an option changes nothing, if neither the option nor its old name is there. -/
theorem C79_defaults {V : Type} (lib : Lib V) (write : Rat → V) (hw : ∀ x, lib.num (write x) = some x) (mots : List Nat)
    (s : Sec V) (c : MotConfig) (h : readSec lib mots s = .ok c) :
    readSec lib mots (explicit write s) = .ok c ∧
      ∀ r ∈ defaults, hasOld s r.1 = false → (explicit write s r.1).isSome = true := by
  obtain ⟨hr, hz, -⟩ := readSec_ok.mp h
  refine ⟨?_, ?_⟩
  case refine_2 =>
    intro r hr ho
    have : ∃ d, defaults.lookup r.1 = some d :=
      Option.isSome_iff_exists.mp ((by decide +kernel : ∀ r ∈ defaults, (defaults.lookup r.1).isSome = true) r hr)
    obtain ⟨d, hd⟩ := this
    unfold explicit
    rw [hd, ho]
    cases s r.1 <;> rfl
  have hoth : ∀ k ∈ otherKeys, s k = explicit write s k := fun k hk =>
    (explicit_same _ _ _ (Option.isNone_iff_eq_none.mp
      ((by decide +kernel : ∀ k ∈ otherKeys, (defaults.lookup k).isNone = true) k hk))).symm
  have hdpos : ∀ k d, defaults.lookup k = some d → 0 ≤ d := by
    intro k d hd
    have : ∀ (l : List (String × Rat)), (∀ r ∈ l, 0 ≤ r.2) → l.lookup k = some d → 0 ≤ d := by
      intro l
      induction l with
      | nil => intro _ h; cases h
      | cons a l ih =>
        intro hl hk
        rw [List.lookup_cons] at hk
        split at hk
        · cases hk; exact hl a (by simp)
        · exact ih (fun r hr => hl r (by simp [hr])) hk
    exact this defaults (by decide +kernel) hd
  have hpos : ∀ k ∈ posKeys, okBy (posOk lib) (explicit write s k) = true := by
    intro k hk
    have := (pos_ok hr).1 k hk
    unfold explicit
    cases h3 : s k with
    | some v => rw [h3] at this; exact this
    | none =>
      simp only
      cases h4 : defaults.lookup k with
      | none => rfl
      | some d =>
        simp only
        split
        · rfl
        · simp only [okBy, posOk, hw]
          exact decide_eq_true (hdpos k d h4)
  have hreal : ∀ k ∈ realKeys, okBy (fun v => (lib.num v).isSome) (explicit write s k) = true := by
    intro k hk
    have := (pos_ok hr).2 k hk
    unfold explicit
    cases h3 : s k with
    | some v => rw [h3] at this; exact this
    | none =>
      simp only
      cases h4 : defaults.lookup k with
      | none => rfl
      | some d =>
        simp only
        split
        · rfl
        · simp only [okBy, hw, Option.isSome_some]
  have hsame : ∀ k, (defaults.lookup k).isNone = true → num lib (explicit write s) k = num lib s k := by
    intro k hk; unfold num; rw [explicit_same _ _ _ (Option.isNone_iff_eq_none.mp hk)]
  have hnew : ∀ k old c d, k ∈ posKeys → old ∈ posKeys → oldOf k = some (old, c) → defaults.lookup k = some d →
      num lib (explicit write s) k = match num lib s k with
        | some x => some x
        | none => if (num lib s old).isSome then none else some d := by
    intro k old c d h1 h2 h3 h4
    rw [explicit_num lib write hw s hr k (Or.inl h1) d h4, hasOld_num hr h3 h2]
  have hplain : ∀ k d, k ∈ posKeys ∨ k ∈ realKeys → (oldOf k).isNone = true → defaults.lookup k = some d →
      orElse (num lib s) k d = orElse (num lib (explicit write s)) k d := by
    intro k d h1 h2 h3
    have ho : hasOld s k = false := by unfold hasOld; rw [Option.isNone_iff_eq_none.mp h2]
    unfold orElse
    rw [explicit_num lib write hw s hr k h1 d h3, ho]
    cases num lib s k <;> rfl
  have hsp : ∀ i, i < 8 → speed (num lib s) i = speed (num lib (explicit write s)) i := by
    intro i hi
    have hc : ∃ d, oldOf ("osm_lvl" ++ toString i ++ "_avg_speed") = some ("routing_lvl" ++ toString i ++ "_fac", .speed) ∧
        defaults.lookup ("osm_lvl" ++ toString i ++ "_avg_speed") = some d ∧ defSpeed i = d * (2777 / 10000) := by
      have : i = 0 ∨ i = 1 ∨ i = 2 ∨ i = 3 ∨ i = 4 ∨ i = 5 ∨ i = 6 ∨ i = 7 := by omega
      rcases this with rfl | rfl | rfl | rfl | rfl | rfl | rfl | rfl <;> exact ⟨_, rfl, rfl, rfl⟩
    obtain ⟨d, hc1, hc2, hc3⟩ := hc
    unfold speed
    rw [hnew _ _ _ _ (keys_avg i hi).1 (keys_fac i hi).1 hc1 hc2,
      hsame _ ((by decide +kernel : ∀ i, i < 8 → (defaults.lookup ("routing_lvl" ++ toString i ++ "_fac")).isNone = true) i hi)]
    cases num lib s ("osm_lvl" ++ toString i ++ "_avg_speed") with
    | some x => rfl
    | none =>
      cases num lib s ("routing_lvl" ++ toString i ++ "_fac") with
      | some f => rfl
      | none => exact hc3
  have hfac : ∀ old new, new ∈ posKeys → old ∈ posKeys → (defaults.lookup old).isNone = true → oldOf new = some (old, .more) →
      defaults.lookup new = some 1 → factor (num lib s) old new = factor (num lib (explicit write s)) old new := by
    intro old new h1 h2 h3 h4 h5
    unfold factor
    rw [hnew _ _ _ _ h1 h2 h4 h5, hsame _ h3]
    cases num lib s new with
    | some x => rfl
    | none => cases num lib s old <;> rfl
  have hline : ∀ new, new ∈ posKeys → oldOf new = some ("routing_line_unmatched_punish_fac", .third) →
      defaults.lookup new = some 1 → lineFactor (num lib s) new = lineFactor (num lib (explicit write s)) new := by
    intro new h1 h4 h5
    unfold lineFactor
    rw [hnew _ _ _ _ h1 (by decide +kernel) h4 h5, hsame _ (by decide +kernel)]
    cases num lib s new with
    | some x => rfl
    | none => cases num lib s "routing_line_unmatched_punish_fac" <;> rfl
  have hpen : ∀ old new, new ∈ posKeys → old ∈ posKeys → (defaults.lookup old).isNone = true → oldOf new = some (old, .metres) →
      defaults.lookup new = some 0 → penalty (num lib s) old new = penalty (num lib (explicit write s)) old new := by
    intro old new h1 h2 h3 h4 h5
    unfold penalty
    rw [hnew _ _ _ _ h1 h2 h4 h5, hsame _ h3, hsp 0 (by decide)]
    cases num lib s new with
    | some x => rfl
    | none => cases num lib s old <;> rfl
  refine readSec_same h hoth hpos hreal ?_ (fun i hi => by
    rw [hsame _ ((by decide +kernel : ∀ i, i < 8 → (defaults.lookup ("routing_lvl" ++ toString i ++ "_fac")).isNone = true) i hi)]
    exact no_zero hz i hi)
  constructor
  case speed => exact hsp
  case oneWay => exact hfac _ _ (by decide +kernel) (by decide +kernel) (by decide +kernel) rfl rfl
  case noLines => exact hfac _ _ (by decide +kernel) (by decide +kernel) (by decide +kernel) rfl rfl
  case lineName => exact hline _ (by decide +kernel) rfl rfl
  case lineFrom => exact hline _ (by decide +kernel) rfl rfl
  case lineTo => exact hline _ (by decide +kernel) rfl rfl
  case nonStation => exact hpen _ _ (by decide +kernel) (by decide +kernel) (by decide +kernel) rfl rfl
  case platform => exact hpen _ _ (by decide +kernel) (by decide +kernel) (by decide +kernel) rfl rfl
  case move => rw [move_eq, move_eq]; exact hpen _ _ (by decide +kernel) (by decide +kernel) (by decide +kernel) rfl rfl
  case turn =>
    unfold fullTurn
    rw [hnew "routing_full_turn_penalty" "routing_full_turn_punish" .turn 100 (by decide +kernel) (by decide +kernel) rfl rfl,
      hsame "routing_full_turn_punish" (by decide +kernel), hsp 0 (by decide)]
    cases num lib s "routing_full_turn_penalty" with
    | some x => rfl
    | none =>
      cases num lib s "routing_full_turn_punish" with
      | some y => rfl
      | none => show some 1000 = toU32 (limited (100 * 10)); rw [tenths_cost 100 (by grind), tenths_hundred]
  case entry => exact hplain _ _ (by decide +kernel) (by decide +kernel) rfl
  case angle => exact hplain _ _ (by decide +kernel) (by decide +kernel) rfl
  case dist => exact hplain _ _ (by decide +kernel) (by decide +kernel) rfl
  case trans => exact hplain _ _ (by decide +kernel) (by decide +kernel) rfl
  case snapAngle => exact (hsame _ (by decide +kernel)).symm
  case cand => exact (hsame _ (by decide +kernel)).symm
  case block => exact (hsame _ (by decide +kernel)).symm
  case station => exact (hsame _ (by decide +kernel)).symm

/-! ### Rules for lines -/

/-- `from_name`, `to_name`, `line_name`, `line_color`, `colour`, `color` -/
def kFrom : Str := "from_name".toList.map Char.toNat
def kTo : Str := "to_name".toList.map Char.toNat
def kLine : Str := "line_name".toList.map Char.toNat
def kColor : Str := "line_color".toList.map Char.toNat
def colours : List Str := ["colour".toList.map Char.toNat, "color".toList.map Char.toNat]

theorem lastRule_snoc (rules : List (Str × List Str)) (r : Str × List Str) (name : Str) (d : List Str) :
    lastRule (rules ++ [r]) name d = if r.1 = name then r.2 else lastRule rules name d := by
  unfold lastRule
  rw [List.filter_append]
  by_cases h : r.1 = name
  · have : [r].filter (fun r => r.1 == name) = [r] := by simp [h]
    rw [this, if_pos h, List.getLast?_append]
    rfl
  · have : [r].filter (fun r => r.1 == name) = [] := by simp [h]
    rw [this, if_neg h, List.append_nil]

theorem lineRules_rev (l : List (Str × List Str)) : lineRules l.reverse =
    ⟨lastRule l.reverse kLine [], lastRule l.reverse kFrom [], lastRule l.reverse kTo [], lastRule l.reverse kColor colours⟩ := by
  induction l with
  | nil => decide +kernel
  | cons r l ih =>
    rw [List.reverse_cons, lastRule_snoc, lastRule_snoc, lastRule_snoc, lastRule_snoc]
    unfold lineRules at ih ⊢
    rw [List.foldl_append, ih]
    simp only [List.foldl_cons, List.foldl_nil]
    have k1 : ([102, 114, 111, 109, 95, 110, 97, 109, 101] : Str) = kFrom := by decide
    have k2 : ([116, 111, 95, 110, 97, 109, 101] : Str) = kTo := by decide
    have k3 : ([108, 105, 110, 101, 95, 110, 97, 109, 101] : Str) = kLine := by decide
    have k4 : ([108, 105, 110, 101, 95, 99, 111, 108, 111, 114] : Str) = kColor := by decide
    rw [k1, k2, k3, k4]
    by_cases h1 : r.1 = kFrom
    · have n1 : r.1 ≠ kLine := by rw [h1]; decide
      have n2 : r.1 ≠ kTo := by rw [h1]; decide
      have n3 : r.1 ≠ kColor := by rw [h1]; decide
      rw [if_pos h1, if_neg n1, if_pos h1, if_neg n2, if_neg n3]
    · by_cases h2 : r.1 = kTo
      · have n1 : r.1 ≠ kLine := by rw [h2]; decide
        have n3 : r.1 ≠ kColor := by rw [h2]; decide
        rw [if_neg h1, if_pos h2, if_neg n1, if_neg h1, if_pos h2, if_neg n3]
      · by_cases h3 : r.1 = kLine
        · have n3 : r.1 ≠ kColor := by rw [h3]; decide
          rw [if_neg h1, if_neg h2, if_pos h3, if_pos h3, if_neg h1, if_neg h2, if_neg n3]
        · by_cases h4 : r.1 = kColor
          · rw [if_neg h1, if_neg h2, if_neg h3, if_pos h4, if_neg h3, if_neg h1, if_neg h2, if_pos h4]
          · rw [if_neg h1, if_neg h2, if_neg h3, if_neg h4, if_neg h3, if_neg h1, if_neg h2, if_neg h4]

/-- **C79 (rules for lines).** For each of the four attributes of a line the last rule counts; without one there is none, except for the
colour, for which the tags `colour` and `color` are used. -/
theorem C79_line_rules (rules : List (Str × List Str)) :
    (lineRules rules).sName = lastRule rules kLine [] ∧ (lineRules rules).fromName = lastRule rules kFrom [] ∧
    (lineRules rules).toName = lastRule rules kTo [] ∧ (lineRules rules).color = lastRule rules kColor colours := by
  have := lineRules_rev rules.reverse
  rw [List.reverse_reverse] at this
  rw [this]
  exact ⟨rfl, rfl, rfl, rfl⟩

/-! ### All sections -/

/-- The sections with their configurations. -/
inductive Each {V : Type} (lib : Lib V) : List (List Nat × Sec V) → List MotConfig → Prop
  | nil : Each lib [] []
  | cons {m : List Nat} {s : Sec V} {rest : List (List Nat × Sec V)} {c : MotConfig} {cs : List MotConfig} :
      readSec lib m s = .ok c → Each lib rest cs → Each lib ((m, s) :: rest) (c :: cs)

theorem readAll_iff {V : Type} (lib : Lib V) : ∀ (secs : List (List Nat × Sec V)) (cs es : List MotConfig),
    readAll lib cs secs = .ok es ↔ ∃ l, Each lib secs l ∧ es = l.foldl addSection cs
  | [], cs, es => by
    show Result.ok cs = .ok es ↔ _
    constructor
    · intro h; cases h; exact ⟨[], .nil, rfl⟩
    · rintro ⟨l, h, rfl⟩; cases h; rfl
  | (m, s) :: rest, cs, es => by
    have ih := readAll_iff lib rest
    unfold readAll
    cases h : readSec lib m s with
    | ok c =>
      simp only
      rw [ih]
      constructor
      · rintro ⟨l, h1, h2⟩; exact ⟨c :: l, .cons h h1, h2⟩
      · rintro ⟨l, h1, h2⟩
        cases h1 with
        | cons h3 h4 =>
          rw [h] at h3
          cases h3
          exact ⟨_, h4, h2⟩
    | bad =>
      simp only
      constructor
      · intro e; cases e
      · rintro ⟨l, h1, -⟩
        cases h1 with
        | cons h3 _ => rw [h] at h3; cases h3
    | inf =>
      simp only
      constructor
      · intro e; cases e
      · rintro ⟨l, h1, -⟩
        cases h1 with
        | cons h3 _ => rw [h] at h3; cases h3
    | undefined =>
      simp only
      constructor
      · intro e; cases e
      · rintro ⟨l, h1, -⟩
        cases h1 with
        | cons h3 _ => rw [h] at h3; cases h3

theorem Each.mem {V : Type} {lib : Lib V} {secs : List (List Nat × Sec V)} {l : List MotConfig} (h : Each lib secs l) :
    (∀ x ∈ secs, ∃ c ∈ l, readSec lib x.1 x.2 = .ok c) ∧ ∀ c ∈ l, ∃ x ∈ secs, readSec lib x.1 x.2 = .ok c := by
  induction h with
  | nil => exact ⟨fun x hx => (by cases hx), fun c hc => (by cases hc)⟩
  | cons h1 h2 ih =>
    refine ⟨fun x hx => ?_, fun c hc => ?_⟩
    · rcases List.mem_cons.mp hx with rfl | hx
      · exact ⟨_, by simp, h1⟩
      · obtain ⟨c, hc, e⟩ := ih.1 x hx
        exact ⟨c, by simp [hc], e⟩
    · rcases List.mem_cons.mp hc with rfl | hc
      · exact ⟨_, List.mem_cons_self, h1⟩
      · obtain ⟨x, hx, e⟩ := ih.2 c hc
        exact ⟨x, by simp [hx], e⟩

theorem readSec_mots {V : Type} {lib : Lib V} {m : List Nat} {s : Sec V} {c : MotConfig} (h : readSec lib m s = .ok c) :
    c.mots = m ∧ Shaped c.osm := by
  obtain ⟨-, -, full, restr, -, -, rfl⟩ := readSec_ok.mp h
  exact ⟨rfl, by simp [Shaped, config]⟩

/-- **C79 (all sections), in parts.** If a file is read, each of its sections has a meaning (`Means`), and the modes of the section are in a
configuration that is close to it; each configuration is one that a section says, and its modes are those of sections close to it. Missing:
close is not equal (`C79_negation_small`, and those of C40). -/
theorem C79_file_partial {V : Type} (lib : Lib V) (secs : List (List Nat × Sec V)) (es : List MotConfig)
    (h : readAll lib [] secs = .ok es) :
    (∀ x ∈ secs, ∃ c, Means (given lib x.2) c ∧ ∃ e ∈ es, Close c e ∧ ∀ m ∈ x.1, m ∈ e.mots) ∧
    (∀ e ∈ es, (∃ x ∈ secs, Means (given lib x.2) e) ∧
      ∀ m ∈ e.mots, ∃ x ∈ secs, m ∈ x.1 ∧ ∃ c, Means (given lib x.2) c ∧ Close c e) := by
  obtain ⟨l, hl, rfl⟩ := (readAll_iff lib secs [] es).mp h
  obtain ⟨h1, h2⟩ := hl.mem
  have hs : ∀ c ∈ l, Shaped c.osm := by
    intro c hc
    obtain ⟨x, -, e⟩ := h2 c hc
    exact (readSec_mots e).2
  refine ⟨?_, ?_⟩
  · intro x hx
    obtain ⟨c, hc, e⟩ := h1 x hx
    obtain ⟨e', he', hcl, hm⟩ := C40_own_partial l hs c hc
    exact ⟨c, C79_means lib _ _ _ e, e', he', hcl, by rw [(readSec_mots e).1] at hm; exact hm⟩
  · intro e he
    obtain ⟨⟨c, hc, hsame⟩, hm⟩ := C40_config_partial l hs e he
    refine ⟨?_, ?_⟩
    · obtain ⟨x, hx, ex⟩ := h2 c hc
      refine ⟨x, hx, ?_⟩
      have hM := C79_means lib _ _ _ ex
      obtain ⟨o1, o2⟩ := hsame
      obtain ⟨m1, o1', r1⟩ := e
      obtain ⟨m2, o2', r2⟩ := c
      simp only at o1 o2
      subst o1; subst o2
      exact ⟨hM.levels, hM.speeds, hM.oneWay, hM.noLines, hM.noLinesToo, hM.lineName, hM.lineFrom, hM.lineTo, hM.platform,
        hM.nonStation, hM.move, hM.station, hM.transition, hM.fullTurn, hM.entry, hM.restr, hM.angle, hM.angleToo, hM.snapAngle,
        hM.cand, hM.osmStation, hM.fastest, hM.reached⟩
    · intro m hm'
      obtain ⟨c', hc', h3, h4⟩ := hm m hm'
      obtain ⟨x, hx, ex⟩ := h2 c' hc'
      rw [(readSec_mots ex).1] at h3
      exact ⟨x, hx, h3, c', C79_means lib _ _ _ ex, h4⟩

/-! ### Examples and negations -/

/-- Values are numbers. -/
def exLib : Lib Rat where
  num := some
  nums := fun x => some [x]
  int := fun x => some x.floor
  bool := fun x => some (decide (x ≠ 0))
  code := fun o => match o with | none => 0 | some _ => 1
  chain := fun _ => true
  lineCode := fun o => match o with | none => 0 | some _ => 1
  word := fun _ o => match o with | none => 0 | some _ => 1

/-- A section with old and new options. -/
def exSec : Sec Rat := fun k =>
  ([("osm_lvl0_avg_speed", 120), ("routing_lvl1_fac", 2), ("routing_full_turn_punish", 500), ("routing_no_lines_punish_fac", 1 / 2),
    ("routing_line_unmatched_punish_fac", 3), ("routing_line_unmatched_time_penalty_fac", 1 / 2),
    ("routing_station_distance_punish_fac", 1), ("osm_one_way_entry_cost", 300), ("osm_max_snap_distance", 200),
    ("osm_unknown", 7)] : List (String × Rat)).lookup k

/-- It is read; the new factor for lines wins, the old one counts for the stations. -/
example : ∃ c, readSec exLib [0] exSec = .ok c ∧ c.routing.lineUnmatchedPunishFact = 1 / 2 ∧
    c.routing.lineNameToUnmatchedPunishFact = 2 ∧ c.routing.noLinesPunishFact = 3 / 2 ∧ c.osm.maxSpeedCorFac = 1 / 2 ∧
    c.osm.maxSpeed = 240 * (2777 / 10000) ∧ c.routing.fullTurnPunishFac = 150 ∧ c.routing.turnRestrCost = 30000 ∧
    c.osm.maxStationCandDistance = 400 := by
  refine ⟨config exLib [0] exSec (num exLib exSec) 150 30000, readSec_ok.mpr ⟨by decide +kernel, by decide +kernel, 150, 30000,
    by decide +kernel, by decide +kernel, rfl⟩, ?_⟩
  decide +kernel

/-- A negative number, and a speed of zero. -/
example : readSec exLib [0] (fun k => if k = "osm_lvl0_avg_speed" then some (-1) else none) = .bad ∧
    readSec exLib [0] (fun k => if k = "osm_lvl0_avg_speed" then some 0 else none) = .inf := by decide +kernel

/-- **C79 (negation).** Two sections that differ only in the factor for moved stations, with the values 0 and 0.0039 of the configuration
file that is shipped, or in the factor for transitions, with the default 0.0083 and 0, are one configuration: that of the first one. The
modes of the second lose its setting. -/
theorem C79_negation_small : ∃ a b b' : Sec Rat,
    a "routing_station_move_penalty_fac" = none ∧ b "routing_station_move_penalty_fac" = some (39 / 10000) ∧
    a "routing_transition_penalty_fac" = none ∧ b' "routing_transition_penalty_fac" = some 0 ∧
    (∃ e, readAll exLib [] [([0], a), ([3], b)] = .ok [e] ∧ 3 ∈ e.mots ∧ e.routing.stationDistPenFactor = 0) ∧
    ∃ e, readAll exLib [] [([0], a), ([3], b')] = .ok [e] ∧ 3 ∈ e.mots ∧ e.routing.transitionPen = 83 / 10000 := by
  refine ⟨fun _ => none, fun k => if k = "routing_station_move_penalty_fac" then some (39 / 10000) else none,
    fun k => if k = "routing_transition_penalty_fac" then some 0 else none, rfl, by decide +kernel, rfl, by decide +kernel,
    ⟨{ config exLib [0, 3] (fun _ => none) (fun _ => none) 1000 0 with mots := [0, 3] }, by decide +kernel, by decide +kernel,
      by decide +kernel⟩,
    ⟨{ config exLib [0, 3] (fun _ => none) (fun _ => none) 1000 0 with mots := [0, 3] }, by decide +kernel, by decide +kernel,
      by decide +kernel⟩⟩

/-- **C79 (negation).** The message about `routing_line_unmatched_punish_fac` says that the same option is used with the new value
(MotConfigReader.cpp:439-440). A section that follows it means something else. -/
theorem C79_negation_message : ∃ (s t : Sec Rat) (c d : MotConfig),
    readSec exLib [0] s = .ok c ∧ readSec exLib [0] t = .ok d ∧ s "routing_line_unmatched_punish_fac" = some 3 ∧
    c.routing.lineUnmatchedPunishFact = 2 ∧ t "routing_line_unmatched_punish_fac" = some 2 ∧
    d.routing.lineUnmatchedPunishFact ≠ c.routing.lineUnmatchedPunishFact := by
  refine ⟨fun k => if k = "routing_line_unmatched_punish_fac" then some 3 else none,
    fun k => if k = "routing_line_unmatched_punish_fac" then some 2 else none,
    config exLib [0] (fun k => if k = "routing_line_unmatched_punish_fac" then some 3 else none)
      (num exLib (fun k => if k = "routing_line_unmatched_punish_fac" then some 3 else none)) 1000 0,
    config exLib [0] (fun k => if k = "routing_line_unmatched_punish_fac" then some 2 else none)
      (num exLib (fun k => if k = "routing_line_unmatched_punish_fac" then some 2 else none)) 1000 0,
    by decide +kernel, by decide +kernel, by decide +kernel, by decide +kernel, by decide +kernel, by decide +kernel⟩

end Verif.Sections
