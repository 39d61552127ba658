import Verif.Osm.Filter

/-!
# OSM filter rules (properties C28, C29, C30)
-/

namespace Verif.Osm
open Verif.Names (Str)

/-! ### specification -/

/-- A value fits the value of a rule: the rule accepts everything, the values are equal, or (for
rules on value lists) the value of the rule occurs before or after a semicolon. -/
def ValFits (v rule : Str) (list : Bool) : Prop :=
  rule = [42] ∨ v = rule ∨
  (list = true ∧ ((59 :: rule) <:+: v ∨ (rule ++ [59]) <:+: v ∨ (59 :: 32 :: rule) <:+: v ∨ (rule ++ [32, 59]) <:+: v))

/-- A rule for this kind of object (4 relation, 8 way, 16 node, 0 any) fits the attribute. -/
def RuleHit (rules : Rules) (kind : Nat) (kv : Str × Str) : Prop :=
  ∃ vals, rules.get kv.1 = some vals ∧ ∃ r ∈ vals, r.2 &&& kind = 0 ∧ ValFits kv.2 r.1 (decide (r.2 &&& 32 ≠ 0))

/-- Some attribute is hit. Depends on the set of attributes only. -/
def Hits (rules : Rules) (kind : Nat) (attrs : Attrs) : Prop := ∃ kv ∈ attrs, RuleHit rules kind kv

/-- Hit without looking at the flags, as for levels. -/
def PlainHits (rules : Rules) (attrs : Attrs) : Prop :=
  ∃ kv ∈ attrs, ∃ vals, rules.get kv.1 = some vals ∧ ∃ r ∈ vals, ValFits kv.2 r.1 false

/-- All flags contain the bit 1, as the configuration reader guarantees (`C28_flags`). -/
def Flagged (rules : Rules) : Prop := ∀ k vals, rules.get k = some vals → ∀ r ∈ vals, r.2 % 2 = 1

structure FlaggedOpts (o : Opts) : Prop where
  keep : Flagged o.keep
  drop : Flagged o.drop
  oneway : Flagged o.oneway
  onewayrev : Flagged o.onewayrev
  twoway : Flagged o.twoway
  station : Flagged o.station
  blocker : Flagged o.blocker
  turnCycle : Flagged o.turnCycle
  posRestr : Flagged o.posRestr
  negRestr : Flagged o.negRestr
  noRestr : Flagged o.noRestr

/-! ### lemmas -/

theorem occurs_iff (b a : Str) : occurs b a = true ↔ b <:+: a := by
  induction a with
  | nil => simp [occurs]
  | cons x a ih =>
    simp only [occurs, Bool.or_eq_true, ih, List.isPrefixOf_iff_prefix, List.infix_cons_iff]

theorem valMatches_iff (a b : Str) (m : Bool) : valMatches a b m = true ↔ ValFits a b m := by
  unfold valMatches ValFits
  by_cases h1 : b = star
  · simp only [h1, if_true]
    simp [star]
  · rw [if_neg h1]
    by_cases h2 : (m && (occurs (semi ++ b) a || occurs (b ++ semi) a || occurs (semi ++ blank ++ b) a ||
      occurs (b ++ blank ++ semi) a)) = true
    · rw [if_pos h2]
      simp only [Bool.and_eq_true, Bool.or_eq_true, occurs_iff] at h2
      simp only [true_iff]
      refine Or.inr (Or.inr ⟨h2.1, ?_⟩)
      simpa [semi, blank, or_assoc] using h2.2
    · rw [if_neg h2]
      simp only [Bool.and_eq_true, Bool.or_eq_true, occurs_iff] at h2
      simp only [beq_iff_eq]
      constructor
      · exact fun h => Or.inr (Or.inl h)
      · rintro (h | h | ⟨h, h'⟩)
        · exact absurd h h1
        · exact h
        · exact absurd ⟨h, by simpa [semi, blank, or_assoc] using h'⟩ h2

theorem findVal_some {t : Nat} {v : Str} {vals : FMap Str Nat} {f : Nat} (h : findVal t v vals = some f) :
    ∃ r ∈ vals, r.2 = f ∧ r.2 &&& t = 0 ∧ ValFits v r.1 (decide (r.2 &&& 32 ≠ 0)) := by
  induction vals with
  | nil => cases h
  | cons r rs ih =>
    unfold findVal at h
    have up : findVal t v rs = some f → ∃ r' ∈ r :: rs, r'.2 = f ∧ r'.2 &&& t = 0 ∧
        ValFits v r'.1 (decide (r'.2 &&& 32 ≠ 0)) := fun h => by
      obtain ⟨r', hr, h'⟩ := ih h
      exact ⟨r', by simp [hr], h'⟩
    split at h
    · exact up h
    · rename_i ht
      split at h
      · rename_i hm
        rw [valMatches_iff] at hm
        refine ⟨r, by simp, by simpa using h, by simpa using ht, ?_⟩
        have : (r.2 &&& MULT != 0) = decide (r.2 &&& 32 ≠ 0) := by
          rw [Bool.eq_iff_iff]; simp [MULT]
        rwa [← this]
      · exact up h

theorem findVal_isSome {t : Nat} {v : Str} {vals : FMap Str Nat} :
    (findVal t v vals).isSome = true ↔ ∃ r ∈ vals, r.2 &&& t = 0 ∧ ValFits v r.1 (decide (r.2 &&& 32 ≠ 0)) := by
  constructor
  · intro h
    obtain ⟨f, hf⟩ := Option.isSome_iff_exists.mp h
    obtain ⟨r, hr, _, h'⟩ := findVal_some hf
    exact ⟨r, hr, h'⟩
  · rintro ⟨r, hr, h1, h2⟩
    induction vals with
    | nil => cases hr
    | cons r' rs ih =>
      unfold findVal
      split
      · rename_i ht
        rcases List.mem_cons.mp hr with rfl | hr
        · exact absurd h1 ht
        · exact ih hr
      · split
        · rfl
        · rename_i ht hm
          rcases List.mem_cons.mp hr with rfl | hr
          · exfalso
            apply hm
            rw [valMatches_iff]
            have : (r.2 &&& MULT != 0) = decide (r.2 &&& 32 ≠ 0) := by
              rw [Bool.eq_iff_iff]; simp [MULT]
            rwa [this]
          · exact ih hr

theorem contained_cons (rules : Rules) (t : Nat) (kv : Str × Str) (attrs : Attrs) :
    contained rules t (kv :: attrs) = match rules.get kv.1 with
    | none => contained rules t attrs
    | some vals =>
      match findVal t kv.2 vals with
      | some f => f
      | none => contained rules t attrs := rfl

theorem levelHit_cons (rules : Rules) (kv : Str × Str) (attrs : Attrs) :
    levelHit rules (kv :: attrs) = match rules.get kv.1 with
    | none => levelHit rules attrs
    | some vals => if vals.any fun r => valMatches kv.2 r.1 false then true else levelHit rules attrs := rfl

theorem contained_iff {rules : Rules} (hf : Flagged rules) (t : Nat) (attrs : Attrs) :
    contained rules t attrs ≠ 0 ↔ Hits rules t attrs := by
  induction attrs with
  | nil => simp [contained, Hits]
  | cons kv attrs ih =>
    have hcons : Hits rules t (kv :: attrs) ↔ RuleHit rules t kv ∨ Hits rules t attrs := by
      unfold Hits; simp
    rw [hcons, ← ih, contained_cons]
    cases hg : rules.get kv.1 with
    | none =>
      have : ¬ RuleHit rules t kv := by
        rintro ⟨vals, h, _⟩
        rw [hg] at h; cases h
      simp [this]
    | some vals =>
      have hr : RuleHit rules t kv ↔ (findVal t kv.2 vals).isSome = true := by
        rw [findVal_isSome]
        constructor
        · rintro ⟨vals', h, h'⟩
          rw [hg] at h; cases h; exact h'
        · intro h; exact ⟨vals, hg, h⟩
      rw [hr]
      simp only
      cases hv : findVal t kv.2 vals with
      | none => simp
      | some f =>
        obtain ⟨r, hrm, hrf, _⟩ := findVal_some hv
        have := hf kv.1 vals hg r hrm
        simp only [Option.isSome_some, true_or, iff_true]
        omega

theorem levelHit_iff (rules : Rules) (attrs : Attrs) : levelHit rules attrs = true ↔ PlainHits rules attrs := by
  induction attrs with
  | nil => simp [levelHit, PlainHits]
  | cons kv attrs ih =>
    have hcons : PlainHits rules (kv :: attrs) ↔
        (∃ vals, rules.get kv.1 = some vals ∧ ∃ r ∈ vals, ValFits kv.2 r.1 false) ∨ PlainHits rules attrs := by
      unfold PlainHits; simp
    rw [hcons, ← ih, levelHit_cons]
    cases hg : rules.get kv.1 with
    | none => simp
    | some vals =>
      simp only
      by_cases h : (vals.any fun r => valMatches kv.2 r.1 false) = true
      · rw [if_pos h]
        simp only [List.any_eq_true, valMatches_iff] at h
        simp only [Option.some.injEq, exists_eq_left', true_iff]
        exact Or.inl h
      · rw [if_neg h]
        simp only [List.any_eq_true, valMatches_iff] at h
        simp only [Option.some.injEq, exists_eq_left']
        constructor
        · exact Or.inr
        · rintro (h' | h')
          · exact absurd h' h
          · exact h'

/-! ### C28 -/

/-- C28. The flags the configuration reader produces always contain the bit 1, so a hit is never
taken for a miss. -/
theorem C28_flags (flags : List Nat) : getFlags flags % 2 = 1 := by
  unfold getFlags
  have : ∀ (l : List Nat) (r : Nat), r % 2 = 1 → (l.foldl (fun r f =>
    if f = 0 then r ||| REL_NO_DOWN else if f = 1 then r ||| NODE else if f = 2 then r ||| REL
    else if f = 3 then r ||| WAY else if f = 4 then r ||| MULT else r) r) % 2 = 1 := by
    intro l
    induction l with
    | nil => intro r h; exact h
    | cons f l ih =>
      intro r h
      rw [List.foldl_cons]
      apply ih
      have key : ∀ c : Nat, (r ||| c) % 2 = 1 := by
        intro c
        have h1 : (r ||| c).testBit 0 = true := by
          rw [Nat.testBit_or]
          have : r.testBit 0 = true := by rw [Nat.testBit_zero]; simpa using h
          rw [this]; rfl
        rw [Nat.testBit_zero] at h1
        simpa using h1
      repeat' split
      all_goals first | exact key _ | exact h
  exact this flags USE rfl

/-- C28. Every decision is determined by which rules hit the set of attributes: two-way rules beat
one-way rules, rules against restrictions beat restrictions. -/
theorem C28_decisions (o : Opts) (h : FlaggedOpts o) (a : Attrs) :
    (∀ kind, fKeep o a kind ≠ 0 ↔ Hits o.keep kind a) ∧
    (∀ kind, fDrop o a kind ≠ 0 ↔ Hits o.drop kind a) ∧
    (fOneway o a ≠ 0 ↔ Hits o.oneway 8 a ∧ ¬ Hits o.twoway 8 a) ∧
    (fOnewayrev o a ≠ 0 ↔ Hits o.onewayrev 8 a ∧ ¬ Hits o.twoway 8 a) ∧
    (fStation o a ≠ 0 ↔ Hits o.station 16 a) ∧
    (fBlocker o a ≠ 0 ↔ Hits o.blocker 16 a) ∧
    (fTurnCycle o a ≠ 0 ↔ Hits o.turnCycle 16 a) ∧
    (fNegRestr o a ≠ 0 ↔ Hits o.negRestr 0 a ∧ ¬ Hits o.noRestr 0 a) ∧
    (fPosRestr o a ≠ 0 ↔ Hits o.posRestr 0 a ∧ ¬ Hits o.noRestr 0 a) := by
  refine ⟨fun k => contained_iff h.keep k a, fun k => contained_iff h.drop k a, ?_, ?_,
    contained_iff h.station _ a, contained_iff h.blocker _ a, contained_iff h.turnCycle _ a, ?_, ?_⟩
  · rw [← contained_iff h.oneway, ← contained_iff h.twoway]
    unfold fOneway
    by_cases h' : contained o.twoway 8 a ≠ 0 <;> simp [WAY, h']
  · rw [← contained_iff h.onewayrev, ← contained_iff h.twoway]
    unfold fOnewayrev
    by_cases h' : contained o.twoway 8 a ≠ 0 <;> simp [WAY, h']
  · rw [← contained_iff h.negRestr, ← contained_iff h.noRestr]
    unfold fNegRestr
    by_cases h' : contained o.noRestr 0 a ≠ 0 <;> simp [ALL, h']
  · rw [← contained_iff h.posRestr, ← contained_iff h.noRestr]
    unfold fPosRestr
    by_cases h' : contained o.noRestr 0 a ≠ 0 <;> simp [ALL, h']

/-- C28. The level is the lowest one with a matching rule, and 0 if there is none. -/
theorem C28_level (o : Opts) (a : Attrs) :
    (∀ i < 8, PlainHits (o.levels i) a → (∀ j < i, ¬ PlainHits (o.levels j) a) → fLevel o a = i) ∧
    ((∀ i < 8, ¬ PlainHits (o.levels i) a) → fLevel o a = 0) := by
  unfold fLevel
  constructor
  · intro i hi hh hmin
    have : (List.range 8).find? (fun i => levelHit (o.levels i) a) = some i := by
      rw [List.find?_range_eq_some]
      refine ⟨by rw [levelHit_iff]; exact hh, List.mem_range.mpr hi, fun j hj => ?_⟩
      have := hmin j hj
      rw [← levelHit_iff] at this
      simpa using this
    rw [this]; rfl
  · intro hno
    have : (List.range 8).find? (fun i => levelHit (o.levels i) a) = none := by
      rw [List.find?_eq_none]
      intro i hi
      rw [levelHit_iff]
      exact hno i (List.mem_range.mp hi)
    rw [this]; rfl

/-- Attributes in another order, or the same attributes. -/
def SameAttrs (a b : Attrs) : Prop := ∀ kv, kv ∈ a ↔ kv ∈ b

/-- C28. No decision depends on the order in which the attributes are visited. -/
theorem C28_order (o : Opts) (h : FlaggedOpts o) (a b : Attrs) (hs : SameAttrs a b) :
    (∀ kind, fKeep o a kind ≠ 0 ↔ fKeep o b kind ≠ 0) ∧ (∀ kind, fDrop o a kind ≠ 0 ↔ fDrop o b kind ≠ 0) ∧
    (fOneway o a ≠ 0 ↔ fOneway o b ≠ 0) ∧ (fOnewayrev o a ≠ 0 ↔ fOnewayrev o b ≠ 0) ∧
    (fStation o a ≠ 0 ↔ fStation o b ≠ 0) ∧ (fBlocker o a ≠ 0 ↔ fBlocker o b ≠ 0) ∧
    (fTurnCycle o a ≠ 0 ↔ fTurnCycle o b ≠ 0) ∧ (fNegRestr o a ≠ 0 ↔ fNegRestr o b ≠ 0) ∧
    (fPosRestr o a ≠ 0 ↔ fPosRestr o b ≠ 0) ∧ fLevel o a = fLevel o b := by
  have hh : ∀ r k, Hits r k a ↔ Hits r k b := by
    intro r k; unfold Hits
    constructor
    · rintro ⟨kv, hk, h⟩; exact ⟨kv, (hs kv).mp hk, h⟩
    · rintro ⟨kv, hk, h⟩; exact ⟨kv, (hs kv).mpr hk, h⟩
  have hp : ∀ r, PlainHits r a ↔ PlainHits r b := by
    intro r; unfold PlainHits
    constructor
    · rintro ⟨kv, hk, h⟩; exact ⟨kv, (hs kv).mp hk, h⟩
    · rintro ⟨kv, hk, h⟩; exact ⟨kv, (hs kv).mpr hk, h⟩
  obtain ⟨a1, a2, a3, a4, a5, a6, a7, a8, a9⟩ := C28_decisions o h a
  obtain ⟨b1, b2, b3, b4, b5, b6, b7, b8, b9⟩ := C28_decisions o h b
  refine ⟨fun k => ?_, fun k => ?_, ?_, ?_, ?_, ?_, ?_, ?_, ?_, ?_⟩
  · rw [a1, b1, hh]
  · rw [a2, b2, hh]
  · rw [a3, b3, hh, hh]
  · rw [a4, b4, hh, hh]
  · rw [a5, b5, hh]
  · rw [a6, b6, hh]
  · rw [a7, b7, hh]
  · rw [a8, b8, hh, hh]
  · rw [a9, b9, hh, hh]
  · unfold fLevel
    congr 2
    funext i
    rw [Bool.eq_iff_iff, levelHit_iff, levelHit_iff, hp]

/-- C28. Rules on value lists find every item of a list separated by semicolons. -/
theorem C28_list_items (pre rule post : Str) :
    valMatches (rule ++ 59 :: post) rule true = true ∧
    valMatches (pre ++ 59 :: rule) rule true = true ∧
    valMatches (pre ++ 59 :: rule ++ 59 :: post) rule true = true ∧
    valMatches (pre ++ 59 :: 32 :: rule) rule true = true ∧
    valMatches (rule ++ 32 :: 59 :: post) rule true = true := by
  simp only [valMatches_iff]
  refine ⟨Or.inr (Or.inr ⟨rfl, Or.inr (Or.inl ⟨[], post, by simp⟩)⟩), Or.inr (Or.inr ⟨rfl, Or.inl ⟨pre, [], by simp⟩⟩),
    Or.inr (Or.inr ⟨rfl, Or.inl ⟨pre, 59 :: post, by simp⟩⟩),
    Or.inr (Or.inr ⟨rfl, Or.inr (Or.inr (Or.inl ⟨pre, [], by simp⟩))⟩),
    Or.inr (Or.inr ⟨rfl, Or.inr (Or.inr (Or.inr ⟨[], post, by simp⟩))⟩)⟩

/-- C28, finding: they also find parts of items (`ab;c` has the items `ab` and `c`, but a rule on
`b` hits). -/
theorem C28_limit_list_parts : valMatches [97, 98, 59, 99] [98] true = true := by decide +kernel

/-- keep rules `a=x|rel_flat`, `b=y` -/
def exKeep : Rules := [([97], [([120], getFlags [0])]), ([98], [([121], getFlags [])])]

/-- C28, finding: the flags returned with the decision are those of the first hit, so whether a
relation counts as flat depends on the order of a hash map. -/
theorem C28_limit_flags :
    ∃ (rules : Rules) (a b : Attrs), Flagged rules ∧ SameAttrs a b ∧
      contained rules REL a &&& REL_NO_DOWN ≠ 0 ∧ contained rules REL b &&& REL_NO_DOWN = 0 := by
  refine ⟨exKeep, [([97], [120]), ([98], [121])], [([98], [121]), ([97], [120])], ?_, ?_, by decide +kernel, by decide +kernel⟩
  · intro k vals h r hr
    have hm := FMap.mem_of_get h
    simp only [exKeep, List.mem_cons, List.not_mem_nil, or_false, Prod.mk.injEq] at hm
    rcases hm with ⟨_, rfl⟩ | ⟨_, rfl⟩
    · simp only [List.mem_cons, List.not_mem_nil, or_false] at hr; subst hr; exact C28_flags _
    · simp only [List.mem_cons, List.not_mem_nil, or_false] at hr; subst hr; exact C28_flags _
  · intro kv; simp only [List.mem_cons, List.not_mem_nil, or_false]; exact or_comm

/-! ### C29 -/

theorem contained_restrict (rules : Rules) (t : Nat) (keys : List Str) (hk : ∀ k ∈ rules.keys, k ∈ keys) (a : Attrs) :
    contained rules t (restrict keys a) = contained rules t a := by
  induction a with
  | nil => rfl
  | cons kv a ih =>
    unfold restrict at ih ⊢
    rw [List.filter_cons, contained_cons]
    by_cases h : keys.contains kv.1 = true
    · rw [if_pos h, contained_cons, ih]
    · rw [if_neg h, ih]
      have : rules.get kv.1 = none := by
        rw [FMap.get_eq_none_iff]
        intro hm
        exact h (by simpa using hk _ hm)
      rw [this]

theorem levelHit_restrict (rules : Rules) (keys : List Str) (hk : ∀ k ∈ rules.keys, k ∈ keys) (a : Attrs) :
    levelHit rules (restrict keys a) = levelHit rules a := by
  induction a with
  | nil => rfl
  | cons kv a ih =>
    unfold restrict at ih ⊢
    rw [List.filter_cons, levelHit_cons]
    by_cases h : keys.contains kv.1 = true
    · rw [if_pos h, levelHit_cons, ih]
    · rw [if_neg h, ih]
      have : rules.get kv.1 = none := by
        rw [FMap.get_eq_none_iff]
        intro hm
        exact h (by simpa using hk _ hm)
      rw [this]

theorem get_restrict (keys : List Str) (k : Str) (hk : k ∈ keys) (a : Attrs) :
    FMap.get (restrict keys a) k = FMap.get a k := by
  induction a with
  | nil => rfl
  | cons kv a ih =>
    unfold restrict at ih ⊢
    rw [List.filter_cons, FMap.get_cons]
    by_cases h : keys.contains kv.1 = true
    · rw [if_pos h, FMap.get_cons, ih]
    · rw [if_neg h, ih, if_neg]
      rintro rfl
      exact h (by simpa using hk)

/-- C29. Dropping the attributes that are not kept changes no decision and no attribute that is
used for names and platforms: for nodes, ways and relations. What is missing: level rules of
level 7 and the attribute `type` of relations, unless another rule mentions the key
(`C29_negation_level`, `C29_negation_type`). -/
theorem C29_kept_partial (o : Opts) (a : Attrs) :
    (let b := restrict (keptNode o) a
     fKeep o b NODE = fKeep o a NODE ∧ fDrop o b NODE = fDrop o a NODE ∧ fStation o b = fStation o a ∧
     fBlocker o b = fBlocker o a ∧ fTurnCycle o b = fTurnCycle o a ∧
     ∀ r ∈ o.statRules, r.2 = [] → FMap.get b r.1 = FMap.get a r.1) ∧
    (let b := restrict (keptWay o) a
     fKeep o b WAY = fKeep o a WAY ∧ fDrop o b WAY = fDrop o a WAY ∧ fOneway o b = fOneway o a ∧
     fOnewayrev o b = fOnewayrev o a ∧ ((∀ k ∈ (o.levels 7).keys, k ∈ keptWay o) → fLevel o b = fLevel o a) ∧
     ∀ r ∈ o.edgeRules, r.2 = [] → FMap.get b r.1 = FMap.get a r.1) ∧
    (let b := restrict (keptRel o) a
     fKeep o b REL = fKeep o a REL ∧ fDrop o b REL = fDrop o a REL ∧ fPosRestr o b = fPosRestr o a ∧
     fNegRestr o b = fNegRestr o a ∧ (sType ∈ keptRel o → restrKind o b = restrKind o a) ∧
     (∀ k ∈ o.lineRules, FMap.get b k = FMap.get a k) ∧
     ∀ r ∈ o.statRules ++ o.edgeRules, r.2 ≠ [] → FMap.get b r.1 = FMap.get a r.1 ∧ FMap.get b r.2 = FMap.get a r.2) := by
  refine ⟨⟨?_, ?_, ?_, ?_, ?_, ?_⟩, ⟨?_, ?_, ?_, ?_, ?_, ?_⟩, ⟨?_, ?_, ?_, ?_, ?_, ?_, ?_⟩⟩
  · exact contained_restrict _ _ _ (fun k h => by simp [keptNode, h]) a
  · exact contained_restrict _ _ _ (fun k h => by simp [keptNode, h]) a
  · exact contained_restrict _ _ _ (fun k h => by simp [keptNode, h]) a
  · exact contained_restrict _ _ _ (fun k h => by simp [keptNode, h]) a
  · exact contained_restrict _ _ _ (fun k h => by simp [keptNode, h]) a
  · intro r hr h
    apply get_restrict
    have : r.1 ∈ (o.statRules.filter fun r => r.2.isEmpty).map (·.1) :=
      List.mem_map.mpr ⟨r, List.mem_filter.mpr ⟨hr, by simp [h]⟩, rfl⟩
    exact List.mem_append.mpr (Or.inr this)
  · exact contained_restrict _ _ _ (fun k h => by simp [keptWay, h]) a
  · exact contained_restrict _ _ _ (fun k h => by simp [keptWay, h]) a
  · unfold fOneway
    rw [contained_restrict _ _ _ (fun k h => by simp [keptWay, h]) a,
      contained_restrict _ _ _ (fun k h => by simp [keptWay, h]) a]
  · unfold fOnewayrev
    rw [contained_restrict _ _ _ (fun k h => by simp [keptWay, h]) a,
      contained_restrict _ _ _ (fun k h => by simp [keptWay, h]) a]
  · intro h7
    unfold fLevel
    congr 1
    have : ∀ l : List Nat, (∀ i ∈ l, i < 8) → l.find? (fun i => levelHit (o.levels i) (restrict (keptWay o) a)) =
        l.find? (fun i => levelHit (o.levels i) a) := by
      intro l hl
      induction l with
      | nil => rfl
      | cons i l ih =>
        rw [List.find?_cons, List.find?_cons, ih fun j hj => hl j (by simp [hj]), levelHit_restrict]
        intro k hk
        by_cases hi : i = 7
        · subst hi; exact h7 k hk
        · have h8 := hl i (by simp)
          have : k ∈ (List.range 7).flatMap (fun j => (o.levels j).keys) :=
            List.mem_flatMap.mpr ⟨i, List.mem_range.mpr (by omega), hk⟩
          unfold keptWay
          exact List.mem_append.mpr (Or.inl (List.mem_append.mpr (Or.inr this)))
    exact this _ fun i hi => List.mem_range.mp hi
  · intro r hr h
    apply get_restrict
    have : r.1 ∈ (o.edgeRules.filter fun r => r.2.isEmpty).map (·.1) :=
      List.mem_map.mpr ⟨r, List.mem_filter.mpr ⟨hr, by simp [h]⟩, rfl⟩
    exact List.mem_append.mpr (Or.inr this)
  · exact contained_restrict _ _ _ (fun k h => by simp [keptRel, h]) a
  · exact contained_restrict _ _ _ (fun k h => by simp [keptRel, h]) a
  · unfold fPosRestr
    rw [contained_restrict _ _ _ (fun k h => by simp [keptRel, h]) a,
      contained_restrict _ _ _ (fun k h => by simp [keptRel, h]) a]
  · unfold fNegRestr
    rw [contained_restrict _ _ _ (fun k h => by simp [keptRel, h]) a,
      contained_restrict _ _ _ (fun k h => by simp [keptRel, h]) a]
  · intro ht
    unfold restrKind
    rw [get_restrict _ _ ht]
    unfold fPosRestr fNegRestr
    rw [contained_restrict _ _ _ (fun k h => by simp [keptRel, h]) a,
      contained_restrict _ _ _ (fun k h => by simp [keptRel, h]) a,
      contained_restrict _ _ _ (fun k h => by simp [keptRel, h]) a]
  · intro k hk
    exact get_restrict _ _ (by simp [keptRel, hk]) a
  · intro r hr h
    have key : ∀ k ∈ [r.2, r.1], k ∈ keptRel o := by
      intro k hk
      unfold keptRel
      refine List.mem_append.mpr (Or.inr (List.mem_flatMap.mpr ⟨r, List.mem_filter.mpr ⟨hr, ?_⟩, hk⟩))
      simpa using h
    exact ⟨get_restrict _ _ (key _ (by simp)) a, get_restrict _ _ (key _ (by simp)) a⟩

/-- No rules. -/
def opts0 : Opts :=
  { keep := [], drop := [], nohup := [], oneway := [], onewayrev := [], twoway := [], station := [], blocker := []
    turnCycle := [], posRestr := [], negRestr := [], noRestr := [], levels := fun _ => [], statRules := []
    edgeRules := [], lineRules := [] }

/-- keep `h=r`; level 7 is `s=y` -/
def exOpts : Opts :=
  { opts0 with keep := [([104], [([114], getFlags [])])]
               levels := fun i => if i = 7 then [([115], [([121], getFlags [])])] else [] }

/-- C29, finding: the keys of level 7 rules are not kept (1484 counts to 6), so a way of level 7
is taken for one of level 0, the best one. -/
theorem C29_negation_level :
    ∃ (o : Opts) (a : Attrs), fLevel o a = 7 ∧ fLevel o (restrict (keptWay o) a) = 0 :=
  ⟨exOpts, [([104], [114]), ([115], [121])], by decide +kernel, by decide +kernel⟩

/-- keep `r=*`, negative restriction `r=n` -/
def exOpts2 : Opts :=
  { opts0 with keep := [([114], [(star, getFlags [])])], negRestr := [([114], [([110], getFlags [])])] }

/-- C29, finding: a relation is read as a turn rule only if it has the attribute `type`, which is
kept only if some rule mentions it. -/
theorem C29_negation_type :
    ∃ (o : Opts) (a : Attrs), fKeep o a REL ≠ 0 ∧ restrKind o a = (false, true) ∧
      restrKind o (restrict (keptRel o) a) = (false, false) :=
  ⟨exOpts2, [([114], [110]), (sType, [114, 101, 115, 116, 114, 105, 99, 116, 105, 111, 110])],
    by decide +kernel, by decide +kernel, by decide +kernel⟩

/-! ### C30 -/

/-- The flags stored for a key and a value. -/
def look (rules : Rules) (k v : Str) : Option Nat := (rules.get k).bind fun vals => FMap.get vals v

/-- Keys and values are distinct, as in a map. -/
structure WFR (rules : Rules) : Prop where
  keys : FMap.WF rules
  vals : ∀ k vals, rules.get k = some vals → FMap.WF vals

theorem get_insertVals (add : FMap Str Nat) : ∀ (m : FMap Str Nat) (v : Str),
    FMap.get (insertVals m add) v = (FMap.get m v).or (FMap.get add v) := by
  induction add with
  | nil => intro m v; simp [insertVals, FMap.get_nil]
  | cons r add ih =>
    intro m v
    have hf : insertVals m (r :: add) =
        insertVals (match m.get r.1 with | some _ => m | none => m.put r.1 r.2) add := rfl
    rw [hf, ih, FMap.get_cons]
    cases hg : m.get r.1 with
    | some x =>
      simp only
      by_cases h : r.1 = v
      · rw [if_pos h, ← h, hg]; rfl
      · rw [if_neg h]
    | none =>
      simp only
      rw [FMap.get_put]
      by_cases h : r.1 = v
      · subst h; simp [hg]
      · rw [if_neg (Ne.symm h), if_neg h]

theorem wf_insertVals (add : FMap Str Nat) : ∀ (m : FMap Str Nat), FMap.WF m → FMap.WF (insertVals m add) := by
  induction add with
  | nil => intro m h; exact h
  | cons r add ih =>
    intro m h
    have hf : insertVals m (r :: add) =
        insertVals (match m.get r.1 with | some _ => m | none => m.put r.1 r.2) add := rfl
    rw [hf]
    apply ih
    cases m.get r.1 with
    | some x => exact h
    | none => exact h.put _ _

/-- The step of `merge`. -/
def addRule (m : Rules) (kv : Str × FMap Str Nat) : Rules := m.put kv.1 (insertVals ((m.get kv.1).getD []) kv.2)

theorem addRule_wf (m : Rules) (h : WFR m) (kv : Str × FMap Str Nat) : WFR (addRule m kv) := by
  refine ⟨h.keys.put _ _, fun k vals hk => ?_⟩
  unfold addRule at hk
  rw [FMap.get_put] at hk
  by_cases hkk : k = kv.1
  · rw [if_pos hkk] at hk
    cases hk
    apply wf_insertVals
    cases hg : m.get kv.1 with
    | none => exact FMap.WF.nil
    | some x => exact h.vals _ _ hg
  · rw [if_neg hkk] at hk
    exact h.vals k vals hk

theorem look_addRule (m : Rules) (kv : Str × FMap Str Nat) (k v : Str) :
    look (addRule m kv) k v = (look m k v).or (if kv.1 = k then FMap.get kv.2 v else none) := by
  unfold look addRule
  rw [FMap.get_put]
  by_cases h : k = kv.1
  · subst h
    rw [if_pos rfl, if_pos rfl]
    show FMap.get (insertVals _ _) v = _
    rw [get_insertVals]
    cases hg : m.get kv.1 with
    | none => rfl
    | some x => rfl
  · rw [if_neg h, if_neg (Ne.symm h)]; simp

theorem look_foldl (l : Rules) (hl : FMap.WF l) : ∀ (m : Rules), WFR m →
    WFR (l.foldl addRule m) ∧ ∀ k v, look (l.foldl addRule m) k v = (look m k v).or (look l k v) := by
  induction l with
  | nil => intro m h; exact ⟨h, fun k v => by simp [look, FMap.get_nil]⟩
  | cons x l ih =>
    intro m h
    have hl' : FMap.WF l := (List.nodup_cons.mp hl).2
    have hx : x.1 ∉ FMap.keys l := (List.nodup_cons.mp hl).1
    obtain ⟨i1, i2⟩ := ih hl' (addRule m x) (addRule_wf m h x)
    rw [List.foldl_cons]
    refine ⟨i1, fun k v => ?_⟩
    rw [i2, look_addRule]
    have : look (x :: l) k v = if x.1 = k then FMap.get x.2 v else look l k v := by
      unfold look
      rw [FMap.get_cons]
      split <;> rfl
    rw [this]
    by_cases hk : x.1 = k
    · have hn : look l k v = none := by
        unfold look
        rw [(FMap.get_eq_none_iff l k).mpr (hk ▸ hx)]; rfl
      rw [if_pos hk, if_pos hk, hn]; simp
    · rw [if_neg hk, if_neg hk]; simp

theorem look_merge (a b : Rules) (ha : WFR a) (hb : WFR b) :
    WFR (merge a b) ∧ ∀ k v, look (merge a b) k v = (look a k v).or (look b k v) := by
  have h0 : WFR ([] : Rules) := ⟨FMap.WF.nil, fun k vals h => by cases h⟩
  obtain ⟨a1, a2⟩ := look_foldl a ha.keys [] h0
  obtain ⟨b1, b2⟩ := look_foldl b hb.keys _ a1
  refine ⟨b1, fun k v => ?_⟩
  show look (b.foldl addRule (a.foldl addRule [])) k v = _
  rw [b2, a2]
  simp [look, FMap.get_nil]

theorem ruleHit_look {rules : Rules} (w : WFR rules) (kind : Nat) (kv : Str × Str) :
    RuleHit rules kind kv ↔ ∃ v f, look rules kv.1 v = some f ∧ f &&& kind = 0 ∧ ValFits kv.2 v (decide (f &&& 32 ≠ 0)) := by
  constructor
  · rintro ⟨vals, hg, r, hr, h1, h2⟩
    refine ⟨r.1, r.2, ?_, h1, h2⟩
    unfold look
    rw [hg]
    exact FMap.get_of_mem (w.vals _ _ hg) hr
  · rintro ⟨v, f, hl, h1, h2⟩
    unfold look at hl
    cases hg : rules.get kv.1 with
    | none => rw [hg] at hl; cases hl
    | some vals =>
      rw [hg] at hl
      exact ⟨vals, hg, (v, f), FMap.mem_of_get hl, h1, h2⟩

theorem flagged_look {rules : Rules} (w : WFR rules) : Flagged rules ↔ ∀ k v f, look rules k v = some f → f % 2 = 1 := by
  constructor
  · intro h k v f hl
    unfold look at hl
    cases hg : rules.get k with
    | none => rw [hg] at hl; cases hl
    | some vals =>
      rw [hg] at hl
      exact h k vals hg (v, f) (FMap.mem_of_get hl)
  · intro h k vals hg r hr
    refine h k r.1 r.2 ?_
    unfold look
    rw [hg]
    exact FMap.get_of_mem (w.vals _ _ hg) hr

theorem mergeAll_spec (os : List Opts) : ∀ (m : Rules), WFR m → (∀ o ∈ os, WFR o.keep) →
    WFR (os.foldl (fun f o => merge f o.keep) m) ∧
    ∀ k v f, look (os.foldl (fun f o => merge f o.keep) m) k v = some f ↔
      look m k v = some f ∨ (look m k v = none ∧
        ∃ pre o post, os = pre ++ o :: post ∧ look o.keep k v = some f ∧ ∀ p ∈ pre, look p.keep k v = none) := by
  induction os with
  | nil =>
    intro m h _
    refine ⟨h, fun k v f => ?_⟩
    simp
  | cons o os ih =>
    intro m h hw
    obtain ⟨m1, m2⟩ := look_merge m o.keep h (hw o (by simp))
    obtain ⟨i1, i2⟩ := ih (merge m o.keep) m1 fun p hp => hw p (by simp [hp])
    rw [List.foldl_cons]
    refine ⟨i1, fun k v f => ?_⟩
    rw [i2, m2]
    cases hm : look m k v with
    | some x => simp
    | none =>
      simp only [Option.none_or, true_and, reduceCtorEq, false_or]
      constructor
      · rintro (h' | ⟨h', pre, o', post, rfl, h3, h4⟩)
        · exact ⟨[], o, os, rfl, h', fun p hp => by cases hp⟩
        · refine ⟨o :: pre, o', post, rfl, h3, fun p hp => ?_⟩
          rcases List.mem_cons.mp hp with rfl | hp
          · exact h'
          · exact h4 p hp
      · rintro ⟨pre, o', post, he, h3, h4⟩
        cases pre with
        | nil => cases he; exact Or.inl h3
        | cons p pre =>
          cases he
          exact Or.inr ⟨h4 _ (by simp), pre, o', post, rfl, h3, fun q hq => h4 q (by simp [hq])⟩

/-- C30. If the configurations that have a keep rule for the same key and value agree on its
flags, an object kept by one of them is kept by the merged filter, which sees only the
attributes with a kept key. (The merged filter has no drop rules.) What is missing: rules with
different flags, for which it is false (`C30_negation`). -/
theorem C30_merged_keeps_partial (os : List Opts) (hw : ∀ o ∈ os, WFR o.keep) (hf : ∀ o ∈ os, Flagged o.keep)
    (hc : ∀ o ∈ os, ∀ p ∈ os, ∀ k v f f', look o.keep k v = some f → look p.keep k v = some f' → f = f')
    (keys : List Str) (hk : ∀ o ∈ os, ∀ k ∈ o.keep.keys, k ∈ keys)
    (o : Opts) (ho : o ∈ os) (a : Attrs) (kind : Nat) (h : fKeep o a kind ≠ 0) :
    contained (mergeAll os) kind (restrict keys a) ≠ 0 := by
  have h0 : WFR ([] : Rules) := ⟨FMap.WF.nil, fun k vals h => by cases h⟩
  obtain ⟨w, hl⟩ := mergeAll_spec os [] h0 hw
  change WFR (mergeAll os) at w
  have hl' : ∀ k v f, look (mergeAll os) k v = some f ↔
      ∃ pre o post, os = pre ++ o :: post ∧ look o.keep k v = some f ∧ ∀ p ∈ pre, look p.keep k v = none := by
    intro k v f
    have h := hl k v f
    have hn : look [] k v = none := rfl
    rw [hn] at h
    refine h.trans ⟨fun h => ?_, fun h => Or.inr ⟨rfl, h⟩⟩
    rcases h with h | h
    · cases h
    · exact h.2
  have hfl : Flagged (mergeAll os) := by
    rw [flagged_look w]
    intro k v f h
    obtain ⟨pre, p, post, rfl, h1, _⟩ := (hl' k v f).mp h
    exact (flagged_look (hw p (by simp))).mp (hf p (by simp)) k v f h1
  rw [contained_restrict, contained_iff hfl]
  · obtain ⟨kv, hkv, hh⟩ := (contained_iff (hf o ho) kind a).mp h
    refine ⟨kv, hkv, ?_⟩
    obtain ⟨v, f, h1, h2, h3⟩ := (ruleHit_look (hw o ho) kind kv).mp hh
    refine (ruleHit_look w kind kv).mpr ⟨v, f, ?_, h2, h3⟩
    -- the first configuration with this key and value
    have first : ∀ l : List Opts, o ∈ l → ∃ pre p post, l = pre ++ p :: post ∧ (∃ f', look p.keep kv.1 v = some f') ∧
        ∀ q ∈ pre, look q.keep kv.1 v = none := by
      intro l
      induction l with
      | nil => intro h; cases h
      | cons p l ih =>
        intro hm
        cases hp : look p.keep kv.1 v with
        | some f' => exact ⟨[], p, l, rfl, ⟨f', hp⟩, fun q hq => by cases hq⟩
        | none =>
          rcases List.mem_cons.mp hm with rfl | hm
          · rw [h1] at hp; cases hp
          · obtain ⟨pre, p', post, rfl, h4, h5⟩ := ih hm
            refine ⟨p :: pre, p', post, rfl, h4, fun q hq => ?_⟩
            rcases List.mem_cons.mp hq with rfl | hq
            · exact hp
            · exact h5 q hq
    obtain ⟨pre, p, post, hos, ⟨f', hp⟩, hpre⟩ := first os ho
    have : f' = f := hc p (by rw [hos]; simp) o ho kv.1 v f' f hp h1
    subst this
    exact (hl' _ _ _).mpr ⟨pre, p, post, hos, hp, hpre⟩
  · intro k hkm
    -- a key of the merged rules is a key of some configuration
    have : ∀ (l : List Opts) (m : Rules), (∀ x ∈ m.keys, x ∈ keys) → (∀ o ∈ l, ∀ x ∈ o.keep.keys, x ∈ keys) →
        ∀ x ∈ (l.foldl (fun f o => merge f o.keep) m).keys, x ∈ keys := by
      have hadd : ∀ (l m : Rules), (∀ x ∈ m.keys, x ∈ keys) → (∀ x ∈ l.keys, x ∈ keys) →
          ∀ x ∈ FMap.keys (l.foldl addRule m), x ∈ keys := by
        intro l
        induction l with
        | nil => intro m hm _; exact hm
        | cons y l ih =>
          intro m hm hl
          rw [List.foldl_cons]
          apply ih
          · intro x hx
            unfold addRule FMap.put FMap.keys FMap.erase at hx
            simp only [List.map_cons, List.mem_cons, List.mem_map, List.mem_filter] at hx
            rcases hx with rfl | ⟨z, ⟨hz, _⟩, rfl⟩
            · exact hl _ (by simp [FMap.keys])
            · exact hm _ (List.mem_map.mpr ⟨z, hz, rfl⟩)
          · intro x hx
            exact hl x (by simp only [FMap.keys, List.map_cons, List.mem_cons] at hx ⊢; exact Or.inr hx)
      intro l
      induction l with
      | nil => intro m hm _; exact hm
      | cons o l ih =>
        intro m hm hl
        rw [List.foldl_cons]
        apply ih
        · have : merge m o.keep = o.keep.foldl addRule (m.foldl addRule []) := rfl
          rw [this]
          exact hadd _ _ (hadd _ _ (fun x hx => by cases hx) hm) (hl o (by simp))
        · exact fun p hp => hl p (by simp [hp])
    exact this os [] (fun x hx => by cases hx) hk k hkm

/-- keep `h=b|no_match_ways` and keep `h=b` -/
def exA : Opts := { opts0 with keep := [([104], [([98], getFlags [3])])] }
def exB : Opts := { opts0 with keep := [([104], [([98], getFlags [])])] }

/-- C30, finding: the flags of the first configuration win, so a way that the second one keeps is
not in the filtered file. -/
theorem C30_negation :
    ∃ (os : List Opts) (o : Opts) (a : Attrs), o ∈ os ∧ fKeep o a WAY ≠ 0 ∧ fDrop o a WAY = 0 ∧
      contained (mergeAll os) WAY a = 0 :=
  ⟨[exA, exB], exB, [([104], [98])], by simp, by decide +kernel, by decide +kernel, by decide +kernel⟩

/-! ### examples -/

example : contained (mergeAll [exOpts, exOpts2, exB]) WAY (restrict [[104]] [([104], [98]), ([120], [])]) = 1 := by
  decide +kernel
example : WFR exA.keep := by
  refine ⟨by simp [FMap.WF, FMap.keys, exA], fun k vals h => ?_⟩
  have := FMap.mem_of_get h
  simp only [exA, List.mem_cons, List.not_mem_nil, or_false, Prod.mk.injEq] at this
  rw [this.2]; simp [FMap.WF, FMap.keys]
example : look exB.keep [104] [98] = some 1 ∧ look exOpts2.keep [104] [98] = none := by decide +kernel

/-- one-way `o=y`, two-way `t=*` -/
def exWay : Opts := { opts0 with oneway := [([111], [([121], 1)])], twoway := [([116], [(star, 1)])] }
example : fOneway exWay [([111], [121])] ≠ 0 ∧ fOneway exWay [([111], [121]), ([116], [])] = 0 := by decide +kernel
example : Flagged exWay.oneway := by
  intro k vals h r hr
  have := FMap.mem_of_get h
  simp only [exWay, List.mem_cons, List.not_mem_nil, or_false, Prod.mk.injEq] at this
  rw [this.2] at hr
  simp only [List.mem_cons, List.not_mem_nil, or_false] at hr
  subst hr; rfl

end Verif.Osm
