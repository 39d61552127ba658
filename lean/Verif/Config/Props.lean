import Verif.Config.Model
/-!
# Configuration files (C39, C40)
-/

namespace Verif.Config
open Verif.Names (Str)

/-! ## C39: rules -/

theorem findEq_spec (s : Str) :
    (findEq s = none → 61 ∉ s) ∧ (∀ p, findEq s = some p → s = s.take p ++ 61 :: s.drop (p + 1) ∧ 61 ∉ s.take p) := by
  induction s with
  | nil => simp [findEq]
  | cons c s ih =>
    by_cases h : c = 61
    · subst h
      refine ⟨by simp [findEq], ?_⟩
      intro p hp
      simp [findEq] at hp
      subst hp
      simp
    · simp only [findEq, if_neg h, Option.map_eq_none_iff, Option.map_eq_some_iff]
      refine ⟨fun hn => ?_, ?_⟩
      · have := ih.1 hn
        simp only [List.mem_cons, not_or]
        exact ⟨fun e => h e.symm, this⟩
      · rintro p ⟨q, hq, rfl⟩
        obtain ⟨h1, h2⟩ := ih.2 q hq
        refine ⟨?_, ?_⟩
        · simp only [List.take_succ_cons, List.cons_append, List.drop_succ_cons, List.cons.injEq, true_and]
          exact h1
        · simp only [List.take_succ_cons, List.mem_cons, not_or]
          exact ⟨fun e => h e.symm, h2⟩

/-- **C39 (key and value).** A rule with `=` is split at the first one: joining gives the rule, the key contains no
`=`, and the value can. A rule without one is the key. -/
theorem C39_kv (s : Str) :
    (61 ∈ s → s = (getKv s).1 ++ [61] ++ (getKv s).2 ∧ 61 ∉ (getKv s).1) ∧ (61 ∉ s → getKv s = (s, [])) := by
  obtain ⟨h1, h2⟩ := findEq_spec s
  unfold getKv
  cases h : findEq s with
  | none =>
    have := h1 h
    exact ⟨fun hm => absurd hm this, fun _ => rfl⟩
  | some p =>
    obtain ⟨e, hn⟩ := h2 p h
    refine ⟨fun _ => ⟨by simpa using e, hn⟩, fun hm => ?_⟩
    exact absurd (by rw [e]; simp) hm

example : getKv [97, 61, 98, 61, 99] = ([97], [98, 61, 99]) ∧ getKv [97] = ([97], []) ∧ getKv [97, 61] = ([97], []) := by decide

/-- The flag a name stands for. -/
def flagNames : List (Str × Nat) := [(sRelFlat, 1), (sNoRels, 2), (sNoWays, 3), (sNoNds, 4), (sMult, 5)]

theorem testBit_pow (i k : Nat) : (2 ^ k).testBit i = decide (i = k) := by
  rw [Nat.testBit_two_pow]
  simp [eq_comm]

theorem flags_fold (flags : List Str) : ∀ (r i : Nat),
    (flags.foldl (fun r f =>
      if f = sRelFlat then r ||| 2 else if f = sNoNds then r ||| 16 else if f = sNoRels then r ||| 4
      else if f = sNoWays then r ||| 8 else if f = sMult then r ||| 32 else r) r).testBit i = true ↔
    r.testBit i = true ∨ ∃ n ∈ flags, (n, i) ∈ flagNames := by
  induction flags with
  | nil => simp
  | cons f flags ih =>
    intro r i
    rw [List.foldl_cons, ih]
    have key : ((if f = sRelFlat then r ||| 2 else if f = sNoNds then r ||| 16 else if f = sNoRels then r ||| 4
      else if f = sNoWays then r ||| 8 else if f = sMult then r ||| 32 else r).testBit i = true) ↔
        (r.testBit i = true ∨ (f, i) ∈ flagNames) := by
      have e2 := testBit_pow i 1
      have e4 := testBit_pow i 2
      have e8 := testBit_pow i 3
      have e16 := testBit_pow i 4
      have e32 := testBit_pow i 5
      simp only [Nat.reducePow] at e2 e4 e8 e16 e32
      by_cases h1 : f = sRelFlat
      · subst h1
        simp [Nat.testBit_or, e2, flagNames, sRelFlat, sNoNds, sNoRels, sNoWays, sMult]
      rw [if_neg h1]
      by_cases h2 : f = sNoNds
      · subst h2
        simp [Nat.testBit_or, e16, flagNames, sRelFlat, sNoNds, sNoRels, sNoWays, sMult]
      rw [if_neg h2]
      by_cases h3 : f = sNoRels
      · subst h3
        simp [Nat.testBit_or, e4, flagNames, sRelFlat, sNoNds, sNoRels, sNoWays, sMult]
      rw [if_neg h3]
      by_cases h4 : f = sNoWays
      · subst h4
        simp [Nat.testBit_or, e8, flagNames, sRelFlat, sNoNds, sNoRels, sNoWays, sMult]
      rw [if_neg h4]
      by_cases h5 : f = sMult
      · subst h5
        simp [Nat.testBit_or, e32, flagNames, sRelFlat, sNoNds, sNoRels, sNoWays, sMult]
      rw [if_neg h5]
      simp [flagNames, h1, h2, h3, h4, h5]
    rw [key, or_assoc]
    simp only [List.mem_cons, or_and_right, exists_or, exists_eq_left]

/-- **C39 (flags).** Apart from the lowest bit, which is always set, a bit of the result is set if and only if a flag with this bit was
given. -/
theorem C39_flags (flags : List Str) (i : Nat) :
    (getFlags flags).testBit i = true ↔ i = 0 ∨ ∃ n ∈ flags, (n, i) ∈ flagNames := by
  have h := flags_fold flags 1 i
  have e : (1 : Nat).testBit i = decide (i = 0) := testBit_pow i 0
  rw [e] at h
  simpa [getFlags] using h

/-- **C39 (order).** The flags depend neither on the order nor on repetitions. -/
theorem C39_order (a b : List Str) (h : ∀ n, n ∈ a ↔ n ∈ b) : getFlags a = getFlags b := by
  refine Nat.eq_of_testBit_eq fun i => ?_
  rw [Bool.eq_iff_iff, C39_flags, C39_flags]
  simp only [h]

example : getFlags [sMult, sNoNds, [120]] = 49 ∧ getFlags [sNoNds, sMult, sNoNds] = 49 := by decide

theorem insertRule_mem (m : Filter) (kv : Str × Str) (fl : Nat) (e : (Str × Str) × Nat) :
    e ∈ insertRule m kv fl ↔ e ∈ m ∨ (e = (kv, fl) ∧ ∀ x ∈ m, x.1 ≠ kv) := by
  unfold insertRule
  split
  case isTrue h =>
    obtain ⟨x, hx, hk⟩ := List.any_eq_true.1 h
    have hk : x.1 = kv := by simpa using hk
    refine ⟨.inl, ?_⟩
    rintro (h | ⟨-, h⟩)
    · exact h
    · exact absurd hk (h x hx)
  case isFalse h =>
    have h' : ∀ x ∈ m, x.1 ≠ kv := by
      intro x hx e
      exact h (List.any_eq_true.2 ⟨x, hx, by simpa using e⟩)
    simp only [List.mem_append, List.mem_singleton]
    exact ⟨fun h => h.imp_right fun e => ⟨e, h'⟩, fun h => h.imp_right fun e => e.1⟩

/-- **C39 (filters).** A filter has an entry for a key and value with these flags if and only if a rule has them, and
no rule before it has the same key and value. -/
theorem C39_filter (rules : List (Str × List Str)) (kv : Str × Str) (fl : Nat) :
    (kv, fl) ∈ getFilter rules ↔
      ∃ (i : Nat) (r : Str × List Str), rules[i]? = some r ∧ getKv r.1 = kv ∧ getFlags r.2 = fl ∧
        ∀ (k : Nat) (q : Str × List Str), k < i → rules[k]? = some q → getKv q.1 ≠ kv := by
  have h : ∀ (rules : List (Str × List Str)) (m : Filter),
      (kv, fl) ∈ rules.foldl (fun m r => insertRule m (getKv r.1) (getFlags r.2)) m ↔
      (kv, fl) ∈ m ∨ ((∀ x ∈ m, x.1 ≠ kv) ∧
      ∃ (i : Nat) (r : Str × List Str), rules[i]? = some r ∧ getKv r.1 = kv ∧ getFlags r.2 = fl ∧
        ∀ (k : Nat) (q : Str × List Str), k < i → rules[k]? = some q → getKv q.1 ≠ kv) := by
    intro rules
    induction rules with
    | nil => intro m; simp
    | cons r rules ih =>
      intro m
      rw [List.foldl_cons, ih, insertRule_mem]
      constructor
      · rintro ((h | ⟨e, h⟩) | ⟨h, i, q, h1, h2, h3, h4⟩)
        · exact .inl h
        · cases e
          exact .inr ⟨h, 0, r, rfl, rfl, rfl, by omega⟩
        · right
          refine ⟨fun x hx => h x ((insertRule_mem _ _ _ _).2 (.inl hx)), ?_⟩
          refine ⟨i + 1, q, by simpa using h1, h2, h3, ?_⟩
          intro k q' hk hq'
          cases k with
          | zero =>
            simp at hq'
            subst hq'
            intro e
            by_cases hm : ∀ x ∈ m, x.1 ≠ getKv r.1
            · exact h (getKv r.1, getFlags r.2) ((insertRule_mem _ _ _ _).2 (.inr ⟨rfl, hm⟩)) e
            · simp only [ne_eq, Classical.not_forall, Classical.not_not] at hm
              obtain ⟨x, hx, ex⟩ := hm
              exact h x ((insertRule_mem _ _ _ _).2 (.inl hx)) (ex.trans e)
          | succ k => exact h4 k q' (by omega) (by simpa using hq')
      · rintro (h | ⟨h, i, q, h1, h2, h3, h4⟩)
        · exact .inl (.inl h)
        · cases i with
          | zero =>
            simp at h1
            subst h1
            subst h2 h3
            exact .inl (.inr ⟨rfl, h⟩)
          | succ i =>
            right
            refine ⟨?_, i, q, by simpa using h1, h2, h3, ?_⟩
            · intro x hx
              rcases (insertRule_mem _ _ _ _).1 hx with hx | ⟨e, -⟩
              · exact h x hx
              · rw [e]
                exact h4 0 r (by omega) rfl
            · intro k q' hk hq'
              exact h4 (k + 1) q' (by omega) (by simpa using hq')
  rw [getFilter, h]
  simp

/-- **C39 (limit).** Flags of two rules with the same key and value are not united; the rule that comes first counts. -/
theorem C39_limit_first_rule : ∃ a b : Str × List Str, getFilter [a, b] ≠ getFilter [b, a] ∧ a.1 = b.1 ∧
    getFilter [a, b] = [(getKv a.1, getFlags a.2)] :=
  ⟨([97, 61, 98], [sNoNds]), ([97, 61, 98], [sNoWays]), by decide⟩

/-- What is left of the text of one side of a rule: quotes around it are removed. -/
def Side (s t : Str) : Prop := s = [39] ++ t ++ [39] ∨ (s = t ∧ ¬ ∃ u, s = [39] ++ u ++ [39])

theorem unquote_side (s : Str) : Side s (unquote s) := by
  unfold unquote
  split
  case isTrue h =>
    simp only [Bool.and_eq_true, decide_eq_true_eq, beq_iff_eq] at h
    obtain ⟨⟨hl, hh⟩, ht⟩ := h
    left
    cases s with
    | nil => simp at hl
    | cons a s =>
      simp only [List.head?_cons, Option.some.injEq] at hh
      subst hh
      have hne : s ≠ [] := by rintro rfl; simp at hl
      rw [List.getLast?_cons_of_ne_nil hne] at ht
      have := List.dropLast_concat_getLast hne
      rw [List.getLast?_eq_some_getLast hne, Option.some.injEq] at ht
      rw [ht] at this
      simp only [List.length_cons, List.drop_succ_cons, List.drop_zero, List.cons_append, List.nil_append]
      rw [show s.length + 1 - 2 = s.length - 1 by omega, ← List.dropLast_eq_take]
      rw [this]
  case isFalse h =>
    right
    refine ⟨rfl, ?_⟩
    rintro ⟨u, rfl⟩
    apply h
    have : ([39] ++ u ++ [39] : Str).getLast? = some 39 := List.getLast?_concat
    rw [this]
    simp

/-- ` -> ` -/
def arrow : Str := [32, 45, 62, 32]

/-- The text contains ` -> `. -/
def HasArrow (a : Str) : Prop := ∃ x y, a = x ++ arrow ++ y

/-- The meaning of one rule: it is split at the first ` -> `, and quotes around the sides are removed. -/
def Rule (a : Str) (l : Str × Str) : Prop :=
  ∃ x y, a = x ++ arrow ++ y ∧ (∀ x' y', a = x' ++ arrow ++ y' → x.length ≤ x'.length) ∧ Side x l.1 ∧ Side y l.2

/-- The meaning of a list of rules: those without ` -> ` are ignored. -/
inductive Rules : List Str → List (Str × Str) → Prop
  | nil : Rules [] []
  | skip {a arr ls} : ¬ HasArrow a → Rules arr ls → Rules (a :: arr) ls
  | cons {a arr l ls} : Rule a l → Rules arr ls → Rules (a :: arr) (l :: ls)

theorem findArrow_some : ∀ (a : Str) (p : Nat), findArrow a = some p →
    a = a.take p ++ arrow ++ a.drop (p + 4) ∧ ∀ x' y', a = x' ++ arrow ++ y' → p ≤ x'.length := by
  intro a
  induction a with
  | nil => simp [findArrow]
  | cons c a ih =>
    intro p hp
    rw [findArrow] at hp
    split at hp
    case isTrue h =>
      cases hp
      have := List.take_append_drop 4 (c :: a)
      rw [h] at this
      exact ⟨by simpa [arrow] using this.symm, fun _ _ _ => Nat.zero_le _⟩
    case isFalse h =>
      simp only [Option.map_eq_some_iff] at hp
      obtain ⟨q, hq, rfl⟩ := hp
      obtain ⟨h1, h2⟩ := ih q hq
      refine ⟨?_, ?_⟩
      · rw [show q + 1 + 4 = (q + 4) + 1 by omega, List.drop_succ_cons, List.take_succ_cons, List.cons_append, List.cons_append, ← h1]
      · intro x' y' he
        cases x' with
        | nil => exact absurd (by rw [he]; rfl) h
        | cons d x' =>
          simp only [List.cons_append, List.cons.injEq] at he
          have := h2 x' y' (by simpa using he.2)
          simpa using this

theorem findArrow_none : ∀ (a : Str), findArrow a = none → ¬ HasArrow a := by
  intro a
  induction a with
  | nil => rintro - ⟨x, y, h⟩; simp [arrow] at h
  | cons c a ih =>
    rintro h ⟨x, y, he⟩
    rw [findArrow] at h
    split at h
    · cases h
    case isFalse hc =>
      have ih := ih (by simpa using h)
      cases x with
      | nil => exact hc (by rw [he]; rfl)
      | cons d x =>
        simp only [List.cons_append, List.cons.injEq] at he
        exact ih ⟨x, y, by simpa using he.2⟩

/-- **C39 (normalisation rules).** Every rule is split at the first ` -> `, quotes around both sides are removed, and rules
without ` -> ` are ignored. -/
theorem C39_norm_rules (arr : List Str) : Rules arr (getNormRules arr) := by
  induction arr with
  | nil => exact .nil
  | cons a arr ih =>
    rw [getNormRules, List.filterMap_cons]
    cases h : findArrow a with
    | none => exact .skip (findArrow_none a h) ih
    | some p =>
      obtain ⟨h1, h2⟩ := findArrow_some a p h
      refine .cons ⟨_, _, h1, ?_, unquote_side _, unquote_side _⟩ ih
      intro x' y' he
      rw [List.length_take]
      exact Nat.le_trans (Nat.min_le_left _ _) (h2 x' y' he)

/-- `'a b' -> c` -/
example : getNormRules [[39, 97, 32, 98, 39, 32, 45, 62, 32, 99], [120]] = [([97, 32, 98], [99])] := by decide

end Verif.Config
