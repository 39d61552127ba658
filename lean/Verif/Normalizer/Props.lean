import Verif.Normalizer.Model

/-!
# Name normaliser (property C22)
-/

set_option linter.unusedSectionVars false

namespace Verif.Normalizer
variable {S P X : Type} [DecidableEq S]

/-! ### specification -/

/-- `t` results from `s` by applying the rules one after the other. -/
inductive Applied (env : Env S P X) : List (P × S) → S → S → Prop where
  | nil (s : S) : Applied env [] s s
  | cons {p : P} {x : X} {repl s t : S} {rs : List (P × S)} : env.compile p = some x →
      Applied env rs (env.replace x repl s) t → Applied env ((p, repl) :: rs) s t

/-- The rules a history gives to normaliser `i`: those it was created with, or those of the
normaliser it was last copied or assigned from. -/
def rulesOf (env : Env S P X) : List (Op S P) → Nat → Option (List (P × S))
  | [], _ => none
  | op :: earlier, i =>
    match op with
    | .default k => if i = k then some [] else rulesOf env earlier i
    | .create k rs => if i = k ∧ ∀ r ∈ rs, (env.compile r.1).isSome then some rs else rulesOf env earlier i
    | .copy k j =>
      if i = k ∧ (rulesOf env earlier j).isSome then rulesOf env earlier j else rulesOf env earlier i
    | .assign k j =>
      if i = k ∧ (rulesOf env earlier i).isSome ∧ (rulesOf env earlier j).isSome then rulesOf env earlier j
      else rulesOf env earlier i
    | .norm _ _ => rulesOf env earlier i

/-! ### proofs -/

theorem buildRules_isSome (env : Env S P X) (rs : List (P × S)) :
    (buildRules env rs).isSome = true ↔ ∀ r ∈ rs, (env.compile r.1).isSome = true := by
  induction rs with
  | nil => simp [buildRules]
  | cons r rs ih =>
    obtain ⟨p, s⟩ := r
    simp only [buildRules, List.mem_cons, forall_eq_or_imp]
    cases hc : env.compile p with
    | none => simp
    | some x =>
      rw [← ih]
      cases hb : buildRules env rs <;> simp

theorem applied_iff (env : Env S P X) (rs : List (P × S)) : ∀ (cs : List (X × S)) (s t : S),
    buildRules env rs = some cs →
    (Applied env rs s t ↔ t = cs.foldl (fun acc rule => env.replace rule.1 rule.2 acc) s) := by
  induction rs with
  | nil =>
    intro cs s t h
    simp only [buildRules, Option.some.injEq] at h
    subst h
    constructor
    · rintro ⟨⟩; rfl
    · rintro rfl; exact .nil _
  | cons r rs ih =>
    intro cs s t h
    obtain ⟨p, repl⟩ := r
    simp only [buildRules] at h
    cases hc : env.compile p with
    | none => simp [hc] at h
    | some x =>
      cases hb : buildRules env rs with
      | none => simp [hc, hb] at h
      | some ds =>
        simp only [hc, hb, Option.some.injEq] at h
        subst h
        simp only [List.foldl_cons]
        rw [← ih ds _ t hb]
        constructor
        · intro ha
          cases ha with
          | cons hx hr => rw [hc] at hx; cases hx; exact hr
        · intro ha; exact .cons hc ha

/-- Every cached string has the right result. -/
structure Good (env : Env S P X) (n : Normalizer S P X) : Prop where
  built : buildRules env n.rulesOrig = some n.rules
  cache : ∀ s r, n.cache.get s = some r →
    r = env.lower (n.rules.foldl (fun acc rule => env.replace rule.1 rule.2 acc) s)

theorem Good.norm {env : Env S P X} {n : Normalizer S P X} (g : Good env n) (s : S) :
    (n.norm env s).1 = env.lower (n.rules.foldl (fun acc rule => env.replace rule.1 rule.2 acc) s) ∧
    Good env (n.norm env s).2 ∧ (n.norm env s).2.rulesOrig = n.rulesOrig := by
  unfold Normalizer.norm
  cases hg : n.cache.get s with
  | some r => exact ⟨g.cache s r hg, g, rfl⟩
  | none =>
    refine ⟨rfl, ⟨g.built, ?_⟩, rfl⟩
    intro u r hu
    simp only [FMap.get_put] at hu
    split at hu
    · rename_i heq
      cases hu; rw [heq]
    · exact g.cache u r hu

structure Inv (env : Env S P X) (h : List (Op S P)) (st : St S P X) : Prop where
  rules : ∀ i, rulesOf env h i = (st i).map (·.rulesOrig)
  good : ∀ i n, st i = some n → Good env n

theorem run_inv (env : Env S P X) (ops : List (Op S P)) : Inv env ops.reverse (run env ops) := by
  have key : ∀ k : List (Op S P), Inv env k (run env k.reverse) := by
    intro k
    induction k with
    | nil => exact ⟨fun _ => rfl, fun i n h => by simp [run] at h⟩
    | cons op k ih =>
      have hr : run env (op :: k).reverse = (exec env (run env k.reverse) op).1 := by
        simp [run, List.foldl_append]
      rw [hr]
      generalize run env k.reverse = st at ih
      obtain ⟨hru, hgo⟩ := ih
      have setInv : ∀ i n, Good env n → ∀ h' : List (Op S P),
          (∀ k', rulesOf env h' k' = if k' = i then some n.rulesOrig else (st k').map (·.rulesOrig)) →
          Inv env h' (st.set i n) := by
        intro i n hg h' hr'
        refine ⟨?_, ?_⟩
        · intro j
          rw [hr' j]
          by_cases hj : j = i <;> simp [St.set, hj]
        · intro j m hm
          by_cases hj : j = i
          · simp only [St.set, hj, if_true, Option.some.injEq] at hm; exact hm ▸ hg
          · simp only [St.set, hj, if_false] at hm; exact hgo j m hm
      cases op with
      | default i =>
        refine setInv i _ ⟨rfl, fun s r h => by cases h⟩ _ ?_
        intro j
        simp only [rulesOf, hru, Normalizer.empty]
      | create i rs =>
        have hb := buildRules_isSome env rs
        simp only [exec, Normalizer.mk?]
        cases hc : buildRules env rs with
        | none =>
          rw [hc] at hb
          have hn : ¬ ∀ r ∈ rs, (env.compile r.1).isSome = true := fun h => by simpa using hb.mpr h
          refine ⟨fun j => ?_, hgo⟩
          simp only [rulesOf, hn, and_false, if_false]
          exact hru j
        | some cs =>
          rw [hc] at hb
          have hy : ∀ r ∈ rs, (env.compile r.1).isSome = true := hb.mp rfl
          refine setInv i ⟨cs, rs, []⟩ ⟨hc, fun s r h => by cases h⟩ _ ?_
          intro j
          simp only [rulesOf, hru]
          by_cases hj : j = i
          · rw [if_pos ⟨hj, hy⟩, if_pos hj]
          · rw [if_neg (fun h => hj h.1), if_neg hj]
      | copy i j =>
        simp only [exec]
        cases hj : st j with
        | none =>
          refine ⟨fun k' => ?_, hgo⟩
          simp only [rulesOf, hru, hj]
          simp
        | some n =>
          refine setInv i _ (hgo j n hj) _ ?_
          intro k'
          simp only [rulesOf, hru, hj]
          by_cases hk : k' = i <;> simp [hk]
      | assign i j =>
        simp only [exec]
        cases hi : st i with
        | none =>
          refine ⟨fun k' => ?_, hgo⟩
          simp only [rulesOf, hru]
          by_cases hk : k' = i <;> simp [hk, hi]
        | some m =>
          cases hj : st j with
          | none =>
            refine ⟨fun k' => ?_, hgo⟩
            simp only [rulesOf, hru, hj]
            simp
          | some n =>
            refine setInv i _ (hgo j n hj) _ ?_
            intro k'
            simp only [rulesOf, hru, hj]
            by_cases hk : k' = i
            · subst hk; simp [hi]
            · simp [hk]
      | norm i s =>
        simp only [exec]
        cases hi : st i with
        | none => exact ⟨fun k' => by simp only [rulesOf]; exact hru k', hgo⟩
        | some n =>
          obtain ⟨_, g2, g3⟩ := (hgo i n hi).norm s
          refine setInv i _ g2 _ ?_
          intro k'
          simp only [rulesOf, hru]
          by_cases hk : k' = i
          · simp [hk, hi, g3]
          · simp [hk]
  have := key ops.reverse
  simpa using this

/-! ### C22 -/

/-- C22. After every history, normalising `s` with an existing normaliser gives the lower
case of what applying all its rules in order to `s` gives. -/
theorem C22_function (env : Env S P X) (ops : List (Op S P)) (i : Nat) (rs : List (P × S))
    (hi : rulesOf env ops.reverse i = some rs) (s : S) :
    ∃ t, Applied env rs s t ∧ (exec env (run env ops) (.norm i s)).2 = some (env.lower t) := by
  obtain ⟨hr, hg⟩ := run_inv env ops
  rw [hr] at hi
  cases hs : run env ops i with
  | none => rw [hs] at hi; cases hi
  | some n =>
    rw [hs] at hi
    simp only [Option.map_some, Option.some.injEq] at hi
    subst hi
    have g := hg i n hs
    refine ⟨_, (applied_iff env n.rulesOrig n.rules s _ g.built).mpr rfl, ?_⟩
    simp only [exec, hs, (g.norm s).1]

/-- C22. The result is unique, so two normalisers with equal rules agree, in whatever
histories they are. -/
theorem C22_agree (env : Env S P X) (ops ops' : List (Op S P)) (i j : Nat) (rs : List (P × S))
    (hi : rulesOf env ops.reverse i = some rs) (hj : rulesOf env ops'.reverse j = some rs) (s : S) :
    (exec env (run env ops) (.norm i s)).2 = (exec env (run env ops') (.norm j s)).2 := by
  obtain ⟨t, ht, e⟩ := C22_function env ops i rs hi s
  obtain ⟨u, hu, e'⟩ := C22_function env ops' j rs hj s
  obtain ⟨hr, hg⟩ := run_inv env ops
  rw [hr] at hi
  cases hs : run env ops i with
  | none => rw [hs] at hi; cases hi
  | some n =>
    rw [hs] at hi
    simp only [Option.map_some, Option.some.injEq] at hi
    subst hi
    have g := hg i n hs
    rw [applied_iff env _ _ _ _ g.built] at ht hu
    rw [e, e', ht, hu]

/-- C22. Normalisers that compare equal agree on every string. -/
theorem C22_equal [DecidableEq P] (env : Env S P X) (ops : List (Op S P)) (i j : Nat)
    (a b : Normalizer S P X) (ha : run env ops i = some a) (hb : run env ops j = some b)
    (he : a.eq b = true) (s : S) : (a.norm env s).1 = (b.norm env s).1 := by
  obtain ⟨_, hg⟩ := run_inv env ops
  have ga := hg i a ha
  have gb := hg j b hb
  have hro : a.rulesOrig = b.rulesOrig := by simpa [Normalizer.eq] using he
  have h1 := ga.built
  have h2 := gb.built
  rw [hro, h2, Option.some.injEq] at h1
  rw [(ga.norm s).1, (gb.norm s).1, h1]

/-! ### example -/

/-- Strings are lists of numbers; a rule replaces a symbol by a string; lower-casing
subtracts 100 from symbols of 100 or more. Pattern 0 does not compile. -/
def exEnv : Env (List Nat) Nat Nat :=
  ⟨fun p => if p = 0 then none else some p, fun x r s => s.flatMap fun c => if c = x then r else [c],
    fun s => s.map fun c => if 100 ≤ c then c - 100 else c⟩

def exOps : List (Op (List Nat) Nat) :=
  [.create 0 [(1, [2]), (2, [103, 104])], .norm 0 [1, 5], .copy 1 0, .create 0 [(0, [])], .create 2 [(5, [])],
   .assign 1 2, .norm 1 [1, 5]]

example : rulesOf exEnv exOps.reverse 0 = some [(1, [2]), (2, [103, 104])] ∧
    rulesOf exEnv exOps.reverse 1 = some [(5, [])] := by decide

example : (exec exEnv (run exEnv exOps) (.norm 0 [1, 2, 5])).2 = some [3, 4, 3, 4, 5] ∧
    (exec exEnv (run exEnv exOps) (.norm 1 [1, 5])).2 = some [1] := by decide

end Verif.Normalizer
