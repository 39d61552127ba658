import Verif.Trie.Props

/-!
# Trip trie: all filed trips share the first departure

Node 1 is the only child of the root: `ShapeBuilder.cpp:778` relies on it.
-/

namespace Verif.Trie
variable {T P A : Type}

/-- No node but node 1 hangs below the root. -/
def OneRoot (nds : List (Nd P A)) : Prop := ∀ (i : Nat) n, nds[i + 1]? = some n → n.parent = 0 → i = 0

theorem OneRoot.set {nds : List (Nd P A)} (h : OneRoot nds) {c : Nat} {n m : Nd P A} (hn : nds[c]? = some n)
    (hp : m.parent = n.parent) : OneRoot (nds.set c m) := by
  intro i k hk h0
  by_cases hc : c = i + 1
  · subst hc
    have hl := (List.getElem?_eq_some_iff.mp hn).1
    rw [List.getElem?_set_self hl] at hk
    cases hk
    exact h i n hn (hp ▸ h0)
  · rw [List.getElem?_set_ne hc] at hk
    exact h i k hk h0

theorem OneRoot.insert {nds nds' : List (Nd P A)} {st : StopTime P} {a : A} {time : Int} {arr : Bool} {cur c : Nat}
    (hl : nds ≠ []) (h : OneRoot nds) (h0 : cur ≠ 0 ∨ nds.length = 1)
    (e : insert st a time arr nds cur = some (nds', c)) : OneRoot nds' ∧ c ≠ 0 ∧ nds' ≠ [] := by
  unfold Trie.insert at e
  have hpos : 0 < nds.length := List.length_pos_iff.mpr hl
  generalize hx : nds ++ [(⟨st.name, st.platform, st.pos, time, arr, time, 1, cur, [], a⟩ : Nd P A)] = xs at e
  have hxl : xs.length = nds.length + 1 := by rw [← hx]; simp
  have hxo : OneRoot xs := by
    intro i n hn hp
    rw [← hx] at hn
    by_cases hi : i + 1 < nds.length
    · rw [List.getElem?_append_left hi] at hn; exact h i n hn hp
    · have := (List.getElem?_eq_some_iff.mp hn).1
      have hi' : i + 1 = nds.length := by simp at this; omega
      rw [hi'] at hn
      simp only [List.getElem?_append_right (Nat.le_refl _), Nat.sub_self, List.getElem?_cons_zero,
        Option.some.injEq] at hn
      subst hn
      rcases h0 with h0 | h0
      · exact absurd hp h0
      · omega
  simp only at e
  cases hp : xs[cur]? with
  | none => rw [hp] at e; cases e
  | some p =>
    rw [hp] at e
    simp only [Option.some.injEq, Prod.mk.injEq] at e
    obtain ⟨e1, rfl⟩ := e
    subst e1
    refine ⟨hxo.set hp rfl, by omega, ?_⟩
    intro hn
    have := congrArg List.length hn
    simp at this
    subst this
    simp at hxl

theorem visit_oneRoot {env : Env T P A} {tx : Bool} {a : A} {rej : Bool} {st : StopTime P} {time : Int} {arr : Bool}
    {nds nds' : List (Nd P A)} {cur c : Nat} (hl : nds ≠ []) (h : OneRoot nds)
    (h0 : cur ≠ 0 ∨ rej = true ∨ nds.length = 1)
    (e : visit env tx a rej st time arr nds cur = some (true, nds', c)) : OneRoot nds' ∧ c ≠ 0 ∧ nds' ≠ [] := by
  unfold visit at e
  split at e
  · cases e
  · split at e
    · cases e
    · rename_i hr
      split at e
      · cases e
      · rename_i hi
        cases e
        refine h.insert hl ?_ hi
        rcases h0 with h0 | h0 | h0
        · exact Or.inl h0
        · exact absurd h0 hr
        · exact Or.inr h0
  · rename_i k hk
    unfold bump at e
    cases hn : nds[k + 1]? with
    | none => rw [hn] at e; cases e
    | some n =>
      rw [hn] at e
      simp only [Option.some.injEq, Prod.mk.injEq, true_and] at e
      obtain ⟨rfl, rfl⟩ := e
      exact ⟨h.set hn rfl, by omega, by simpa using hl⟩

theorem addLoop_oneRoot {env : Env T P A} {tx : Bool} {a : A} {start : Int} {filed : Bool} :
    ∀ (sts : List (StopTime P)) (first : Bool) (nds : List (Nd P A)) (cur : Nat) (nds' : List (Nd P A)) (c : Nat),
      nds ≠ [] → OneRoot nds → (first = true → filed = false → nds.length = 1) → (first = false → cur ≠ 0) →
      addLoop env tx a start filed first sts nds cur = some (true, nds', c) → OneRoot nds' := by
  intro sts
  induction sts with
  | nil =>
    intro first nds cur nds' c hl h _ _ e
    simp only [addLoop, Option.some.injEq, Prod.mk.injEq, true_and] at e
    rw [← e.1]; exact h
  | cons st rest ih =>
    intro first nds cur nds' c hl h hf hc e
    rw [addLoop] at e
    split at e
    · cases e
    · simp at e
    · rename_i nds1 cur1 he
      have h1 : OneRoot nds1 ∧ nds1 ≠ [] ∧ (first = true → nds1 = nds ∧ cur1 = cur) ∧ (first = false → cur1 ≠ 0) := by
        cases first with
        | true =>
          simp only [if_true, Option.some.injEq, Prod.mk.injEq, true_and] at he
          obtain ⟨rfl, rfl⟩ := he
          exact ⟨h, hl, fun _ => ⟨rfl, rfl⟩, fun h => by cases h⟩
        | false =>
          simp only [Bool.false_eq_true, if_false] at he
          obtain ⟨g1, g2, g3⟩ := visit_oneRoot hl h (Or.inl (hc rfl)) he
          exact ⟨g1, g3, fun hh => Bool.noConfusion hh, fun _ => g2⟩
      split at e
      · cases e
      · simp at e
      · rename_i nds2 cur2 he2
        cases hr : rest.isEmpty with
        | true =>
          rw [hr] at he2
          simp only [if_true, Option.some.injEq, Prod.mk.injEq, true_and] at he2
          obtain ⟨rfl, rfl⟩ := he2
          have : rest = [] := by simpa using hr
          subst this
          simp only [addLoop, Option.some.injEq, Prod.mk.injEq, true_and] at e
          rw [← e.1]; exact h1.1
        | false =>
          rw [hr] at he2
          simp only [Bool.false_eq_true, if_false] at he2
          obtain ⟨g1, g2, g3⟩ := visit_oneRoot h1.2.1 h1.1 (by
            cases first with
            | false => exact Or.inl (h1.2.2.2 rfl)
            | true =>
              right
              cases hfl : filed with
              | true => left; rfl
              | false => right; rw [(h1.2.2.1 rfl).1]; exact hf rfl hfl) he2
          exact ih false nds2 cur2 nds' c g3 g1 (fun h => by cases h) (fun _ => g2) e

theorem addTrip_oneRoot [DecidableEq T] {env : Env T P A} {tr tr' : Trie T P A} {op : Op T A} {b : Bool}
    (hl : tr.nds ≠ []) (h : OneRoot tr.nds) (hf : tr.tripNds = [] → tr.nds.length = 1)
    (hrej : b = false → tr' = tr)
    (e : tr.addTrip env op.t op.a op.timeEx op.degen = some (b, tr')) :
    OneRoot tr'.nds ∧ (tr'.tripNds = [] → tr'.nds.length = 1) := by
  cases b with
  | false => rw [hrej rfl]; exact ⟨h, hf⟩
  | true =>
    unfold Trie.addTrip at e
    split at e
    · split at e
      · cases e
      · split at e
        · split at e
          · cases e
          · split at e
            · cases e
              exact ⟨h, by simp [Trie.file, assign]⟩
            · simp at e
        · simp at e
    · unfold Trie.add at e
      split at e
      · simp at e
      · split at e
        · cases e
        · simp at e
        · rename_i nds' cur' hh
          cases e
          refine ⟨?_, by simp [Trie.file, assign]⟩
          refine addLoop_oneRoot _ true tr.nds 0 nds' cur' hl h ?_ (fun h => by cases h) hh
          intro _ hz
          apply hf
          cases ht : tr.tripNds with
          | nil => rfl
          | cons x xs => rw [ht] at hz; simp at hz

/-- After every history, node 1 is the only node below the root. -/
theorem oneRoot_history [DecidableEq T] (env : Env T P A) (hnear : ∀ p, env.near p p = true)
    (ops : List (Op T A)) : ∀ (tr : Trie T P A) (log : List (Op T A × Nat)), Inv env tr log → OneRoot tr.nds →
      (tr.tripNds = [] → tr.nds.length = 1) → ∀ tr' log', run env ops (tr, log) = some (tr', log') →
      OneRoot tr'.nds := by
  induction ops with
  | nil => intro tr log _ h _ tr' log' e; cases e; exact h
  | cons op ops ih =>
    intro tr log I h hf tr' log' e
    have hl : tr.nds ≠ [] := List.length_pos_iff.mp I.wf.pos
    rcases addTrip_spec env hnear I op with ⟨hr, _⟩ | ⟨tr1, nid, hr, F⟩
    · simp only [run, hr] at e
      exact ih tr log I h hf tr' log' e
    · obtain ⟨g1, g2⟩ := addTrip_oneRoot hl h hf (fun h => by cases h) hr
      simp only [run, hr] at e
      have : tr1.tripNds.lookup op.t = some nid := by
        rw [F.tripNds]; exact lookup_assign _ _ _
      rw [this] at e
      exact ih tr1 _ F.inv g1 g2 tr' log' e

end Verif.Trie
