import Verif.OsmIdSet.Lemmas

/-!
# OSM id set (properties)

C02 no false negatives, C03 no invented ids, C04 external sort, C05 queries do
not disturb and freeze the set.
-/

namespace Verif.OsmIdSet

/-! ## Specification -/

/-- A call of the public interface. -/
inductive Op where
  | add (id : Nat)
  | nadd (id : Nat)
  | has (id : Nat)
deriving DecidableEq

/-- What a caller observes. `fault` is undefined behaviour or a failed assertion. -/
inductive Out where
  | done
  | thrown
  | ans (b : Bool)
  | fault
deriving DecidableEq, Repr

/-- One call. A throwing call leaves the object as it was (the check is the
first statement of `add` and `nadd`). -/
def step (P : Params) (s : St) : Op → Out × St
  | .add id => match add P s id with
    | none => (.thrown, s)
    | some s => (.done, s)
  | .nadd id => match nadd P s id with
    | none => (.thrown, s)
    | some s => (.done, s)
  | .has id => match has P s id with
    | none => (.fault, s)
    | some (b, s) => (.ans b, s)

/-- The object after a history of calls. -/
def exec (P : Params) (h : List Op) : St := h.foldl (fun s op => (step P s op).2) init

/-- The observation made by one more call. -/
def observe (P : Params) (h : List Op) (op : Op) : Out := (step P (exec P h) op).1

/-- Is the call a query? -/
def Op.isHas : Op → Bool
  | .has _ => true
  | _ => false

/-- Calls before the first query. -/
def beforeQuery (h : List Op) : List Op := h.takeWhile (fun op => !op.isHas)

/-- The id a call adds. -/
def Op.addId : Op → Option Nat
  | .add id => some id
  | _ => none

/-- The id a call marks as 'not in'. -/
def Op.naddId : Op → Option Nat
  | .nadd id => some id
  | _ => none

/-- Ids added before the first query, in order. -/
def added (h : List Op) : List Nat := (beforeQuery h).filterMap Op.addId

/-- Ids marked as 'not in' before the first query. -/
def marked (h : List Op) : List Nat := (beforeQuery h).filterMap Op.naddId

/-- Does the history contain a query? -/
def queried (h : List Op) : Bool := h.any Op.isHas

/-- All added ids are 64 bit numbers. -/
def Ids64 (h : List Op) : Prop := ∀ id, Op.add id ∈ h → id ≤ maxId

/-! ## Main invariant -/

theorem exec_append (P : Params) (h : List Op) (op : Op) :
    exec P (h ++ [op]) = (step P (exec P h) op).2 := by simp [exec]

theorem beforeQuery_append (h : List Op) (op : Op) :
    beforeQuery (h ++ [op]) = if queried h then beforeQuery h
      else if op.isHas then h else h ++ [op] := by
  induction h with
  | nil => cases op <;> simp [beforeQuery, queried, Op.isHas]
  | cons a h ih =>
    cases a with
    | has id => simp [beforeQuery, queried, Op.isHas]
    | add id =>
      have e : ∀ l, beforeQuery (Op.add id :: l) = Op.add id :: beforeQuery l := fun l => by
        simp [beforeQuery, Op.isHas]
      have e2 : queried (Op.add id :: h) = queried h := by simp [queried, Op.isHas]
      rw [List.cons_append, e, e, ih, e2]
      split
      · rfl
      · split <;> rfl
    | nadd id =>
      have e : ∀ l, beforeQuery (Op.nadd id :: l) = Op.nadd id :: beforeQuery l := fun l => by
        simp [beforeQuery, Op.isHas]
      have e2 : queried (Op.nadd id :: h) = queried h := by simp [queried, Op.isHas]
      rw [List.cons_append, e, e, ih, e2]
      split
      · rfl
      · split <;> rfl

theorem beforeQuery_eq (h : List Op) (hq : queried h = false) : beforeQuery h = h := by
  unfold beforeQuery
  induction h with
  | nil => rfl
  | cons a h ih =>
    simp only [queried, List.any_cons, Bool.or_eq_false_iff] at hq ih
    simp [hq.1, ih hq.2]

theorem added_append (h : List Op) (op : Op) :
    added (h ++ [op]) = if queried h then added h else added h ++ op.addId.toList := by
  unfold added
  rw [beforeQuery_append]
  cases hq : queried h with
  | true => rfl
  | false => rw [beforeQuery_eq h hq]; cases op <;> simp [Op.isHas, Op.addId]

theorem marked_append (h : List Op) (op : Op) :
    marked (h ++ [op]) = if queried h then marked h else marked h ++ op.naddId.toList := by
  unfold marked
  rw [beforeQuery_append]
  cases hq : queried h with
  | true => rfl
  | false => rw [beforeQuery_eq h hq]; cases op <;> simp [Op.isHas, Op.naddId]

theorem queried_append (h : List Op) (op : Op) : queried (h ++ [op]) =
    (queried h || op.isHas) := by
  simp [queried]

theorem mem_added {h : List Op} {id : Nat} (hm : id ∈ added h) : Op.add id ∈ h := by
  unfold added at hm
  obtain ⟨op, h1, h2⟩ := List.mem_filterMap.mp hm
  have := (List.takeWhile_sublist (l := h) (fun op : Op => !op.isHas)).subset h1
  cases op <;> simp [Op.addId] at h2
  subst h2; exact this

/-- What one more query returns and the state it leaves, before or after the
first query. -/
theorem has_spec {P : Params} (hB : 0 < P.B) (hS : 0 < P.S) {A N : List Nat} {s : St}
    (hA : ∀ x ∈ A, x ≤ maxId) (h : OpenInv P A N s ∨ ClosedInv P A N s) (id : Nat) :
    ∃ b s', has P s id = some (b, s') ∧ ClosedInv P A N s' ∧
      (id ∈ A → b = true) ∧ ((N = [] ∨ id ∈ N) → b = true → id ∈ A) := by
  rcases h with h | h
  · obtain ⟨s', e, hc⟩ := close_inv hB hS h hA
    obtain ⟨b, s'', e', r⟩ := hasClosed_answer hB hc id
    exact ⟨b, s'', by unfold has; rw [h.isOpen]; simp [e, e'], r⟩
  · obtain ⟨b, s'', e', r⟩ := hasClosed_answer hB h id
    exact ⟨b, s'', by unfold has; rw [h.isClosed]; simp [e'], r⟩

theorem exec_inv (P : Params) (hB : 0 < P.B) (hS : 0 < P.S) (h : List Op) (h64 : Ids64 h) :
    if queried h then ClosedInv P (added h) (marked h) (exec P h)
    else OpenInv P (added h) (marked h) (exec P h) := by
  suffices H : ∀ r : List Op, Ids64 r.reverse →
      if queried r.reverse then ClosedInv P (added r.reverse) (marked r.reverse) (exec P r.reverse)
      else OpenInv P (added r.reverse) (marked r.reverse) (exec P r.reverse) by
    have := H h.reverse (by simpa using h64)
    simpa using this
  intro r
  induction r with
  | nil => intro _; simp [queried, added, marked, beforeQuery, exec]; exact init_inv P hB
  | cons op r ih =>
    intro h64
    rw [List.reverse_cons] at *
    have h64' : Ids64 r.reverse := fun id hm => h64 id (List.mem_append_left _ hm)
    have ih := ih h64'
    generalize hh : r.reverse = h at *
    have hA : ∀ x ∈ added h, x ≤ maxId := fun x hx => h64' x (mem_added hx)
    rw [exec_append, queried_append]
    rw [added_append, marked_append]
    cases hq : queried h with
    | true =>
      rw [hq] at ih
      simp only [if_true, Bool.true_or] at ih ⊢
      cases op with
      | add id =>
        have : step P (exec P h) (.add id) = (.thrown, exec P h) := by
          simp [step, add, ih.isClosed]
        rw [this]; exact ih
      | nadd id =>
        have : step P (exec P h) (.nadd id) = (.thrown, exec P h) := by
          simp [step, nadd, ih.isClosed]
        rw [this]; exact ih
      | has id =>
        obtain ⟨b, s', e, hc, _⟩ := has_spec hB hS hA (Or.inr ih) id
        have : step P (exec P h) (.has id) = (.ans b, s') := by simp [step, e]
        rw [this]; exact hc
    | false =>
      rw [hq] at ih
      simp only [Bool.false_eq_true, if_false, Bool.false_or] at ih ⊢
      cases op with
      | add id =>
        obtain ⟨s', e, hi⟩ := add_inv hB ih id (h64 id (by simp))
        have : step P (exec P h) (.add id) = (.done, s') := by simp [step, e]
        rw [this]; simpa [Op.addId, Op.naddId, Op.isHas] using hi
      | nadd id =>
        obtain ⟨s', e, hi⟩ := nadd_inv ih id
        have : step P (exec P h) (.nadd id) = (.done, s') := by simp [step, e]
        rw [this]; simpa [Op.addId, Op.naddId, Op.isHas] using hi
      | has id =>
        obtain ⟨b, s', e, hc, _⟩ := has_spec hB hS hA (Or.inl ih) id
        have : step P (exec P h) (.has id) = (.ans b, s') := by simp [step, e]
        rw [this]; simpa [Op.addId, Op.naddId, Op.isHas] using hc

theorem observe_has (P : Params) (hB : 0 < P.B) (hS : 0 < P.S) (h : List Op) (h64 : Ids64 h)
    (id : Nat) : ∃ b, observe P h (.has id) = .ans b ∧ (id ∈ added h → b = true) ∧
      ((marked h = [] ∨ id ∈ marked h) → b = true → id ∈ added h) := by
  have hi := exec_inv P hB hS h h64
  have hA : ∀ x ∈ added h, x ≤ maxId := fun x hx => h64 x (mem_added hx)
  have hor : OpenInv P (added h) (marked h) (exec P h) ∨
      ClosedInv P (added h) (marked h) (exec P h) := by
    split at hi
    · exact Or.inr hi
    · exact Or.inl hi
  obtain ⟨b, s', e, _, h1, h2⟩ := has_spec hB hS hA hor id
  exact ⟨b, by simp [observe, step, e], h1, h2⟩

/-! ## Property theorems -/

/-- **C02.** Whatever was called before, a query for an added id answers true. -/
theorem C02_no_false_negative (P : Params) (hB : 0 < P.B) (hS : 0 < P.S) (h : List Op)
    (h64 : Ids64 h) (id : Nat) (hm : id ∈ added h) : observe P h (.has id) = .ans true := by
  obtain ⟨b, e, h1, _⟩ := observe_has P hB hS h h64 id
  rw [e, h1 hm]

/-- **C03.** If nothing was marked 'not in', or the queried id itself was marked,
the answer is exact: true iff the id was added. -/
theorem C03_exact_answer (P : Params) (hB : 0 < P.B) (hS : 0 < P.S) (h : List Op)
    (h64 : Ids64 h) (id : Nat) (hN : marked h = [] ∨ id ∈ marked h) :
    observe P h (.has id) = .ans (decide (id ∈ added h)) := by
  obtain ⟨b, e, h1, h2⟩ := observe_has P hB hS h h64 id
  rw [e]
  congr 1
  by_cases hm : id ∈ added h
  · simp [hm, h1 hm]
  · cases b with
    | true => exact absurd (h2 hN rfl) hm
    | false => simp [hm]

/-- **C03 (limit).** The proviso is needed: an id neither added nor marked is
reported as contained if it collides with an added id but not with the marked
ones. -/
theorem C03_false_positive_exists : ∃ (P : Params) (h : List Op) (id : Nat),
    0 < P.B ∧ 0 < P.S ∧ Ids64 h ∧ id ∉ added h ∧ observe P h (.has id) = .ans true := by
  refine ⟨⟨2, 2, 1000, fun x => x % 2, fun _ => 2⟩, [.add 10, .add 30, .nadd 11], 20,
    by decide, by decide, ?_, by decide, by decide⟩
  intro id hm
  simp at hm
  rcases hm with rfl | rfl <;> decide

/-- **C04.** After the first query the file holds exactly the added ids, with
multiplicity, in ascending order; the block index holds the last id of every
full block, possibly followed by the largest id. -/
theorem C04_external_sort (P : Params) (hB : 0 < P.B) (hS : 0 < P.S) (h : List Op)
    (h64 : Ids64 h) (hq : queried h = true) :
    (exec P h).file.Perm (added h) ∧ (exec P h).file.Pairwise (· ≤ ·) ∧
    (∃ rest, (exec P h).blockEnds = blockLasts P.B (exec P h).file ++ rest ∧
      (rest = [] ∨ (rest = [(exec P h).biggest] ∧ ∀ x ∈ added h, x ≤ (exec P h).biggest))) := by
  have hi := exec_inv P hB hS h h64
  rw [hq] at hi
  simp only [if_true] at hi
  refine ⟨hi.perm, hi.asc, ?_⟩
  rcases hi.ends with e | e
  · exact ⟨[], by simp [e], Or.inl rfl⟩
  · exact ⟨_, e, Or.inr ⟨rfl, hi.le_big⟩⟩

/-- **C04 (sort alone).** The external merge sort never fails and returns the
ascending permutation of the file, for any file, block size and buffer size. -/
theorem C04_extSort (P : Params) (hB : 0 < P.B) (hS : 0 < P.S) (file : List Nat)
    (h64 : ∀ x ∈ file, x ≤ maxId) :
    ∃ f, extSort P file = some (f, blockLasts P.B f) ∧ f.Perm file ∧ f.Pairwise (· ≤ ·) := by
  obtain ⟨f, e, he, hp, ha, hends⟩ := extSort_spec P hB hS file h64
  exact ⟨f, by rw [he, hends]; rfl, hp, ha⟩

/-- **C05.** The answer to a query is the same whatever queries (and rejected
calls) were made in between. -/
theorem C05_query_stable (P : Params) (hB : 0 < P.B) (hS : 0 < P.S) (h h' : List Op)
    (h64 : Ids64 (h ++ h')) (id : Nat)
    (hfreeze : added (h ++ h') = added h ∧ marked (h ++ h') = marked h) :
    observe P (h ++ h') (.has id) = observe P h (.has id) := by
  have h64a : Ids64 h := fun i hm => h64 i (List.mem_append_left _ hm)
  have key : ∀ g : List Op, Ids64 g → ∃ s, ClosedInv P (added g) (marked g) s ∧
      observe P g (.has id) = match hasClosed P s id with
        | none => .fault | some (b, _) => .ans b := by
    intro g hg
    have hi := exec_inv P hB hS g hg
    have hA : ∀ x ∈ added g, x ≤ maxId := fun x hx => hg x (mem_added hx)
    split at hi
    · refine ⟨exec P g, hi, ?_⟩
      simp only [observe, step, has, hi.isClosed, if_true]
      cases hasClosed P (exec P g) id <;> rfl
    · obtain ⟨s', e, hc⟩ := close_inv hB hS hi hA
      refine ⟨s', hc, ?_⟩
      simp only [observe, step, has, hi.isOpen, Bool.false_eq_true, if_false, e]
      cases hasClosed P s' id <;> rfl
  obtain ⟨s, hs, e1⟩ := key (h ++ h') h64
  obtain ⟨t, ht, e2⟩ := key h h64a
  rw [hfreeze.1, hfreeze.2] at hs
  obtain ⟨b, s', t', e3, e4⟩ := hasClosed_det hB hs ht id
  rw [e1, e2, e3, e4]

/-- The hypothesis of `C05_query_stable` holds for any continuation once the
first query has been made, and for any continuation starting with a query. -/
theorem C05_frozen_after_query (h h' : List Op) (id : Nat) :
    added (h ++ .has id :: h') = added h ∧ marked (h ++ .has id :: h') = marked h := by
  have : beforeQuery (h ++ .has id :: h') = beforeQuery h := by
    unfold beforeQuery
    induction h with
    | nil => simp [Op.isHas]
    | cons a h ih =>
      simp only [List.cons_append, List.takeWhile_cons]
      split
      · rw [ih]
      · rfl
  simp [added, marked, this]

/-- **C05.** After a query every `add` and `nadd` throws and leaves the object
unchanged. -/
theorem C05_rejected_after_query (P : Params) (hB : 0 < P.B) (hS : 0 < P.S) (h : List Op)
    (h64 : Ids64 h) (hq : queried h = true) (id : Nat) :
    step P (exec P h) (.add id) = (.thrown, exec P h) ∧
    step P (exec P h) (.nadd id) = (.thrown, exec P h) := by
  have hi := exec_inv P hB hS h h64
  rw [hq] at hi
  simp only [if_true] at hi
  simp [step, add, nadd, hi.isClosed]

/-- No call is ever a fault, and calls before the first query succeed. -/
theorem C05_no_fault (P : Params) (hB : 0 < P.B) (hS : 0 < P.S) (h : List Op)
    (h64 : Ids64 h) (op : Op) : observe P h op ≠ .fault := by
  cases op with
  | add id => unfold observe step; simp only; split <;> simp
  | nadd id => unfold observe step; simp only; split <;> simp
  | has id => obtain ⟨b, e, _⟩ := observe_has P hB hS h h64 id; rw [e]; simp

/-! ## Non-vacuity -/

/-- Small blocks, unsorted input with duplicates spanning several parts. -/
def exP : Params := ⟨2, 3, 97, fun x => x * 7, fun x => x + 1⟩
def exH : List Op := [.add 9, .add 4, .add 7, .nadd 5, .add 4, .add 1, .add 12, .add 3, .has 4]

example : added exH = [9, 4, 7, 4, 1, 12, 3] ∧ marked exH = [5] ∧ queried exH = true ∧
    (exec exP exH).file = [1, 3, 4, 4, 7, 9, 12] ∧
    (exec exP exH).blockEnds = [3, 4, 9] := by decide +kernel

example : observe exP exH (.has 7) = .ans true ∧ observe exP exH (.has 5) = .ans false ∧
    observe exP exH (.add 8) = .thrown := by decide +kernel

example : Ids64 exH := by
  intro id hm
  simp [exH] at hm
  unfold maxId
  omega

end Verif.OsmIdSet
