import Verif.Base.FMap
/-!
# The cache of candidates (C62)

Model of `buildCandCache` and `edgCandWorker` (`src/pfaedle/router/ShapeBuilder.cpp:108-153` and `1229-1234`) and of the lookup
`157-158`. The stops form a set (a list without duplicates, in any order), `cands` are the candidates `getEdgCands` computes for a stop
that is not in the cache. Every thread has its own list of stops and its own cache; a schedule is a list of numbers of threads, each
entry lets a thread handle its next stop.
-/

set_option linter.unusedSectionVars false

namespace Verif.Cand
variable {S V : Type} [DecidableEq S]

/-- ShapeBuilder.cpp:127-131: `threadStops[i].push_back(stop)`; out of bounds without threads. -/
def dealLoop (n : Nat) : Nat → List (List S) → List S → Option (List (List S))
  | _, ls, [] => some ls
  | i, ls, s :: ss =>
    match ls[i]? with
    | none => none
    | some l => dealLoop n (if i + 1 = n then 0 else i + 1) (ls.set i (l ++ [s])) ss

/-- ShapeBuilder.cpp:122-131. -/
def deal (n : Nat) (stops : List S) : Option (List (List S)) := dealLoop n 0 (List.replicate n []) stops

/-- A thread: what is left to do, and its cache. -/
abbrev Thread (S V : Type) := List S × FMap S V

/-- The lookup in the shared cache, 157-158. -/
def lookup (shared : FMap S V) (cands : S → V) (s : S) : V :=
  match shared.get s with
  | some v => v
  | none => cands s

/-- ShapeBuilder.cpp:1231-1233: one round of a worker; the shared cache is only read. -/
def work (shared : FMap S V) (cands : S → V) : Thread S V → Thread S V
  | ([], c) => ([], c)
  | (s :: ss, c) => (ss, c.put s (lookup shared cands s))

/-- A thread takes a step. -/
def cacheStep (shared : FMap S V) (cands : S → V) (ths : List (Thread S V)) (t : Nat) : List (Thread S V) :=
  match ths[t]? with
  | none => ths
  | some th => ths.set t (work shared cands th)

/-- All threads have been joined. -/
def finished (ths : List (Thread S V)) : Prop := ∀ th ∈ ths, th.1 = []

/-- ShapeBuilder.cpp:142-148: `_grpCache[c.first] = c.second`. -/
def merge (shared : FMap S V) (ths : List (Thread S V)) : FMap S V :=
  ths.foldl (fun m th => th.2.foldl (fun m e => m.put e.1 e.2) m) shared

/-- The threads after a schedule. -/
def runCache (cands : S → V) (ls : List (List S)) (shared : FMap S V) (sched : List Nat) : List (Thread S V) :=
  sched.foldl (cacheStep shared cands) (ls.map fun l => (l, []))

/-! ## Properties -/

theorem dealLoop_spec (n : Nat) (hn : 0 < n) : ∀ (ss : List S) (i : Nat) (ls : List (List S)), ls.length = n → i < n →
    ∃ r, dealLoop n i ls ss = some r ∧ r.length = n ∧ ∀ s, (∃ l ∈ r, s ∈ l) ↔ (∃ l ∈ ls, s ∈ l) ∨ s ∈ ss := by
  intro ss
  induction ss with
  | nil => intro i ls h1 h2; exact ⟨ls, rfl, h1, by simp⟩
  | cons s ss ih =>
    intro i ls h1 h2
    have hi : i < ls.length := by omega
    rw [dealLoop, List.getElem?_eq_getElem hi]
    obtain ⟨r, h3, h4, h5⟩ := ih (if i + 1 = n then 0 else i + 1) (ls.set i (ls[i] ++ [s])) (by simpa using h1) (by split <;> omega)
    refine ⟨r, h3, h4, fun x => ?_⟩
    rw [h5]
    have key : (∃ l ∈ ls.set i (ls[i] ++ [s]), x ∈ l) ↔ (∃ l ∈ ls, x ∈ l) ∨ x = s := by
      constructor
      · rintro ⟨l, hl, hx⟩
        rcases List.mem_or_eq_of_mem_set hl with hl | rfl
        · exact .inl ⟨l, hl, hx⟩
        · rcases List.mem_append.1 hx with hx | hx
          · exact .inl ⟨_, List.getElem_mem hi, hx⟩
          · exact .inr (by simpa using hx)
      · rintro (⟨l, hl, hx⟩ | rfl)
        · obtain ⟨j, hj, rfl⟩ := List.getElem_of_mem hl
          by_cases e : i = j
          · subst e
            exact ⟨ls[i] ++ [s], List.mem_set hi _, by simp [hx]⟩
          · exact ⟨ls[j], List.mem_iff_getElem.2 ⟨j, by simpa using hj, by simp [e]⟩, hx⟩
        · exact ⟨ls[i] ++ [x], List.mem_set hi _, by simp⟩
    rw [key, List.mem_cons, or_assoc]

/-- The invariant of one thread, started with the stops `l`. -/
def ThInv (cands : S → V) (l : List S) (th : Thread S V) : Prop :=
  th.2.WF ∧ ∃ done, l = done ++ th.1 ∧ ∀ s, th.2.get s = if s ∈ done then some (cands s) else none

theorem run_inv_cache (cands : S → V) (ls : List (List S)) (sched : List Nat) :
    (runCache cands ls [] sched).length = ls.length ∧
      ∀ (t : Nat) (th : Thread S V) (l : List S), (runCache cands ls [] sched)[t]? = some th → ls[t]? = some l → ThInv cands l th := by
  unfold runCache
  have : ∀ (sched : List Nat) (ths : List (Thread S V)), ths.length = ls.length →
      (∀ (t : Nat) th l, ths[t]? = some th → ls[t]? = some l → ThInv cands l th) →
      (sched.foldl (cacheStep [] cands) ths).length = ls.length ∧
      ∀ (t : Nat) th l, (sched.foldl (cacheStep [] cands) ths)[t]? = some th → ls[t]? = some l → ThInv cands l th := by
    intro sched
    induction sched with
    | nil => intro ths h1 h2; exact ⟨h1, h2⟩
    | cons t sched ih =>
      intro ths h1 h2
      refine ih _ ?_ ?_
      · unfold cacheStep
        split <;> simp [h1]
      · intro t' th' l hth hl
        unfold cacheStep at hth
        split at hth
        · exact h2 t' th' l hth hl
        case h_2 th ht =>
          rw [List.getElem?_set] at hth
          split at hth
          case isTrue e =>
            subst e
            split at hth
            case isFalse => cases hth
            cases hth
            obtain ⟨w, done, e1, e2⟩ := h2 t th l ht hl
            obtain ⟨todo, c⟩ := th
            cases todo with
            | nil => exact ⟨w, done, e1, e2⟩
            | cons s ss =>
              refine ⟨FMap.WF.put w _ _, done ++ [s], by simpa [work] using e1, fun x => ?_⟩
              simp only [work]
              rw [FMap.get_put, e2]
              by_cases hx : x = s
              · subst hx
                simp [lookup, FMap.get_nil]
              · simp [hx]
          case isFalse => exact h2 t' th' l hth hl
  refine this sched _ (by simp) ?_
  intro t th l hth hl
  rw [List.getElem?_map, hl] at hth
  cases hth
  exact ⟨FMap.WF.nil, [], rfl, by simp [FMap.get_nil]⟩

theorem putAll_get (m : FMap S V) : ∀ (c : FMap S V), c.WF → ∀ s,
    FMap.get (c.foldl (fun m e => FMap.put m e.1 e.2) m) s = if (FMap.get c s).isSome then FMap.get c s else FMap.get m s := by
  intro c
  induction c generalizing m with
  | nil => intro _ s; simp [FMap.get_nil]
  | cons e c ih =>
    intro w s
    have w' : FMap.WF c := (List.nodup_cons.1 w).2
    have hn : e.1 ∉ FMap.keys c := (List.nodup_cons.1 w).1
    rw [List.foldl_cons, ih _ w' s, FMap.get_put, FMap.get_cons]
    by_cases h : e.1 = s
    · subst h
      rw [(FMap.get_eq_none_iff c e.1).2 hn]
      simp
    · have h' : s ≠ e.1 := fun e => h e.symm
      simp [h, h']

theorem merge_get (cands : S → V) : ∀ (ths : List (Thread S V)) (m : FMap S V) (s : S),
    (∀ th ∈ ths, th.2.WF ∧ ∀ x, th.2.get x = none ∨ th.2.get x = some (cands x)) →
    FMap.get (merge m ths) s = if (∃ th ∈ ths, (FMap.get th.2 s).isSome = true) then some (cands s) else FMap.get m s := by
  intro ths
  induction ths with
  | nil => intro m s _; simp [merge]
  | cons th ths ih =>
    intro m s h
    obtain ⟨w, hv⟩ := h th (by simp)
    have := ih (th.2.foldl (fun m e => FMap.put m e.1 e.2) m) s (fun x hx => h x (by simp [hx]))
    rw [merge, List.foldl_cons]
    rw [merge] at this
    rw [this, putAll_get _ _ w]
    have ec : (∃ x ∈ th :: ths, (FMap.get x.2 s).isSome = true) ↔
        ((FMap.get th.2 s).isSome = true ∨ ∃ x ∈ ths, (FMap.get x.2 s).isSome = true) := by
      simp only [List.mem_cons, or_and_right, exists_or, exists_eq_left]
    simp only [ec]
    by_cases h1 : ∃ th ∈ ths, (FMap.get th.2 s).isSome = true
    · rw [if_pos h1, if_pos (.inr h1)]
    · rw [if_neg h1]
      by_cases h2 : (FMap.get th.2 s).isSome = true
      · rw [if_pos h2, if_pos (.inl h2)]
        rcases hv s with e | e
        · rw [e] at h2; cases h2
        · exact e
      · rw [if_neg h2, if_neg (by simp [h1, h2])]

/-- **C62 (cache).** With at least one thread, and for every schedule after which the threads have finished, the cache has exactly the stops asked
for, each with its own candidates. -/
theorem C62_cache (cands : S → V) (n : Nat) (hn : 0 < n) (stops : List S) :
    ∃ ls, deal n stops = some ls ∧ ls.length = n ∧ ∀ sched, finished (runCache cands ls [] sched) →
      ∀ s, FMap.get (merge [] (runCache cands ls [] sched)) s = if s ∈ stops then some (cands s) else none := by
  obtain ⟨ls, h1, h2, h3⟩ := dealLoop_spec n hn stops 0 (List.replicate n []) (by simp) hn
  refine ⟨ls, h1, h2, fun sched hf s => ?_⟩
  obtain ⟨hlen, hinv⟩ := run_inv_cache cands ls sched
  have hth : ∀ th ∈ runCache cands ls [] sched, ∃ l ∈ ls, ThInv cands l th := by
    intro th hm
    obtain ⟨t, ht⟩ := List.getElem?_of_mem hm
    have hlt : t < ls.length := by have := (List.getElem?_eq_some_iff.1 ht).1; omega
    exact ⟨_, List.getElem_mem hlt, hinv t th _ ht (List.getElem?_eq_getElem hlt)⟩
  rw [merge_get cands]
  · have key : (∃ th ∈ runCache cands ls [] sched, (FMap.get th.2 s).isSome = true) ↔ s ∈ stops := by
      have h3s := h3 s
      have : ¬ ∃ l ∈ List.replicate n ([] : List S), s ∈ l := by
        rintro ⟨l, hl, hs⟩
        rw [List.eq_of_mem_replicate hl] at hs
        cases hs
      simp only [this, false_or] at h3s
      rw [← h3s]
      constructor
      · rintro ⟨th, hm, hs⟩
        obtain ⟨l, hl, -, done, e1, e2⟩ := hth th hm
        rw [e2] at hs
        split at hs
        case isTrue hd => exact ⟨l, hl, by rw [e1]; simp [hd]⟩
        case isFalse => cases hs
      · rintro ⟨l, hl, hs⟩
        obtain ⟨t, ht⟩ := List.getElem?_of_mem hl
        have hlt : t < (runCache cands ls [] sched).length := by have := (List.getElem?_eq_some_iff.1 ht).1; omega
        obtain ⟨-, done, e1, e2⟩ := hinv t _ l (List.getElem?_eq_getElem hlt) ht
        refine ⟨_, List.getElem_mem hlt, ?_⟩
        rw [e2]
        rw [hf _ (List.getElem_mem hlt), List.append_nil] at e1
        rw [if_pos (e1 ▸ hs)]
        rfl
    by_cases hs : s ∈ stops
    · rw [if_pos (key.2 hs), if_pos hs]
    · rw [if_neg (fun h => hs (key.1 h)), if_neg hs]
      rfl
  · intro th hm
    obtain ⟨l, hl, w, done, -, e2⟩ := hth th hm
    refine ⟨w, fun x => ?_⟩
    rw [e2]
    split
    · exact .inr rfl
    · exact .inl rfl

/-- **C62 (transparency).** A stop has the same candidates whether it is looked up in the cache or not. -/
theorem C62_transparent (cands : S → V) (n : Nat) (hn : 0 < n) (stops : List S) :
    ∃ ls, deal n stops = some ls ∧ ∀ sched, finished (runCache cands ls [] sched) →
      ∀ s, lookup (merge [] (runCache cands ls [] sched)) cands s = cands s := by
  obtain ⟨ls, h1, -, h3⟩ := C62_cache cands n hn stops
  refine ⟨ls, h1, fun sched hf s => ?_⟩
  rw [lookup, h3 sched hf]
  split
  case h_1 v h =>
    split at h
    · cases h; rfl
    · cases h
  case h_2 => rfl

/-- **C62 (progress).** From every state some schedule lets all threads finish. -/
theorem C62_finishes (cands : S → V) (ls : List (List S)) (sched : List Nat) :
    ∃ more, finished (runCache cands ls [] (sched ++ more)) := by
  have key : ∀ (k : Nat) (ths : List (Thread S V)), (ths.map (·.1.length)).sum = k →
      ∃ more : List Nat, finished (more.foldl (cacheStep [] cands) ths) := by
    intro k
    induction k with
    | zero =>
      intro ths h
      refine ⟨[], fun th hm => ?_⟩
      have := List.sum_eq_zero_iff_forall_eq_nat.1 h (th.1.length) (List.mem_map.2 ⟨th, hm, rfl⟩)
      exact List.length_eq_zero_iff.1 this
    | succ k ih =>
      intro ths h
      have : ∃ th ∈ ths, th.1 ≠ [] := by
        refine Classical.byContradiction fun hne => ?_
        have : ∀ x ∈ ths.map (·.1.length), x = 0 := by
          intro x hx
          obtain ⟨th, hm, rfl⟩ := List.mem_map.1 hx
          refine Classical.byContradiction fun hx => hne ⟨th, hm, fun e => hx (by rw [e]; rfl)⟩
        have := List.sum_eq_zero_iff_forall_eq_nat.2 this
        omega
      obtain ⟨th, hm, hne⟩ := this
      obtain ⟨t, ht⟩ := List.getElem?_of_mem hm
      obtain ⟨hlt, he⟩ := List.getElem?_eq_some_iff.1 ht
      have hstep : cacheStep [] cands ths t = ths.set t (work [] cands th) := by
        unfold cacheStep
        rw [ht]
      have hsum : ((ths.set t (work [] cands th)).map (·.1.length)).sum = k := by
        have hsplit : ths = ths.take t ++ th :: ths.drop (t + 1) := by
          rw [← he, List.getElem_cons_drop, List.take_append_drop]
        have hset : ths.set t (work [] cands th) = ths.take t ++ work [] cands th :: ths.drop (t + 1) :=
          List.set_eq_take_append_cons_drop.trans (if_pos hlt)
        rw [hset]
        rw [hsplit] at h
        obtain ⟨todo, c⟩ := th
        cases todo with
        | nil => exact absurd rfl hne
        | cons s ss =>
          simp only [List.map_append, List.map_cons, List.sum_append, List.sum_cons, List.length_cons, work] at h ⊢
          omega
      obtain ⟨more, hmore⟩ := ih _ hsum
      exact ⟨t :: more, by rw [List.foldl_cons, hstep]; exact hmore⟩
  obtain ⟨more, h⟩ := key _ (runCache cands ls [] sched) rfl
  refine ⟨more, ?_⟩
  unfold runCache at h ⊢
  rw [List.foldl_append]
  exact h

/-- Two threads, three stops, a schedule that changes between them. -/
example : deal 2 [7, 8, 9] = some [[7, 9], [8]] ∧
    finished (runCache (fun s => s * 10) [[7, 9], [8]] [] [1, 0, 1, 0]) ∧
    FMap.get (merge [] (runCache (fun s => s * 10) [[7, 9], [8]] [] [1, 0, 1, 0])) 9 = some 90 := by
  refine ⟨by decide, ?_, by decide⟩
  intro th h
  revert th
  decide

/-- **C62 (limit).** If the number of processors is not known, `hardware_concurrency` is 0: the first stop is written out of bounds. -/
theorem C62_limit_no_threads (s : S) (ss : List S) : deal 0 (s :: ss) = none := rfl

end Verif.Cand
