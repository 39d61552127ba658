import Verif.Trie.Inv

/-!
# Trip trie (properties C09, C10, C11)

All theorems quantify over every environment (trips, stop times, position test with
`near p p`, attribute merging) and every history of `addTrip` calls on a new trie,
normal and degenerate, with and without time expansion.
-/

namespace Verif.Trie
variable {T P A : Type} [DecidableEq T]

/-- A history on a new trie. -/
def history (env : Env T P A) (ops : List (Op T A)) : Option (Trie T P A × List (Op T A × Nat)) :=
  run env ops (Trie.empty env, [])

/-- C09. No history runs into undefined behaviour, and the path of the node under
which an accepted trip was filed spells the trip's stops: `2 (n - 1)` nodes,
alternating departures and arrivals, each with the stop's name and platform, a
position nearby, and the relative time if time expansion was requested. -/
theorem C09_spells (env : Env T P A) (hnear : ∀ p, env.near p p = true) (ops : List (Op T A)) :
    ∃ tr log, history env ops = some (tr, log) ∧
      ∀ op nid, (op, nid) ∈ log → Spells env tr.nds op nid := by
  obtain ⟨tr, log, h, I, _⟩ := run_spec env hnear ops _ _ (Inv.empty env)
  exact ⟨tr, log, h, fun op nid hp => I.spells (op, nid) hp⟩

omit [DecidableEq T] in
theorem hits_nodup_length (env : Env T P A) (nds : List (Nd P A)) (log : List (Op T A × Nat)) (i : Nat)
    (hl : ∀ p ∈ log, (pathOf nds p.2).Nodup ∧
      (pathOf nds p.2).length = (spell (env.stops p.1.t)).length) :
    (hits env nds log i).map (·.1) =
      (log.filter fun p => decide (i ∈ pathOf nds p.2)).map (·.1) := by
  have key : ∀ (op : Op T A) (ids : List Nat) (es : List (Ev P)), ids.Nodup → ids.length = es.length →
      ((ids.zip es).filterMap fun (k, e) =>
        if k = i then some (op, e.time (op.start env)) else none).map (·.1) =
      if i ∈ ids then [op] else [] := by
    intro op ids
    induction ids with
    | nil => intro es _ _; simp
    | cons k ids ih =>
      intro es hn hlen
      match es with
      | e :: es =>
        have hn' := List.nodup_cons.mp hn
        have := ih es hn'.2 (by simpa using hlen)
        by_cases h : k = i
        · subst h
          simp only [List.zip_cons_cons, List.filterMap_cons, if_true, List.map_cons, this, hn'.1,
            if_false, List.mem_cons, true_or]
        · simp only [List.zip_cons_cons, List.filterMap_cons, h, if_false, this, List.mem_cons,
            Ne.symm h, false_or]
  induction log with
  | nil => rfl
  | cons p log ih =>
    obtain ⟨op, nid⟩ := p
    obtain ⟨h1, h2⟩ := hl (op, nid) (by simp)
    have := ih fun p hp => hl p (by simp [hp])
    unfold hits at this ⊢
    simp only [List.flatMap_cons, List.map_append, List.filter_cons]
    rw [this, key op _ _ h1 h2]
    by_cases h : i ∈ pathOf nds nid <;> simp [h]

/-- C10. The statistics of every node below the root are those of the accepted calls
in normal mode whose path contains the node: their number, the sum of their relative
times at this node, and the merge of their attributes in the order of the calls
(every node was visited at least once). -/
theorem C10_stats (env : Env T P A) (hnear : ∀ p, env.near p p = true) (ops : List (Op T A)) :
    ∃ tr log, history env ops = some (tr, log) ∧
      ∀ (i : Nat) n, i ≠ 0 → tr.nds[i]? = some n →
        let thr := log.filter fun p => !p.1.degen && decide (i ∈ pathOf tr.nds p.2)
        n.trips = thr.length ∧
        n.accTime = ((hits env tr.nds (log.filter fun p => !p.1.degen) i).map (·.2)).sum ∧
        ∃ first rest, thr.map (·.1.a) = first :: rest ∧ n.attrs = rest.foldl env.merge first := by
  obtain ⟨tr, log, h, I, _⟩ := run_spec env hnear ops _ _ (Inv.empty env)
  refine ⟨tr, log, h, ?_⟩
  intro i n h0 hn
  obtain ⟨s1, s2, x, tl, s3, s4⟩ := I.stat.1 i n h0 hn
  have hl : (hits env tr.nds (normal log) i).map (·.1) =
      ((normal log).filter fun p => decide (i ∈ pathOf tr.nds p.2)).map (·.1) := by
    apply hits_nodup_length
    intro p hp
    have hp' := (List.mem_filter.mp hp).1
    exact ⟨(pathOf_bounds I.wf p.2 (I.lt p hp')).2, by rw [(I.spells p hp').1, spell_length]⟩
  have hthr : (normal log).filter (fun p => decide (i ∈ pathOf tr.nds p.2)) =
      log.filter fun p => !p.1.degen && decide (i ∈ pathOf tr.nds p.2) := by
    unfold normal; rw [List.filter_filter]
    congr 1; funext p; exact Bool.and_comm _ _
  refine ⟨?_, ?_, ?_⟩
  · rw [s1, ← hthr]
    have := congrArg List.length hl
    simpa [Hist] using this
  · rw [s2]; simp [Hist, normal, List.map_map, Function.comp_def]
  · refine ⟨x.1, tl.map (·.1), ?_, s4⟩
    rw [← hthr]
    have : ((normal log).filter fun p => decide (i ∈ pathOf tr.nds p.2)).map (·.1.a) =
        ((hits env tr.nds (normal log) i).map (·.1)).map (·.a) := by
      rw [hl, List.map_map]; rfl
    rw [this, ← List.map_cons (f := fun p : A × Int => p.1), ← s3]
    simp [Hist, List.map_map, Function.comp_def]

/-- C11. In every reachable trie a call either returns false and changes nothing, or
returns true, and then the trip is found under one node, it is appended to the trips
of this node and to no other, every other trip is found where it was before, and every
node found before has the same path; in degenerate mode the nodes are not changed at
all and the trip ends in a leaf. -/
theorem C11_add_effect (env : Env T P A) (hnear : ∀ p, env.near p p = true) (ops : List (Op T A))
    (op : Op T A) :
    ∃ tr log, history env ops = some (tr, log) ∧
      (tr.addTrip env op.t op.a op.timeEx op.degen = some (false, tr) ∨
       ∃ tr' nid, tr.addTrip env op.t op.a op.timeEx op.degen = some (true, tr') ∧
        tr'.tripNds.lookup op.t = some nid ∧
        (∀ t, t ≠ op.t → tr'.tripNds.lookup t = tr.tripNds.lookup t) ∧
        tr'.ndTrips nid = tr.ndTrips nid ++ [op.t] ∧
        (∀ j, j ≠ nid → tr'.ndTrips j = tr.ndTrips j) ∧
        (∀ j, j < tr.nds.length → pathOf tr'.nds j = pathOf tr.nds j) ∧
        (op.degen = true → tr'.nds = tr.nds ∧ ∃ n, tr.nds[nid]? = some n ∧ n.childs = [])) := by
  obtain ⟨tr, log, h, I, _⟩ := run_spec env hnear ops _ _ (Inv.empty env)
  refine ⟨tr, log, h, ?_⟩
  rcases addTrip_spec env hnear I op with ⟨h, _⟩ | ⟨tr', nid, h, F⟩
  · exact Or.inl h
  · refine Or.inr ⟨tr', nid, h, ?_, ?_, ?_, ?_, ?_, F.leaf⟩
    · rw [F.tripNds, lookup_assign]
    · intro t ht; rw [F.tripNds, lookup_assign_ne _ ht]
    · rw [F.ndTrips]; simp
    · intro j hj; rw [F.ndTrips]; simp [hj]
    · exact pathOf_ext I.wf F.inv.wf F.ext

/-- C11. After any history the trips filed under a node are exactly the accepted
calls that were filed there, in order. -/
theorem C11_filed (env : Env T P A) (hnear : ∀ p, env.near p p = true) (ops : List (Op T A)) :
    ∃ tr log, history env ops = some (tr, log) ∧
      ∀ j, tr.ndTrips j = (log.filter fun p => p.2 = j).map (·.1.t) := by
  obtain ⟨tr, log, h, I, _⟩ := run_spec env hnear ops _ _ (Inv.empty env)
  exact ⟨tr, log, h, I.ndTrips⟩

/-- C11. Which calls are rejected on a new trie: only trips without stops, and calls in
degenerate mode. -/
theorem C11_new_accepts (env : Env T P A) (hnear : ∀ p, env.near p p = true) (op : Op T A)
    (hs : env.stops op.t ≠ []) (hd : op.degen = false) :
    ∃ tr', (Trie.empty env).addTrip env op.t op.a op.timeEx op.degen = some (true, tr') := by
  rcases addTrip_spec env hnear (Inv.empty env) op with ⟨_, h | h | h⟩ | ⟨tr', _, h, _⟩
  · exact absurd h hs
  · rw [hd] at h; cases h
  · exact absurd rfl h
  · exact ⟨tr', h⟩

/-! ### non-vacuity: three trips, two of them sharing a first part, one rejected -/

/-- trips 0: A B C, 1: A B D, 2: B C, 3: like 0 -/
def exEnv : Env Nat Nat (List Nat) :=
  { stops := fun t =>
      let s (n : String) (p : Nat) (x : Int) : StopTime Nat := ⟨n, "", p, some x, some (x + 10)⟩
      match t with
      | 0 => [s "A" 0 90, s "B" 1 200, s "C" 2 300]
      | 1 => [s "A" 0 1090, s "B" 1 1300, s "D" 3 1500]
      | 2 => [s "B" 1 0, s "C" 2 100]
      | _ => [s "A" 0 90, s "B" 1 200, s "C" 2 300]
    near := fun a b => a == b
    merge := (· ++ ·)
    emptySecs := 3660
    rootPos := 0
    rootAttrs := [] }

def exOps : List (Op Nat (List Nat)) :=
  [⟨0, [0], false, false⟩, ⟨1, [1], false, false⟩, ⟨2, [2], false, false⟩, ⟨3, [3], false, true⟩]

example : (history exEnv exOps).map (fun r => r.2.map fun p => (p.1.t, p.2)) =
    some [(0, 4), (1, 5), (3, 4)] := by decide +kernel
example : (history exEnv exOps).map (fun r => r.1.nds.map fun n => (n.name, n.arr, n.trips)) =
    some [("", false, 0), ("A", false, 2), ("B", true, 2), ("B", false, 2), ("C", true, 1),
      ("D", true, 1)] := by decide +kernel
example : (history exEnv exOps).map (fun r => r.1.nds.map fun n => (n.accTime, n.attrs)) =
    some [(0, []), (0, [0, 1]), (300, [0, 1]), (320, [0, 1]), (200, [0]), (400, [1])] := by
  decide +kernel
example : ∀ p, exEnv.near p p = true := by intro p; simp [exEnv]

end Verif.Trie
