import Verif.Eval.Limits
set_option linter.unusedSimpArgs false
/-!
# The workers of the evaluation (property C45)

ShapevlMain.cpp:41-125 and 237-246. A schedule is a list of thread numbers; a turn is the atomic access to the counter or one comparison. All
feeds can be parsed (otherwise the program exits with code 1).
-/
namespace Verif.Eval.Feeds

variable {S : Type}

/-- What is evaluated: the reference trips of the ground truth (with `--unique` only some of them, see `Verif.Eval.Unique`), the chosen
types of routes, and the trips of each feed. -/
structure Input (S : Type) where
  g : Geo S
  asserts : Bool
  truth : List (Trip S)
  mots : List Nat
  feeds : List (List (Trip S))

/-- ShapevlMain.cpp:110-122: the comparison with a trip of the ground truth, if there is one. -/
def pick (mots : List Nat) (feed : List (Trip S)) (o : Trip S) : Option (Cmp S) :=
  if o.typ ∈ mots then
    match feed.find? fun t => t.id == o.id with
    | none => none
    | some n => match n.shape with
      | none => none
      | some s => some (o, n, s)
  else none

/-- ShapevlMain.cpp:106-123. -/
def Input.jobs (i : Input S) (f : Nat) : List (Cmp S) :=
  match i.feeds[f]? with
  | none => []
  | some feed => i.truth.filterMap (pick i.mots feed)

/-- Where a thread is: before the counter, evaluating a feed, or returned. -/
inductive Thr (S : Type) where
  | start
  | busy (feed : Nat) (rest : List (Cmp S))
  | done

/-- The counter (ShapevlMain.cpp:41), the collectors (`none`: undefined behaviour), the threads, and the feeds taken so far. -/
structure Sys (S : Type) where
  count : Int
  colls : Nat → Option Coll
  thr : Nat → Thr S
  log : List Nat

/-- ShapevlMain.cpp:202-216. -/
def init (i : Input S) : Sys S :=
  { count := (i.feeds.length : Int), colls := fun _ => some {}, thr := fun _ => .start, log := [] }

/-- Assignment. -/
def set {α : Type} (f : Nat → α) (k : Nat) (v : α) : Nat → α := fun x => if x = k then v else f x

/-- One turn of thread `w`, ShapevlMain.cpp:47-124. -/
def step (i : Input S) (s : Sys S) (w : Nat) : Sys S :=
  match s.thr w with
  | .done => s
  | .start =>
    let my := s.count - 1
    if my < 0 then { s with count := s.count - 1, thr := set s.thr w .done }
    else { s with count := s.count - 1, thr := set s.thr w (.busy my.toNat (i.jobs my.toNat)), log := s.log ++ [my.toNat] }
  | .busy _ [] => { s with thr := set s.thr w .start }
  | .busy f ((o, n, sh) :: rest) =>
    { s with
      colls := set s.colls f ((s.colls f).bind fun c => add i.g i.asserts c o n sh)
      thr := set s.thr w (.busy f rest) }

/-- Any number of turns. -/
def exec (i : Input S) (sched : List Nat) : Sys S := sched.foldl (step i) (init i)

/-! ## Specification -/

/-- `W` threads. -/
def SchedOk (W : Nat) (sched : List Nat) : Prop := ∀ w ∈ sched, w < W

/-- All threads have returned (`thr.join()`). -/
def Finished (W : Nat) (s : Sys S) : Prop := ∀ w, w < W → s.thr w = .done

/-- The comparisons that feed `feed` calls for: for every reference trip of a chosen type which is in the feed, with a shape there. -/
def CompsOf (i : Input S) (feed : List (Trip S)) (xs : List (Cmp S)) : Prop :=
  (xs.map fun x => x.1).Sublist i.truth ∧
  (∀ x ∈ xs, x.1.typ ∈ i.mots ∧ x.2.1 ∈ feed ∧ x.2.1.id = x.1.id ∧ x.2.1.shape = some x.2.2) ∧
  ∀ o ∈ i.truth, o.typ ∈ i.mots → ((feed.map (·.id)).Nodup → ∀ n ∈ feed, n.id = o.id → ∀ s, n.shape = some s → (o, n, s) ∈ xs)

/-! ## Lemmas -/

@[simp] theorem set_self {α : Type} (f : Nat → α) (k : Nat) (v : α) : set f k v k = v := by simp [set]

theorem set_ne {α : Type} (f : Nat → α) (k x : Nat) (v : α) (h : x ≠ k) : set f k v x = f x := by simp [set, h]

theorem pick_spec (mots : List Nat) (feed : List (Trip S)) (o : Trip S) (x : Cmp S) (h : pick mots feed o = some x) :
    x.1 = o ∧ o.typ ∈ mots ∧ x.2.1 ∈ feed ∧ x.2.1.id = o.id ∧ x.2.1.shape = some x.2.2 := by
  unfold pick at h
  split at h
  · rename_i ht
    split at h
    · cases h
    · rename_i n hn
      split at h
      · cases h
      · rename_i s hs
        cases h
        have := List.find?_some hn
        exact ⟨rfl, ht, List.mem_of_find?_eq_some hn, by simpa using this, hs⟩
  · cases h

theorem find_unique (feed : List (Trip S)) (hn : (feed.map (·.id)).Nodup) (n : Trip S) (h : n ∈ feed) (k : Nat) (e : n.id = k) :
    feed.find? (fun t => t.id == k) = some n := by
  induction feed with
  | nil => cases h
  | cons t feed ih =>
    simp only [List.map_cons, List.nodup_cons] at hn
    rcases List.mem_cons.1 h with rfl | h
    · simp [List.find?, e]
    · have : (t.id == k) = false := by
        rw [beq_eq_false_iff_ne]
        intro h1
        exact hn.1 (List.mem_map.2 ⟨n, h, by rw [e, h1]⟩)
      rw [List.find?_cons, this]
      exact ih hn.2 h

theorem jobs_spec (i : Input S) (f : Nat) (feed : List (Trip S)) (hf : i.feeds[f]? = some feed) : CompsOf i feed (i.jobs f) := by
  unfold Input.jobs
  rw [hf]
  refine ⟨?_, ?_, ?_⟩
  · simp only
    generalize i.truth = l
    induction l with
    | nil => simp
    | cons o l ih =>
      cases h : pick i.mots feed o with
      | none => rw [List.filterMap_cons_none h]; exact ih.cons o
      | some x => rw [List.filterMap_cons_some h, List.map_cons, (pick_spec _ _ _ _ h).1]; exact ih.cons_cons o
  · intro x hx
    obtain ⟨o, _, h⟩ := List.mem_filterMap.1 hx
    obtain ⟨h1, h2⟩ := pick_spec _ _ _ _ h
    rw [h1]; exact h2
  · intro o ho ht hn n hm he s hs
    refine List.mem_filterMap.2 ⟨o, ho, ?_⟩
    unfold pick
    rw [if_pos ht, find_unique feed hn n hm _ he]
    simp only [hs]

/-- What holds after every schedule. -/
structure Inv (i : Input S) (s : Sys S) : Prop where
  busy : ∀ (w f : Nat) (rest : List (Cmp S)), s.thr w = .busy f rest →
    f < i.feeds.length ∧ s.count ≤ (f : Int) ∧ ((s.colls f).bind fun c => run i.g i.asserts c rest) = run i.g i.asserts {} (i.jobs f)
  one : ∀ (w w' f : Nat) (rest rest' : List (Cmp S)), s.thr w = .busy f rest → s.thr w' = .busy f rest' → w = w'
  ready : ∀ (f : Nat), f < i.feeds.length → s.count ≤ (f : Int) → (∀ (w : Nat) (rest : List (Cmp S)), s.thr w ≠ .busy f rest) →
    s.colls f = run i.g i.asserts {} (i.jobs f)
  fresh : ∀ (f : Nat), (f : Int) < s.count → s.colls f = some {}
  le : s.count ≤ (i.feeds.length : Int)
  log : s.log = (List.range (i.feeds.length - s.count.toNat)).map fun k => i.feeds.length - 1 - k
  done : ∀ (w : Nat), s.thr w = .done → s.count < 0

theorem inv_init (i : Input S) : Inv i (init i) := by
  refine ⟨?_, ?_, ?_, fun _ _ => rfl, Int.le_refl _, by simp [init], ?_⟩
  · intro w f rest h; simp [init] at h
  · intro w w' f rest rest' h; simp [init] at h
  · intro f h1 h2; simp only [init] at h2; omega
  · intro w h; simp [init] at h

theorem inv_step (i : Input S) (s : Sys S) (w : Nat) (h : Inv i s) : Inv i (step i s w) := by
  unfold step
  split
  · exact h
  · rename_i hw
    simp only
    split
    · rename_i hneg
      have hthr : ∀ (v f : Nat) (rest : List (Cmp S)), set s.thr w .done v = .busy f rest → s.thr v = .busy f rest := by
        intro v f rest hv
        by_cases e : v = w
        · subst e; rw [set_self] at hv; cases hv
        · rwa [set_ne _ _ _ _ e] at hv
      refine ⟨?_, ?_, ?_, ?_, ?_, ?_, ?_⟩
      · intro v f rest hv
        obtain ⟨a, b, c⟩ := h.busy v f rest (hthr v f rest hv)
        exact ⟨a, by simp only; omega, c⟩
      · intro v v' f r r' hv hv'
        exact h.one v v' f r r' (hthr _ _ _ hv) (hthr _ _ _ hv')
      · intro f hf hc hno
        refine h.ready f hf (by simp only at hc; omega) ?_
        intro v rest hv
        by_cases e : v = w
        · subst e; rw [hw] at hv; cases hv
        · exact hno v rest (by simp only; rw [set_ne _ _ _ _ e]; exact hv)
      · intro f hf; exact h.fresh f (by simp only at hf; omega)
      · have := h.le; simp only; omega
      · have e1 : s.count.toNat = 0 := by omega
        have e2 : (s.count - 1).toNat = 0 := by omega
        have := h.log
        rw [e1] at this
        simp only [e2]; exact this
      · intro v hv
        simp only at hv ⊢
        omega
    · rename_i hnn
      have hcount : 0 < s.count := by omega
      obtain ⟨m, hm⟩ : ∃ m : Nat, s.count = (m : Int) + 1 := ⟨(s.count - 1).toNat, by omega⟩
      have hmy : (s.count - 1).toNat = m := by omega
      have hlt : m < i.feeds.length := by have := h.le; omega
      rw [hmy]
      refine ⟨?_, ?_, ?_, ?_, ?_, ?_, ?_⟩
      · intro v f rest hv
        simp only at hv ⊢
        by_cases e : v = w
        · subst e
          rw [set_self] at hv
          cases hv
          refine ⟨hlt, by omega, ?_⟩
          rw [h.fresh m (by omega)]; rfl
        · rw [set_ne _ _ _ _ e] at hv
          obtain ⟨a, b, c⟩ := h.busy v f rest hv
          exact ⟨a, by omega, c⟩
      · intro v v' f r r' hv hv'
        simp only at hv hv'
        by_cases e : v = w
        · by_cases e' : v' = w
          · rw [e, e']
          · subst e
            rw [set_self] at hv
            rw [set_ne _ _ _ _ e'] at hv'
            cases hv
            have := (h.busy v' _ r' hv').2.1
            omega
        · by_cases e' : v' = w
          · subst e'
            rw [set_self] at hv'
            rw [set_ne _ _ _ _ e] at hv
            cases hv'
            have := (h.busy v _ r hv).2.1
            omega
          · rw [set_ne _ _ _ _ e] at hv
            rw [set_ne _ _ _ _ e'] at hv'
            exact h.one v v' f r r' hv hv'
      · intro f hf hc hno
        simp only at hc hno ⊢
        by_cases e : f = m
        · subst e
          exact absurd (set_self _ _ _) (hno w (i.jobs f))
        · refine h.ready f hf (by omega) ?_
          intro v rest hv
          by_cases e' : v = w
          · subst e'; rw [hw] at hv; cases hv
          · exact hno v rest (by rw [set_ne _ _ _ _ e']; exact hv)
      · intro f hf; exact h.fresh f (by simp only at hf; omega)
      · have := h.le; simp only; omega
      · have e1 : i.feeds.length - (s.count - 1).toNat = i.feeds.length - s.count.toNat + 1 := by
          have := h.le; omega
        simp only
        rw [e1, List.range_succ, List.map_append, ← h.log]
        congr 1
        simp only [List.map_cons, List.map_nil, List.cons.injEq, and_true]
        omega
      · intro v hv
        simp only at hv ⊢
        by_cases e : v = w
        · subst e; rw [set_self] at hv; cases hv
        · rw [set_ne _ _ _ _ e] at hv
          have := h.done v hv
          omega
  · rename_i f0 hw
    have hthr : ∀ (v f : Nat) (rest : List (Cmp S)), set s.thr w .start v = .busy f rest → s.thr v = .busy f rest := by
      intro v f rest hv
      by_cases e : v = w
      · subst e; rw [set_self] at hv; cases hv
      · rwa [set_ne _ _ _ _ e] at hv
    refine ⟨?_, ?_, ?_, h.fresh, h.le, h.log, ?_⟩
    · intro v f rest hv; exact h.busy v f rest (hthr v f rest hv)
    · intro v v' f r r' hv hv'; exact h.one v v' f r r' (hthr _ _ _ hv) (hthr _ _ _ hv')
    · intro f hf hc hno
      by_cases e : f = f0
      · subst e
        have := (h.busy w f [] hw).2.2
        simp only [run] at this
        rw [← this]
        cases s.colls f <;> rfl
      · refine h.ready f hf hc ?_
        intro v rest hv
        by_cases e' : v = w
        · subst e'; rw [hw] at hv; cases hv; exact e rfl
        · exact hno v rest (by simp only; rw [set_ne _ _ _ _ e']; exact hv)
    · intro v hv
      simp only at hv
      by_cases e : v = w
      · subst e; rw [set_self] at hv; cases hv
      · rw [set_ne _ _ _ _ e] at hv; exact h.done v hv
  · rename_i f0 o n sh rest0 hw
    obtain ⟨q1, q2, q3⟩ := h.busy w f0 _ hw
    refine ⟨?_, ?_, ?_, ?_, h.le, h.log, ?_⟩
    · intro v f rest hv
      simp only at hv ⊢
      by_cases e : v = w
      · subst e
        rw [set_self] at hv
        cases hv
        refine ⟨q1, q2, ?_⟩
        rw [← q3, set_self]
        cases s.colls f0 with
        | none => rfl
        | some c =>
          simp only [Option.bind_some, run]
          cases add i.g i.asserts c o n sh <;> rfl
      · rw [set_ne _ _ _ _ e] at hv
        have hne : f ≠ f0 := by rintro rfl; exact e (h.one v w f _ _ hv hw)
        rw [set_ne _ _ _ _ hne]
        exact h.busy v f rest hv
    · intro v v' f r r' hv hv'
      simp only at hv hv'
      have back : ∀ (x : Nat) (r : List (Cmp S)), set s.thr w (.busy f0 rest0) x = .busy f r → ∃ r' : List (Cmp S), s.thr x = .busy f r' := by
        intro x r hx
        by_cases e : x = w
        · subst e; rw [set_self] at hx; cases hx; exact ⟨_, hw⟩
        · rw [set_ne _ _ _ _ e] at hx; exact ⟨_, hx⟩
      obtain ⟨a, ha⟩ := back v r hv
      obtain ⟨b, hb⟩ := back v' r' hv'
      exact h.one v v' f a b ha hb
    · intro f hf hc hno
      simp only at hc hno ⊢
      have hne : f ≠ f0 := by rintro rfl; exact absurd (set_self _ _ _) (hno w rest0)
      rw [set_ne _ _ _ _ hne]
      refine h.ready f hf hc ?_
      intro v rest hv
      by_cases e' : v = w
      · subst e'; rw [hw] at hv; cases hv; exact hne rfl
      · exact hno v rest (by rw [set_ne _ _ _ _ e']; exact hv)
    · intro f hf
      simp only at hf ⊢
      have hne : f ≠ f0 := by rintro rfl; omega
      rw [set_ne _ _ _ _ hne]
      exact h.fresh f hf
    · intro v hv
      simp only at hv
      by_cases e : v = w
      · subst e; rw [set_self] at hv; cases hv
      · rw [set_ne _ _ _ _ e] at hv; exact h.done v hv

theorem inv_exec (i : Input S) (sched : List Nat) : Inv i (exec i sched) := by
  unfold exec
  generalize hs : init i = s
  have h : Inv i s := hs ▸ inv_init i
  clear hs
  induction sched generalizing s with
  | nil => exact h
  | cons w sched ih => exact ih _ (inv_step i s w h)

/-- The turns a thread still needs, without those for further feeds. -/
def Thr.left : Thr S → Nat
  | .start => 1
  | .busy _ rest => rest.length + 2
  | .done => 0

@[simp] theorem left_start : (Thr.start : Thr S).left = 1 := rfl
@[simp] theorem left_done : (Thr.done : Thr S).left = 0 := rfl
@[simp] theorem left_busy (f : Nat) (r : List (Cmp S)) : (Thr.busy f r).left = r.length + 2 := rfl

theorem left_zero (t : Thr S) (h : t.left = 0) : t = .done := by
  cases t with
  | start => simp at h
  | busy f r => simp at h
  | done => rfl

/-- The turns that are still needed. -/
def weight (i : Input S) (W : Nat) (s : Sys S) : Nat :=
  ((List.range s.count.toNat).map fun f => (i.jobs f).length + 2).sum + ((List.range W).map fun w => (s.thr w).left).sum

theorem sum_map_set (W : Nat) (thr : Nat → Thr S) (w : Nat) (hw : w < W) (t : Thr S) :
    ((List.range W).map fun v => (set thr w t v).left).sum + (thr w).left = ((List.range W).map fun v => (thr v).left).sum + t.left := by
  induction W with
  | zero => omega
  | succ W ih =>
    simp only [List.range_succ, List.map_append, List.sum_append, List.map_cons, List.map_nil, List.sum_cons, List.sum_nil]
    by_cases e : w = W
    · subst e
      have : ((List.range w).map fun v => (set thr w t v).left) = (List.range w).map fun v => (thr v).left := by
        apply List.map_congr_left
        intro v hv
        have := List.mem_range.1 hv
        rw [set_ne _ _ _ _ (by omega)]
      rw [this, set_self]
      omega
    · have := ih (by omega)
      rw [set_ne thr w W t (Ne.symm e)]
      omega

theorem weight_step (i : Input S) (W : Nat) (s : Sys S) (w : Nat) (hw : w < W) (h : (s.thr w).left ≠ 0) :
    weight i W (step i s w) + 1 = weight i W s := by
  unfold step
  split
  · rename_i e; rw [e] at h; exact absurd rfl h
  · rename_i e
    simp only
    split
    · have := sum_map_set W s.thr w hw .done
      rw [e] at this
      simp only [left_start, left_done, left_busy] at this
      have e2 : (s.count - 1).toNat = s.count.toNat := by omega
      simp only [weight, e2]
      omega
    · have e2 : s.count.toNat = (s.count - 1).toNat + 1 := by omega
      have := sum_map_set W s.thr w hw (.busy (s.count - 1).toNat (i.jobs (s.count - 1).toNat))
      rw [e] at this
      simp only [left_start, left_done, left_busy] at this
      simp only [weight]
      rw [e2]
      simp only [List.range_succ, List.map_append, List.sum_append, List.map_cons, List.map_nil, List.sum_cons, List.sum_nil]
      omega
  · rename_i f e
    have := sum_map_set W s.thr w hw .start
    rw [e] at this
    simp only [left_start, left_busy, List.length_nil] at this
    simp only [weight]
    omega
  · rename_i f o n sh rest e
    have := sum_map_set W s.thr w hw (.busy f rest)
    rw [e] at this
    simp only [left_busy, List.length_cons] at this
    simp only [weight]
    omega

theorem done_step (i : Input S) (s : Sys S) (v w : Nat) (h : (s.thr w).left = 0) : ((step i s v).thr w).left = 0 := by
  by_cases e : v = w
  · subst e
    have := left_zero _ h
    unfold step
    rw [this]
    simp only [this]; rfl
  · unfold step
    split
    · exact h
    · simp only
      split <;> (simp only; rw [set_ne _ _ _ _ (Ne.symm e)]; exact h)
    · simp only; rw [set_ne _ _ _ _ (Ne.symm e)]; exact h
    · simp only; rw [set_ne _ _ _ _ (Ne.symm e)]; exact h

theorem done_exec (i : Input S) (sched : List Nat) : ∀ (s : Sys S) (w : Nat), (s.thr w).left = 0 → ((sched.foldl (step i) s).thr w).left = 0 := by
  induction sched with
  | nil => intro s w h; exact h
  | cons v sched ih => intro s w h; exact ih _ w (done_step i s v w h)

theorem running_bound (i : Input S) (W w : Nat) (hw : w < W) : ∀ (sched : List Nat) (s : Sys S), SchedOk W sched →
    ((sched.foldl (step i) s).thr w).left ≠ 0 → sched.count w + weight i W (sched.foldl (step i) s) ≤ weight i W s := by
  intro sched
  induction sched with
  | nil => intro s _ _; simp
  | cons v sched ih =>
    intro s hok hr
    have := ih (step i s v) (fun x hx => hok x (List.mem_cons_of_mem _ hx)) hr
    simp only [List.foldl_cons] at hr ⊢
    have hw0 : (s.thr w).left ≠ 0 := fun h => hr (done_exec i sched _ w (done_step i s v w h))
    have hle : weight i W (step i s v) ≤ weight i W s := by
      by_cases hz : (s.thr v).left = 0
      · have := left_zero _ hz
        unfold step; rw [this]; exact Nat.le_refl _
      · have := weight_step i W s v (hok v (List.mem_cons_self ..)) hz; omega
    rw [List.count_cons]
    by_cases e : v = w
    · subst e
      have := weight_step i W s v hw hw0
      simp only [beq_self_eq_true, if_true]
      omega
    · simp only [beq_iff_eq, e, if_false]; omega

theorem idle (i : Input S) (W : Nat) : ∀ (sched : List Nat) (s : Sys S), SchedOk W sched → (∀ w, W ≤ w → s.thr w = .start) →
    ∀ w, W ≤ w → (sched.foldl (step i) s).thr w = .start := by
  intro sched
  induction sched with
  | nil => intro s _ h; exact h
  | cons v sched ih =>
    intro s hok h
    refine ih _ (fun x hx => hok x (List.mem_cons_of_mem _ hx)) ?_
    intro w hw
    have hv := hok v (List.mem_cons_self ..)
    have hne : w ≠ v := by omega
    unfold step
    split
    · exact h w hw
    · simp only
      split <;> (simp only; rw [set_ne _ _ _ _ hne]; exact h w hw)
    · simp only; rw [set_ne _ _ _ _ hne]; exact h w hw
    · simp only; rw [set_ne _ _ _ _ hne]; exact h w hw

/-! ## Property C45 -/

/-- **C45 (evaluation, at any time).** Under every schedule of any number of threads the feeds are taken from the last to the first, none of them
twice, and no two threads work on the same feed. -/
theorem C45_feeds_no_repetition (i : Input S) (sched : List Nat) :
    ((exec i sched).log.Nodup ∧ ∀ f ∈ (exec i sched).log, f < i.feeds.length) ∧
    ∀ (w w' f : Nat) (r r' : List (Cmp S)), (exec i sched).thr w = .busy f r → (exec i sched).thr w' = .busy f r' → w = w' := by
  have h := inv_exec i sched
  refine ⟨⟨?_, ?_⟩, h.one⟩
  · rw [h.log]
    unfold List.Nodup
    rw [List.pairwise_map]
    refine List.Pairwise.imp_of_mem ?_ (List.pairwise_lt_range (n := i.feeds.length - (exec i sched).count.toNat))
    intro a b ha hb hab
    have := List.mem_range.1 hb
    omega
  · intro f hf
    rw [h.log] at hf
    obtain ⟨k, hk, rfl⟩ := List.mem_map.1 hf
    have := List.mem_range.1 hk
    omega

/-- **C45 (evaluation).** When all threads have returned (at least one thread), every feed has been taken exactly once and its collector has
received exactly the comparisons it calls for, in the order of the ground truth, whatever the schedule and the number of threads. -/
theorem C45_each_feed_once (i : Input S) (W : Nat) (hW : 0 < W) (sched : List Nat) (hok : SchedOk W sched)
    (hf : Finished W (exec i sched)) :
    (exec i sched).log.Perm (List.range i.feeds.length) ∧
    ∀ (f : Nat) (feed : List (Trip S)), i.feeds[f]? = some feed →
      ∃ xs, CompsOf i feed xs ∧ (exec i sched).colls f = run i.g i.asserts {} xs := by
  have h := inv_exec i sched
  have hdone : ∀ w, w < W → (exec i sched).thr w = .done := hf
  have hc := h.done 0 (hdone 0 hW)
  have hz : (exec i sched).count.toNat = 0 := by omega
  refine ⟨?_, ?_⟩
  · have e : (exec i sched).log = (List.range i.feeds.length).reverse := by
      rw [h.log, hz, Nat.sub_zero]
      apply List.ext_getElem
      · simp
      · intro k h1 h2
        simp
    rw [e]; exact List.reverse_perm _
  · intro f feed hfeed
    have hlt : f < i.feeds.length := (List.getElem?_eq_some_iff.1 hfeed).1
    refine ⟨i.jobs f, jobs_spec i f feed hfeed, ?_⟩
    refine h.ready f hlt (by omega) fun w rest e => ?_
    by_cases hw : w < W
    · rw [hdone w hw] at e; cases e
    · have := idle i W sched (init i) hok (fun _ _ => rfl) w (by omega)
      rw [show (exec i sched).thr w = .start from this] at e
      cases e

/-- **C45 (evaluation, termination).** Every schedule that gives each thread more turns than a fixed bound ends with all of them having returned. -/
theorem C45_feeds_terminate (i : Input S) (W : Nat) : ∃ N, ∀ sched, SchedOk W sched → (∀ w, w < W → N < sched.count w) →
    Finished W (exec i sched) := by
  refine ⟨weight i W (init i), ?_⟩
  intro sched hok hcnt w hw
  by_cases hz : ((exec i sched).thr w).left = 0
  · exact left_zero _ hz
  · have := running_bound i W w hw sched (init i) hok hz
    have := hcnt w hw
    omega

/-- **C45 (limit).** `hardware_concurrency()` may be 0; then there is no thread, nothing is evaluated and the report is empty. -/
theorem C45_limit_no_threads (i : Input S) (sched : List Nat) (h : SchedOk 0 sched) :
    Finished 0 (exec i sched) ∧ ∀ f, (exec i sched).colls f = some {} := by
  cases sched with
  | nil => exact ⟨fun w hw => absurd hw (by omega), fun _ => rfl⟩
  | cons w _ => exact absurd (h w (List.mem_cons_self ..)) (by omega)

/-! ## Example -/

/-- Three feeds; in the second one a trip is missing and one has no shape. -/
def exIn : Input Nat :=
  { g := exGrid, asserts := true, mots := [3],
    truth := [exTrip 1 (some (exLine 3)), exTrip 2 (some (exLine 3)), ⟨3, 2, [], none⟩],
    feeds := [[exTrip 1 (some (exLine 3)), exTrip 2 (some (exLine 5))], [exTrip 1 none], [exTrip 2 (some (exLine 3)), exTrip 4 (some (exLine 3))]] }

def exSched : List Nat := [0, 1, 1, 0, 1, 0, 0, 1, 0, 1, 0, 1, 1, 0, 0, 0]

example : SchedOk 2 exSched := by unfold SchedOk exSched; decide
example : Finished 2 (exec exIn exSched) := by
  intro w hw
  match w, hw with
  | 0, _ => exact left_zero _ (by decide +kernel)
  | 1, _ => exact left_zero _ (by decide +kernel)
example : (exec exIn exSched).log = [2, 1, 0] ∧
    (List.range 3).map (fun f => ((exec exIn exSched).colls f).map fun c => (c.trips, c.rows.length)) = [some (2, 2), some (0, 0), some (1, 1)] := by
  decide +kernel

end Verif.Eval.Feeds
