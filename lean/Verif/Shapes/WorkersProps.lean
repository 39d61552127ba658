import Verif.Shapes.WorkersInv

/-!
# Shape workers (properties)

C08 fresh ids under concurrency, C45 work distribution, C47 dropping old shapes,
and the reachable part of C07.

A schedule is any list of thread numbers; `SchedOk W` says that there are `W`
threads. `Valid g`: a trip occurs in at most one leaf and is in the feed (this
is property C12).
-/

namespace Verif.Shapes.Workers
open Verif.Shapes

/-- All `W` threads have returned (`thr.join()`, ShapeBuilder.cpp:446). -/
def Finished (W : Nat) (s : Sys) : Prop := ∀ w, w < W → (s.thr w).stopped = true

/-! ## C08 -/

/-- **C08.** Under any schedule of any number of threads all ids handed out are
pairwise different. -/
theorem C08_ids_distinct (g : Cfg) (sched : List Nat) : (run g sched).handed.Nodup :=
  (hand g sched).nodup

/-- **C08.** Whenever a turn hands out an id, this id is not registered in the
feed at that time, and has not been handed out before. -/
theorem C08_id_free_when_handed (g : Cfg) (sched : List Nat) (w : Nat)
    (h : (run g (sched ++ [w])).handed ≠ (run g sched).handed) :
    ∃ id, (run g (sched ++ [w])).handed = (run g sched).handed ++ [id] ∧
      (exec g.limit (run g sched).hist).has id = false ∧ id ∉ (run g sched).handed := by
  have e : run g (sched ++ [w]) = step g (run g sched) w := by simp [run]
  rw [e] at h ⊢
  have hh := hand g sched
  generalize run g sched = s at *
  revert h
  apply step_cases (P := fun s' => s'.handed ≠ s.handed → ∃ id, s'.handed = s.handed ++ [id] ∧
    (exec g.limit s.hist).has id = false ∧ id ∉ s.handed)
  · intro _ h; exact absurd rfl h
  · intro _ _
    unfold fetch
    split <;> intro h <;> exact absurd rfl h
  · intro i rest _ _
    cases i with
    | free ty =>
      simp only [runInstr]
      split
      · intro h; exact absurd rfl h
      · rename_i id cnt he
        intro _
        obtain ⟨h1, h2, h3⟩ := free_fresh he
        refine ⟨id, rfl, ?_, ?_⟩
        · unfold Container.has
          rw [decide_eq_false_iff_not, (exec_inv g.limit s.hist).1 id, h1]
          simp
        · rw [h3]; exact free_new hh h2
    | use t =>
      simp only [runInstr]
      split
      · split <;> intro h <;> exact absurd rfl h
      · intro h; exact absurd rfl h
    | store sh v => intro h; exact absurd rfl h
    | chk sh => intro h; exact absurd rfl h
    | set t pts => intro h; exact absurd rfl h

/-- **C08.** The search for a free id always ends with one, for any content of
the container. -/
theorem C08_search_ends (c : Container) (type cnt : Nat) :
    ∃ id cnt', getFreeShapeId c type cnt = some (id, cnt') ∧ c.has id = false := by
  obtain ⟨id, cnt', h⟩ := getFreeShapeId_total c type cnt
  refine ⟨id, cnt', h, ?_⟩
  have := (freeLoop_spec _ _ _ _ h).1
  simp [Container.has, this]

/-! ## C45 -/

/-- **C45.** At any time the jobs fetched so far are `0, 1, 2, ...` without
repetition, whatever the schedule. -/
theorem C45_jobs_in_order (g : Cfg) (W : Nat) (sched : List Nat) (h : SchedOk W sched) :
    ∃ n, n ≤ g.jobs.length ∧ (run g sched).log = List.range n :=
  ⟨_, Nat.min_le_right _ _, (ctl g W sched h).log⟩

/-- **C45.** When all workers have returned (at least one worker), every job has
been run exactly once, to completion: every trip of every job has got its shape
exactly once. -/
theorem C45_each_job_once (g : Cfg) (W : Nat) (hW : 0 < W) (sched : List Nat)
    (h : SchedOk W sched) (hf : Finished W (run g sched)) :
    (run g sched).log = List.range g.jobs.length ∧
    (run g sched).setd.Perm (g.jobs.flatMap fun j => j.flatMap (·.trips)) := by
  have hc := ctl g W sched h
  obtain ⟨_, hn⟩ := hc.stop 0 (hf 0 hW)
  refine ⟨by rw [hc.log, Nat.min_eq_right (by omega)], ?_⟩
  have hp := hc.sPerm
  have h1 : pend setTrips W (run g sched).thr = [] := by
    unfold pend
    rw [List.flatMap_eq_nil_iff]
    intro w hw
    rw [(hc.stop w (hf w (List.mem_range.mp hw))).1]; rfl
  have h2 : future g (run g sched).next = [] :=
    future_none (List.getElem?_eq_none_iff.mpr (by omega))
  rw [h1, h2, List.append_nil, List.append_nil] at hp
  exact hp

/-- Number of turns of `w` in a schedule at which it was still running. -/
theorem running_bound (g : Cfg) (W : Nat) (w : Nat) (hw : w < W) : ∀ (sched : List Nat) (s : Sys),
    SchedOk W sched → ((sched.foldl (step g) s).thr w).stopped = false →
    sched.count w + weight g W (sched.foldl (step g) s) ≤ weight g W s := by
  intro sched
  induction sched with
  | nil => intro s _ _; simp
  | cons v sched ih =>
    intro s hok hrun
    have hv : v < W := hok v (by simp)
    have hok' : SchedOk W sched := fun x hx => hok x (by simp [hx])
    have := ih (step g s v) hok' hrun
    simp only [List.foldl_cons] at *
    -- `w` runs at the end, so it ran all the time
    have back : ∀ (l : List Nat) (s : Sys), (s.thr w).stopped = true →
        ((l.foldl (step g) s).thr w).stopped = true := by
      intro l
      induction l with
      | nil => intro s h; exact h
      | cons x l ih => intro s h; exact ih _ (stopped_step h)
    have hw0 : (s.thr w).stopped = false := by
      cases hh : (s.thr w).stopped with
      | false => rfl
      | true => rw [back sched _ (stopped_step hh)] at hrun; cases hrun
    have hle : weight g W (step g s v) ≤ weight g W s := by
      cases hh : (s.thr v).stopped with
      | false => exact Nat.le_of_lt (weight_step hv hh)
      | true => simp [step, hh]
    rw [List.count_cons]
    by_cases e : v = w
    · subst e
      have := weight_step (g := g) hv hw0
      simp only [beq_self_eq_true, if_true]
      omega
    · simp only [beq_iff_eq, e, if_false]
      omega

/-- **C45.** The workers terminate: there is a bound such that every schedule
which gives each worker more turns than the bound ends with all of them having
returned. -/
theorem C45_terminates (g : Cfg) (W : Nat) : ∃ N, ∀ sched, SchedOk W sched →
    (∀ w, w < W → N < sched.count w) → Finished W (run g sched) := by
  refine ⟨weight g W (init g), ?_⟩
  intro sched hok hcnt w hw
  cases hh : ((run g sched).thr w).stopped with
  | true => rfl
  | false =>
    have := running_bound g W w hw sched (init g) hok hh
    have := hcnt w hw
    omega

/-- **C45.** The progress output never divides by zero when a job is run. -/
theorem C45_progress_divisor (n : Nat) (h : 0 < n) : 0 < progressDivisor n := by
  unfold progressDivisor
  split
  · rw [Nat.div_self h]; exact Nat.one_pos
  · exact Nat.div_pos (by omega) (by omega)

/-! ## C47 -/

/-- **C47 (safety).** A shape present at the start stays present as long as some
trip of the feed that uses it has not been taken up by a worker; in particular
if such a trip is not shaped at all. The counters need not be atomic: a lost
update makes them too great. -/
theorem C47_kept_while_used (g : Cfg) (W : Nat) (hv : Valid g)
    (sched : List Nat) (h : SchedOk W sched) (sh : Str) (h0 : live g.past sh = true) (t : Nat)
    (ht : t ∈ g.feed) (hs : g.shape0 t = sh) (hd : t ∉ (run g sched).decd) :
    (exec g.limit (run g sched).hist).has sh = true := by
  have hp := safe g W hv sched h
  unfold Container.has
  rw [decide_eq_true_eq, (exec_inv g.limit _).1]
  cases hl : live (run g sched).hist sh with
  | true => rfl
  | false => exact absurd ((hp sh h0 hl).2 t ht hs) hd

/-- **C47 (safety at the end).** When all workers have returned, a shape that was
present at the start and is gone had users, and all of them have got a new
shape. -/
theorem C47_dropped_only_if_replaced (g : Cfg) (W : Nat) (hW : 0 < W)
    (hv : Valid g) (sched : List Nat) (h : SchedOk W sched) (hf : Finished W (run g sched))
    (sh : Str) (h0 : live g.past sh = true)
    (hgone : (exec g.limit (run g sched).hist).has sh = false) :
    (∃ t ∈ g.feed, g.shape0 t = sh) ∧
    ∀ t ∈ g.feed, g.shape0 t = sh → t ∈ (run g sched).setd := by
  have hp := safe g W hv sched h
  have hc := ctl g W sched h
  have hl : live (run g sched).hist sh = false := by
    cases hl : live (run g sched).hist sh with
    | false => rfl
    | true =>
      rw [← (exec_inv g.limit _).1] at hl
      simp [Container.has, hl] at hgone
  obtain ⟨h1, h2⟩ := hp sh h0 hl
  refine ⟨h1, fun t ht e => ?_⟩
  have hd := h2 t ht e
  have := (C45_each_job_once g W hW sched h hf).2
  rw [this.mem_iff]
  exact hc.uPerm.mem_iff.mp (List.mem_append_left _ hd)

/-- **C47 (liveness).** When all workers have returned, a shape all of whose
users were shaped is gone (unless its id was handed out again, see
`C07_negation`). -/
theorem C47_dropped_when_replaced (g : Cfg) (W : Nat) (hW : 0 < W) (ha : g.atomicDec = true)
    (hv : Valid g) (sched : List Nat) (h : SchedOk W sched) (hf : Finished W (run g sched))
    (sh : Str) (hne : sh ≠ []) (hnew : sh ∉ (run g sched).handed)
    (hex : ∃ t ∈ g.feed, g.shape0 t = sh)
    (hall : ∀ t ∈ g.feed, g.shape0 t = sh → ∃ j ∈ g.jobs, ∃ l ∈ j, t ∈ l.trips) :
    (exec g.limit (run g sched).hist).has sh = false := by
  have hp := pres g W ha hv sched h
  have hc := ctl g W sched h
  have hcnt := count g W ha hv sched h
  obtain ⟨_, hn⟩ := hc.stop 0 (hf 0 hW)
  have h1 : pend useTrips W (run g sched).thr = [] := by
    unfold pend
    rw [List.flatMap_eq_nil_iff]
    intro w hw
    rw [(hc.stop w (hf w (List.mem_range.mp hw))).1]; rfl
  have h2 : future g (run g sched).next = [] :=
    future_none (List.getElem?_eq_none_iff.mpr (by omega))
  have hperm := hc.uPerm
  rw [h1, h2, List.append_nil, List.append_nil] at hperm
  have hz : (run g sched).use sh = 0 := by
    apply use_zero hv hcnt hne
    intro t ht e
    rw [hperm.mem_iff]
    obtain ⟨j, hj, l, hl, htl⟩ := hall t ht e
    exact List.mem_flatMap.mpr ⟨j, hj, List.mem_flatMap.mpr ⟨l, hl, htl⟩⟩
  rcases hp.gone sh hne hnew hex hz with hl | ⟨w, hw, hm⟩
  · unfold Container.has
    rw [decide_eq_false_iff_not, (exec_inv g.limit _).1, hl]; simp
  · rw [(hc.stop w (hf w hw)).1] at hm; simp at hm

/-- **C47 (new shapes).** If no trip to be shaped has an old shape whose id looks
like a generated one (trivial without `--drop-shapes`), then at any
time every trip that got a new shape refers to a registered shape. Without the
proviso this fails: `C47_new_shape_lost`. -/
theorem C47_new_shapes_present_partial (g : Cfg) (W : Nat) (hv : Valid g)
    (hp : PastOk g.past) (hn : NoClash g) (sched : List Nat) (h : SchedOk W sched) (t : Nat)
    (ht : t ∈ (run g sched).setd) :
    (run g sched).shape t ∈ (run g sched).handed ∧
    (exec g.limit (run g sched).hist).has ((run g sched).shape t) = true := by
  obtain ⟨h1, h2⟩ := (news g W hv hp hn sched h).assigned t ht
  refine ⟨h1, ?_⟩
  unfold Container.has
  rw [decide_eq_true_eq, (exec_inv g.limit _).1, h2]

/-! ### Witnesses -/

instance (W : Nat) (sched : List Nat) : Decidable (SchedOk W sched) :=
  inferInstanceAs (Decidable (∀ w ∈ sched, w < W))

def pt (n : Nat) : Point := ⟨[n], [n], [n]⟩

/-- Three workers' worth of jobs; trips 1 and 2 use the old shape `shp_3_3`. -/
def gClash (atomic : Bool) : Cfg :=
  { limit := 100, jobs := [[⟨3, [1], [pt 1]⟩], [⟨3, [2], [pt 2]⟩], [⟨3, [3], [pt 3]⟩]],
    feed := [1, 2, 3], shape0 := fun t => if t = 3 then [] else shapeId 3 3,
    past := [.register (shapeId 3 3)], atomicDec := atomic }

theorem gClash_valid : Valid (gClash true) := ⟨by decide, by decide, by decide⟩

/-- **C47 (negation for reused ids).** Even with atomic counters there is a
schedule after which a trip refers to a new shape that is not registered: the
old id `shp_3_3` is removed, handed out again, and removed a second time by a
worker that was held up between decrementing and testing the counter. -/
theorem C47_new_shape_lost : Valid (gClash true) ∧ ∃ sched, SchedOk 3 sched ∧ Finished 3 (run (gClash true) sched) ∧
    3 ∈ (run (gClash true) sched).setd ∧
    (exec 100 (run (gClash true) sched).hist).has ((run (gClash true) sched).shape 3) = false := by
  refine ⟨gClash_valid, [0, 0, 0, 1, 1, 1, 1, 2, 2, 2, 2, 0, 0, 1, 0, 1, 2], by decide, ?_,
    by decide +kernel, by decide +kernel⟩
  intro w hw
  match w, hw with
  | 0, _ => decide +kernel
  | 1, _ => decide +kernel
  | 2, _ => decide +kernel

/-- No id clash: the old shape is called `x`. -/
def gRace (atomic : Bool) : Cfg :=
  { limit := 100, jobs := [[⟨3, [1], [pt 1]⟩], [⟨3, [2], [pt 2]⟩]],
    feed := [1, 2], shape0 := fun _ => [120], past := [.register [120]], atomicDec := atomic }

/-- **C47 (negation for the code as it is).** The counters are not atomic: with
a load and a store per decrement an update can be lost, and a shape that no trip
uses any more is kept. -/
theorem C47_lost_update : ∃ sched, SchedOk 2 sched ∧ Finished 2 (run (gRace false) sched) ∧
    (exec 100 (run (gRace false) sched).hist).has [120] = true ∧
    (run (gRace false) sched).shape 1 ≠ [120] ∧ (run (gRace false) sched).shape 2 ≠ [120] := by
  refine ⟨[0, 0, 0, 1, 1, 1, 0, 1, 0, 1, 0, 1, 0, 1], by decide, ?_,
    by decide +kernel, by decide +kernel, by decide +kernel⟩
  intro w hw
  match w, hw with
  | 0, _ => decide +kernel
  | 1, _ => decide +kernel

/-- Non-vacuity: the hypotheses of the C47 and C45 theorems are met by a finished
concurrent run. -/
example : Valid (gRace true) ∧ SchedOk 2 [0, 0, 0, 1, 1, 1, 0, 1, 0, 1, 0, 1] ∧
    PastOk (gRace true).past ∧ NoClash (gRace true) := by
  refine ⟨⟨by decide, by decide, by decide⟩, by decide, pastOk_registers [[120]], ?_⟩
  intro t _ ty k
  have h : shapeId ty k ≠ [120] := by simp [shapeId]
  exact fun e => h e.symm

example : ((run (gRace true) [0, 0, 0, 1, 1, 1, 0, 1, 0, 1, 0, 1]).thr 0).stopped = true ∧
    ((run (gRace true) [0, 0, 0, 1, 1, 1, 0, 1, 0, 1, 0, 1]).thr 1).stopped = true ∧
    (run (gRace true) [0, 0, 0, 1, 1, 1, 0, 1, 0, 1, 0, 1]).handed = [shapeId 3 1, shapeId 3 2] ∧
    (exec 100 (run (gRace true) [0, 0, 0, 1, 1, 1, 0, 1, 0, 1, 0, 1]).hist).has [120] = false := by
  decide +kernel

/-! ## C07 for the program -/

/-- **C07 (reachable, partial).** If no trip to be shaped has an old shape whose id
looks like a generated one, then
after any run no id of the written shapes.txt carries points of two shapes. -/
theorem C07_program_no_mixture_partial (w : Widths) (hw : 0 < w.lat + w.lng + w.dist) (g : Cfg)
    (W : Nat) (hv : Valid g) (hp : PastOk g.past) (hn : NoClash g) (sched : List Nat)
    (h : SchedOk W sched) (hg : AllGood w (run g sched).hist) (src : List Row)
    (hne : ∀ r ∈ src, r.id ≠ []) (hsrc : ∀ r ∈ src, live g.past r.id = true)
    (hold : ∀ s ∈ accepted g.past, ∀ r ∈ src, r.id ≠ s.id) (id : Str) :
    (writeShapes w src (exec g.limit (run g sched).hist)).filter (fun r => decide (r.id = id)) =
        (if live (run g sched).hist id then src.filter (fun r => decide (r.id = id)) else []) ∨
    ∃ s ∈ accepted (run g sched).hist, s.id = id ∧
      (writeShapes w src (exec g.limit (run g sched).hist)).filter
        (fun r => decide (r.id = id)) = shapeRows s := by
  have nw := news g W hv hp hn sched h
  apply C07_no_mixture_partial w hw g.limit _ hg src hne _ nw.accNodup
  intro s hs r hr e
  rcases (nw.accLive s hs).1 with h1 | h1
  · have := handed_fresh g W hv hn sched h _ h1
    rw [← e, hsrc r hr] at this
    cases this
  · exact hold s h1 r hr e

/-- One worker; trip 1 uses the old shape `shp_3_2`, trip 2 has none. -/
def gReuse : Cfg :=
  { limit := 100, jobs := [[⟨3, [1], [pt 1]⟩, ⟨3, [2], [pt 2]⟩]],
    feed := [1, 2], shape0 := fun t => if t = 1 then shapeId 3 2 else [],
    past := [.register (shapeId 3 2)], atomicDec := true }

/-- **C07 (negation).** With a single worker and shapes being dropped, the id
`shp_3_2` of a removed old shape is handed out again, and shapes.txt then
contains the old points *and* the new points under this id. -/
theorem C07_negation : ∃ sched, SchedOk 1 sched ∧ Finished 1 (run gReuse sched) ∧
    (run gReuse sched).shape 2 = shapeId 3 2 ∧
    writeShapes w1 [⟨shapeId 3 2, pt 9, 1⟩] (exec 100 (run gReuse sched).hist) =
      [⟨shapeId 3 2, pt 9, 1⟩, ⟨shapeId 3 1, pt 1, 1⟩, ⟨shapeId 3 2, pt 2, 1⟩] := by
  refine ⟨List.replicate 10 0, by decide, ?_, by decide +kernel, by decide +kernel⟩
  intro w hw
  match w, hw with
  | 0, _ => decide +kernel

end Verif.Shapes.Workers
