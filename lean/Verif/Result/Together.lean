import Verif.Result.Own

/-!
# Trips of one leaf get one shape (invariant)

The workers are those of `Verif.Shapes.Workers`.
-/

namespace Verif.Result
open Verif.Shapes Verif.Shapes.Workers

/-- A trip is in one leaf. -/
theorem leaf_unique {g : Cfg} (hv : Workers.Valid g) {l l' : Leaf} (hl : l ∈ g.jobs.flatten) (hl' : l' ∈ g.jobs.flatten) {t : Nat}
    (ht : t ∈ l.trips) (ht' : t ∈ l'.trips) : l = l' := by
  have hn : (g.jobs.flatten.flatMap (·.trips)).Nodup := by
    have := hv.nodup
    unfold allTrips at this
    rw [List.flatten_eq_flatMap, List.flatMap_assoc]
    exact this
  revert hl hl' hn
  generalize g.jobs.flatten = ls
  intro hl hl' hn
  induction ls with
  | nil => cases hl
  | cons a ls ih =>
    rw [List.flatMap_cons, List.nodup_append] at hn
    obtain ⟨_, h2, h3⟩ := hn
    rcases List.mem_cons.mp hl with e1 | m1
    · rcases List.mem_cons.mp hl' with e2 | m2
      · exact e1.trans e2.symm
      · exact absurd rfl (h3 t (e1 ▸ ht) t (List.mem_flatMap.mpr ⟨l', m2, ht'⟩))
    · rcases List.mem_cons.mp hl' with e2 | m2
      · exact absurd rfl (h3 t (e2 ▸ ht') t (List.mem_flatMap.mpr ⟨l, m1, ht⟩))
      · exact ih m1 m2 h2

/-- The trips whose shape is set before the next id is asked for. -/
def block : List Instr → List Nat
  | [] => []
  | .free _ :: _ => []
  | .set t _ :: l => t :: block l
  | .use _ :: l => block l
  | .store _ _ :: l => block l
  | .chk _ :: l => block l

/-- After each request for an id come the trips of one leaf. -/
def Blocks (ls : List Leaf) : List Instr → Prop
  | [] => True
  | .free _ :: l => (∃ f ∈ ls, ∀ t, t ∈ block l ↔ t ∈ f.trips) ∧ Blocks ls l
  | .set _ _ :: l => Blocks ls l
  | .use _ :: l => Blocks ls l
  | .store _ _ :: l => Blocks ls l
  | .chk _ :: l => Blocks ls l

theorem block_sub {t : Nat} : ∀ {l : List Instr}, t ∈ block l → t ∈ setTrips l
  | [], h => h
  | .free _ :: _, h => by cases h
  | .set x p :: l, h => by
    show t ∈ x :: setTrips l
    rcases List.mem_cons.mp h with e | h
    · rw [e]; exact List.mem_cons_self ..
    · exact List.mem_cons_of_mem _ (block_sub (l := l) h)
  | .use _ :: l, h => block_sub (l := l) h
  | .store _ _ :: l, h => block_sub (l := l) h
  | .chk _ :: l, h => block_sub (l := l) h

theorem block_job : ∀ j : List Leaf, block (jobCode j) = []
  | [] => rfl
  | _ :: _ => rfl

theorem block_trips (pts : List Point) (rest : List Instr) (hr : block rest = []) : ∀ ts : List Nat,
    block ((ts.flatMap fun t => [.use t, .set t pts]) ++ rest) = ts
  | [] => hr
  | t :: ts => congrArg (t :: ·) (block_trips pts rest hr ts)

theorem blocks_trips {ls : List Leaf} (pts : List Point) (rest : List Instr) (hr : Blocks ls rest) : ∀ ts : List Nat,
    Blocks ls ((ts.flatMap fun t => [.use t, .set t pts]) ++ rest)
  | [] => hr
  | _ :: ts => blocks_trips pts rest hr ts

theorem blocks_job {ls : List Leaf} : ∀ j : List Leaf, (∀ f ∈ j, f ∈ ls) → Blocks ls (jobCode j)
  | [], _ => True.intro
  | f :: j, h => by
    show Blocks ls (.free f.ty :: ((f.trips.flatMap fun t => [.use t, .set t f.pts]) ++ jobCode j))
    refine ⟨⟨f, h f (List.mem_cons_self ..), fun t => ?_⟩,
      blocks_trips f.pts _ (blocks_job j fun f hf => h f (List.mem_cons_of_mem _ hf)) f.trips⟩
    rw [block_trips f.pts _ (block_job j) f.trips]

/-- What is known about trips of one leaf. -/
structure Tog (g : Cfg) (W : Nat) (s : Sys) : Prop where
  one : ∀ w w', w < W → w' < W → ∀ l ∈ g.jobs.flatten, ∀ t ∈ l.trips, ∀ t' ∈ l.trips, t ∈ setTrips (s.thr w).code →
    t' ∈ setTrips (s.thr w').code → w = w'
  cur : ∀ w, w < W → ∀ l ∈ g.jobs.flatten, ∀ t ∈ l.trips, t ∈ block (s.thr w).code → ∀ k ∈ l.trips, k ∈ s.setd →
    s.shape k = (s.thr w).cur
  same : ∀ l ∈ g.jobs.flatten, ∀ k ∈ l.trips, ∀ k' ∈ l.trips, k ∈ s.setd → k' ∈ s.setd → s.shape k = s.shape k'
  blocks : ∀ w, Blocks g.jobs.flatten (s.thr w).code

theorem Tog.start (g : Cfg) (W : Nat) : Tog g W (init g) where
  one := by intro w w' _ _ l _ t _ t' _ h; cases h
  cur := by intro w _ l _ t _ h; cases h
  same := by intro l _ k _ k' _ h; cases h
  blocks := fun _ => True.intro

/-- A thread goes on without setting a shape or asking for an id. -/
theorem Tog.quiet {g : Cfg} {W : Nat} {s s' : Sys} {w : Nat} {th : Thread} (h : Tog g W s) (e1 : s'.thr = upd s.thr w th)
    (e2 : s'.shape = s.shape) (e3 : s'.setd = s.setd) (e4 : th.cur = (s.thr w).cur) (e5 : setTrips th.code = setTrips (s.thr w).code)
    (e6 : block th.code = block (s.thr w).code) (hb : Blocks g.jobs.flatten th.code) : Tog g W s' := by
  have a1 : ∀ v, setTrips (s'.thr v).code = setTrips (s.thr v).code := by
    intro v; rw [e1]
    by_cases e : v = w
    · subst e; rw [upd_same, e5]
    · rw [upd_ne _ _ e]
  have a2 : ∀ v, block (s'.thr v).code = block (s.thr v).code := by
    intro v; rw [e1]
    by_cases e : v = w
    · subst e; rw [upd_same, e6]
    · rw [upd_ne _ _ e]
  have a3 : ∀ v, (s'.thr v).cur = (s.thr v).cur := by
    intro v; rw [e1]
    by_cases e : v = w
    · subst e; rw [upd_same, e4]
    · rw [upd_ne _ _ e]
  constructor
  · intro v v' hv hv' l hl t ht t' ht' h1 h2
    rw [a1] at h1 h2
    exact h.one v v' hv hv' l hl t ht t' ht' h1 h2
  · intro v hv l hl t ht h1 k hk h2
    rw [a2] at h1; rw [e3] at h2; rw [a3, e2]
    exact h.cur v hv l hl t ht h1 k hk h2
  · rw [e2, e3]; exact h.same
  · intro v; rw [e1]
    by_cases e : v = w
    · subst e; rw [upd_same]; exact hb
    · rw [upd_ne _ _ e]; exact h.blocks v

theorem Tog.step {g : Cfg} {W : Nat} {s : Sys} {w : Nat} (hw : w < W) (hv : Workers.Valid g) (hc : Ctl g W s) (h : Tog g W s) :
    Tog g W (step g s w) := by
  have hnd : (s.setd ++ (pend setTrips W s.thr ++ future g s.next)).Nodup := hc.sPerm.nodup_iff.mpr hv.nodup
  rw [List.nodup_append] at hnd
  obtain ⟨_, hnd2, hnd3⟩ := hnd
  rw [List.nodup_append] at hnd2
  obtain ⟨_, _, hnd4⟩ := hnd2
  have notSet : ∀ v, v < W → ∀ t, t ∈ setTrips (s.thr v).code → t ∉ s.setd :=
    fun v hv t ht hs => hnd3 t hs t (List.mem_append_left _ (mem_pend hv ht)) rfl
  apply step_cases (P := Tog g W)
  · intro _; exact h
  · intro hst hcode
    unfold fetch
    split
    · exact h.quiet (w := w) (th := { s.thr w with stopped := true }) rfl rfl rfl rfl rfl rfl (h.blocks w)
    · rename_i j hj
      have hjs : ∀ f ∈ j, f ∈ g.jobs.flatten := fun f hf => List.mem_flatten.mpr ⟨j, List.mem_of_getElem? hj, hf⟩
      have away : ∀ v, v < W → ∀ l ∈ g.jobs.flatten, ∀ t ∈ l.trips, ∀ t' ∈ l.trips, t ∈ jobTrips j → t' ∉ setTrips (s.thr v).code := by
        intro v hv' l hl t ht t' ht' h1 h2
        obtain ⟨f, hf, htf⟩ := List.mem_flatMap.mp h1
        have : l = f := leaf_unique hv hl (hjs f hf) ht htf
        subst this
        have h3 : t' ∈ future g s.next := by
          rw [future_cons hj]
          exact List.mem_append_left _ (List.mem_flatMap.mpr ⟨l, hf, ht'⟩)
        exact hnd4 t' (mem_pend hv' h2) t' h3 rfl
      constructor
      · intro v v' hv1 hv2 l hl t ht t' ht' h1 h2
        dsimp only at h1 h2
        by_cases e : v = w
        · by_cases e' : v' = w
          · rw [e, e']
          · subst e
            rw [upd_same] at h1; rw [upd_ne _ _ e'] at h2
            rw [setTrips_job] at h1
            exact absurd h2 (away v' hv2 l hl t ht t' ht' h1)
        · by_cases e' : v' = w
          · subst e'
            rw [upd_same] at h2; rw [upd_ne _ _ e] at h1
            rw [setTrips_job] at h2
            exact absurd h1 (away v hv1 l hl t' ht' t ht h2)
          · rw [upd_ne _ _ e] at h1; rw [upd_ne _ _ e'] at h2
            exact h.one v v' hv1 hv2 l hl t ht t' ht' h1 h2
      · intro v hv1 l hl t ht h1 k hk h2
        dsimp only at h1 h2 ⊢
        by_cases e : v = w
        · subst e
          rw [upd_same] at h1
          rw [block_job] at h1
          cases h1
        · rw [upd_ne _ _ e] at h1 ⊢
          exact h.cur v hv1 l hl t ht h1 k hk h2
      · exact h.same
      · intro v
        dsimp only
        by_cases e : v = w
        · subst e; rw [upd_same]; exact blocks_job j hjs
        · rw [upd_ne _ _ e]; exact h.blocks v
  · intro i rest hst hcode
    have hb := h.blocks w
    rw [hcode] at hb
    cases i with
    | free ty =>
      simp only [runInstr]
      split
      · exact h
      · rename_i id cnt he
        obtain ⟨⟨f, hf, hft⟩, hb⟩ := hb
        have est : setTrips (s.thr w).code = setTrips rest := by rw [hcode]; rfl
        have sub : ∀ v, setTrips (upd s.thr w { s.thr w with cur := id, code := rest } v).code = setTrips (s.thr v).code := by
          intro v
          by_cases e : v = w
          · subst e; rw [upd_same, est]
          · rw [upd_ne _ _ e]
        constructor
        · intro v v' hv1 hv2 l hl t ht t' ht' h1 h2
          dsimp only at h1 h2
          rw [sub] at h1 h2
          exact h.one v v' hv1 hv2 l hl t ht t' ht' h1 h2
        · intro v hv1 l hl t ht h1 k hk h2
          dsimp only at h1 h2 ⊢
          by_cases e : v = w
          · subst e
            rw [upd_same] at h1
            have h1 : t ∈ block rest := h1
            have : l = f := leaf_unique hv hl hf ht ((hft t).mp h1)
            subst this
            exact absurd h2 (notSet v hv1 k (by rw [est]; exact block_sub ((hft k).mpr hk)))
          · rw [upd_ne _ _ e] at h1 ⊢
            exact h.cur v hv1 l hl t ht h1 k hk h2
        · exact h.same
        · intro v
          dsimp only
          by_cases e : v = w
          · subst e; rw [upd_same]; exact hb
          · rw [upd_ne _ _ e]; exact h.blocks v
    | use t =>
      simp only [runInstr]
      split
      · split
        · exact h.quiet (w := w) rfl rfl rfl rfl (by rw [hcode]; rfl) (by rw [hcode]; rfl) hb
        · exact h.quiet (w := w) rfl rfl rfl rfl (by rw [hcode]; rfl) (by rw [hcode]; rfl) hb
      · exact h.quiet (w := w) rfl rfl rfl rfl (by rw [hcode]; rfl) (by rw [hcode]; rfl) hb
    | store sh v => exact h.quiet (w := w) rfl rfl rfl rfl (by rw [hcode]; rfl) (by rw [hcode]; rfl) hb
    | chk x => exact h.quiet (w := w) rfl rfl rfl rfl (by rw [hcode]; rfl) (by rw [hcode]; rfl) hb
    | set t pts =>
      have est : setTrips (s.thr w).code = t :: setTrips rest := by rw [hcode]; rfl
      have ebl : block (s.thr w).code = t :: block rest := by rw [hcode]; rfl
      have sub : ∀ v x, x ∈ setTrips (upd s.thr w { s.thr w with code := rest } v).code → x ∈ setTrips (s.thr v).code := by
        intro v x hx
        by_cases e : v = w
        · subst e; rw [upd_same] at hx; rw [est]; exact List.mem_cons_of_mem _ hx
        · rwa [upd_ne _ _ e] at hx
      have tnew : t ∉ s.setd := notSet w hw t (by rw [est]; exact List.mem_cons_self ..)
      have head : ∀ l ∈ g.jobs.flatten, t ∈ l.trips → ∀ k ∈ l.trips, k ∈ s.setd ++ [t] →
          upd s.shape t (s.thr w).cur k = (s.thr w).cur := by
        intro l hl ht k hk h1
        by_cases e : k = t
        · subst e; rw [upd_same]
        · rw [upd_ne _ _ e]
          rcases List.mem_append.mp h1 with h1 | h1
          · exact h.cur w hw l hl t ht (by rw [ebl]; exact List.mem_cons_self ..) k hk h1
          · exact absurd (List.mem_singleton.mp h1) e
      have old : ∀ l : Leaf, t ∉ l.trips → ∀ k ∈ l.trips, k ∈ s.setd ++ [t] →
          upd s.shape t (s.thr w).cur k = s.shape k ∧ k ∈ s.setd := by
        intro l ht k hk h1
        have e : k ≠ t := fun e => ht (e ▸ hk)
        refine ⟨upd_ne _ _ e, ?_⟩
        rcases List.mem_append.mp h1 with h1 | h1
        · exact h1
        · exact absurd (List.mem_singleton.mp h1) e
      constructor
      · intro v v' hv1 hv2 l hl x hx x' hx' h1 h2
        exact h.one v v' hv1 hv2 l hl x hx x' hx' (sub v x h1) (sub v' x' h2)
      · intro v hv1 l hl x hx h1 k hk h2
        simp only [runInstr] at h1 h2 ⊢
        by_cases e : v = w
        · subst e
          rw [upd_same] at h1 ⊢
          have h1 : x ∈ block rest := h1
          by_cases ht : t ∈ l.trips
          · exact head l hl ht k hk h2
          · obtain ⟨e1, e2⟩ := old l ht k hk h2
            rw [e1]
            exact h.cur v hv1 l hl x hx (by rw [ebl]; exact List.mem_cons_of_mem _ h1) k hk e2
        · rw [upd_ne _ _ e] at h1 ⊢
          have ht : t ∉ l.trips := fun ht => e (h.one v w hv1 hw l hl x hx t ht (block_sub h1) (by rw [est]; exact List.mem_cons_self ..))
          obtain ⟨e1, e2⟩ := old l ht k hk h2
          rw [e1]
          exact h.cur v hv1 l hl x hx h1 k hk e2
      · intro l hl k hk k' hk' h1 h2
        simp only [runInstr] at h1 h2 ⊢
        by_cases ht : t ∈ l.trips
        · rw [head l hl ht k hk h1, head l hl ht k' hk' h2]
        · obtain ⟨e1, e2⟩ := old l ht k hk h1
          obtain ⟨e3, e4⟩ := old l ht k' hk' h2
          rw [e1, e3]
          exact h.same l hl k hk k' hk' e2 e4
      · intro v
        simp only [runInstr]
        by_cases e : v = w
        · subst e; rw [upd_same]; exact hb
        · rw [upd_ne _ _ e]; exact h.blocks v

theorem tog_run (g : Cfg) (W : Nat) (hv : Workers.Valid g) (sched : List Nat) (h : SchedOk W sched) : Tog g W (run g sched) :=
  run_induct (P := Tog g W) (Tog.start g W) (fun sch hs _w hw ih => Tog.step hw hv (ctl g W sch hs) ih) sched h

end Verif.Result
