import Verif.Shapes.Workers

/-! # Shape workers: invariants -/

namespace Verif.Shapes.Workers
open Verif.Shapes

/-! ## Lists -/

theorem flatMap_upd_perm {α : Type} {f g : Nat → List α} {x : List α} {w : Nat} :
    ∀ {l : List Nat}, l.Nodup → w ∈ l → (∀ v, v ≠ w → f v = g v) → (f w).Perm (x ++ g w) →
    (l.flatMap f).Perm (x ++ l.flatMap g) := by
  intro l
  induction l with
  | nil => intro _ h; simp at h
  | cons a l ih =>
    intro hn hw hne hp
    rw [List.nodup_cons] at hn
    simp only [List.flatMap_cons]
    by_cases e : a = w
    · subst e
      have : l.flatMap f = l.flatMap g := by
        rw [List.flatMap_def, List.flatMap_def]
        congr 1
        apply List.map_congr_left
        intro v hv
        exact hne v (fun e => hn.1 (e ▸ hv))
      rw [this, ← List.append_assoc]
      exact hp.append_right _
    · have hw' : w ∈ l := by
        rcases List.mem_cons.mp hw with h | h
        · exact absurd h.symm e
        · exact h
      have := ih hn.2 hw' hne hp
      rw [hne a e]
      refine (List.Perm.append_left _ this).trans ?_
      rw [← List.append_assoc, ← List.append_assoc]
      exact (List.perm_append_comm).append_right _

/-- Elements selected from the remaining code of all threads. -/
def pend {α : Type} (p : List Instr → List α) (W : Nat) (thr : Nat → Thread) : List α :=
  (List.range W).flatMap fun w => p (thr w).code

theorem mem_pend {α : Type} {p : List Instr → List α} {W : Nat} {thr : Nat → Thread} {a : α}
    {w : Nat} (hw : w < W) (h : a ∈ p (thr w).code) : a ∈ pend p W thr :=
  List.mem_flatMap.mpr ⟨w, List.mem_range.mpr hw, h⟩

theorem upd_same {α β : Type} [DecidableEq α] (f : α → β) (a : α) (b : β) : upd f a b a = b := by
  simp [upd]

theorem upd_ne {α β : Type} [DecidableEq α] (f : α → β) {a x : α} (b : β) (h : x ≠ a) :
    upd f a b x = f x := by simp [upd, h]

theorem pend_consume {α : Type} {p : List Instr → List α} {W : Nat} {thr : Nat → Thread} {w : Nat}
    (hw : w < W) (th : Thread) (x : List α) (h : (p (thr w).code).Perm (x ++ p th.code)) :
    (pend p W thr).Perm (x ++ pend p W (upd thr w th)) := by
  refine flatMap_upd_perm List.nodup_range (List.mem_range.mpr hw) (fun v hv => ?_) ?_
  · rw [upd_ne _ _ hv]
  · rw [upd_same]; exact h

theorem pend_produce {α : Type} {p : List Instr → List α} {W : Nat} {thr : Nat → Thread} {w : Nat}
    (hw : w < W) (th : Thread) (x : List α) (h : (p th.code).Perm (x ++ p (thr w).code)) :
    (pend p W (upd thr w th)).Perm (x ++ pend p W thr) := by
  refine flatMap_upd_perm List.nodup_range (List.mem_range.mpr hw) (fun v hv => ?_) ?_
  · rw [upd_ne _ _ hv]
  · rw [upd_same]; exact h

theorem pend_same {α : Type} {p : List Instr → List α} {W : Nat} {thr : Nat → Thread} {w : Nat}
    (th : Thread) (h : p th.code = p (thr w).code) : pend p W (upd thr w th) = pend p W thr := by
  unfold pend
  rw [List.flatMap_def, List.flatMap_def]
  congr 1
  apply List.map_congr_left
  intro v _
  by_cases e : v = w
  · subst e; rw [upd_same, h]
  · rw [upd_ne _ _ e]

/-! ## Code -/

def Instr.useT : Instr → Option Nat
  | .use t => some t
  | _ => none

def Instr.setT : Instr → Option Nat
  | .set t _ => some t
  | _ => none

def useTrips (l : List Instr) : List Nat := l.filterMap Instr.useT
def setTrips (l : List Instr) : List Nat := l.filterMap Instr.setT

def jobTrips (j : List Leaf) : List Nat := j.flatMap (·.trips)

/-- All trips of all jobs. -/
def allTrips (g : Cfg) : List Nat := g.jobs.flatMap jobTrips

/-- Trips of jobs not fetched yet. -/
def future (g : Cfg) (n : Nat) : List Nat := (g.jobs.drop n).flatMap jobTrips

theorem useTrips_job (j : List Leaf) : useTrips (jobCode j) = jobTrips j := by
  have h : ∀ l : Leaf, useTrips l.code = l.trips := by
    intro l
    have : ∀ (ts : List Nat) (pts : List Point),
        useTrips (ts.flatMap fun t => [.use t, .set t pts]) = ts := by
      intro ts pts
      induction ts with
      | nil => rfl
      | cons t ts ih =>
        simp only [useTrips] at ih
        simp [useTrips, List.filterMap_cons, Instr.useT, ih]
    have e := this l.trips l.pts
    simp only [useTrips] at e
    simp [Leaf.code, useTrips, List.filterMap_cons, Instr.useT, e]
  induction j with
  | nil => rfl
  | cons l j ih =>
    have := h l
    simp only [useTrips, jobCode, jobTrips] at *
    simp [List.filterMap_append, this, ih]

theorem setTrips_job (j : List Leaf) : setTrips (jobCode j) = jobTrips j := by
  have h : ∀ l : Leaf, setTrips l.code = l.trips := by
    intro l
    have : ∀ (ts : List Nat) (pts : List Point),
        setTrips (ts.flatMap fun t => [.use t, .set t pts]) = ts := by
      intro ts pts
      induction ts with
      | nil => rfl
      | cons t ts ih =>
        simp only [setTrips] at ih
        simp [setTrips, List.filterMap_cons, Instr.setT, ih]
    have e := this l.trips l.pts
    simp only [setTrips] at e
    simp [Leaf.code, setTrips, List.filterMap_cons, Instr.setT, e]
  induction j with
  | nil => rfl
  | cons l j ih =>
    have := h l
    simp only [setTrips, jobCode, jobTrips] at *
    simp [List.filterMap_append, this, ih]

theorem future_cons {g : Cfg} {n : Nat} {j : List Leaf} (h : g.jobs[n]? = some j) :
    future g n = jobTrips j ++ future g (n + 1) := by
  unfold future
  have hlt : n < g.jobs.length := by
    rcases Nat.lt_or_ge n g.jobs.length with h' | h'
    · exact h'
    · rw [List.getElem?_eq_none h'] at h; cases h
  rw [List.drop_eq_getElem_cons hlt]
  rw [List.getElem?_eq_getElem hlt] at h
  cases h
  rfl

theorem future_none {g : Cfg} {n : Nat} (h : g.jobs[n]? = none) : future g n = [] := by
  unfold future
  rw [List.drop_eq_nil_of_le (List.getElem?_eq_none_iff.mp h)]
  rfl

/-! ## Reachability -/

/-- All scheduled threads exist. -/
def SchedOk (W : Nat) (sched : List Nat) : Prop := ∀ w ∈ sched, w < W

theorem run_induct {g : Cfg} {W : Nat} {P : Sys → Prop} (h0 : P (init g))
    (hs : ∀ sched, SchedOk W sched → ∀ w, w < W → P (run g sched) →
      P (step g (run g sched) w)) :
    ∀ sched, SchedOk W sched → P (run g sched) := by
  intro sched
  suffices H : ∀ r : List Nat, SchedOk W r.reverse → P (run g r.reverse) by
    intro h
    have := H sched.reverse (by simpa using h)
    simpa using this
  intro r
  induction r with
  | nil => intro _; exact h0
  | cons w r ih =>
    intro h
    rw [List.reverse_cons] at h ⊢
    have e : run g (r.reverse ++ [w]) = step g (run g r.reverse) w := by simp [run]
    rw [e]
    exact hs _ (fun v hv => h v (by simp [hv])) w (h w (by simp))
      (ih (fun v hv => h v (by simp at hv ⊢; exact Or.inl hv)))

/-- The two kinds of effective steps. -/
theorem step_cases {g : Cfg} {s : Sys} {w : Nat} (P : Sys → Prop) (h1 : (s.thr w).stopped = true → P s)
    (h2 : (s.thr w).stopped = false → (s.thr w).code = [] → P (fetch g w s))
    (h3 : ∀ i rest, (s.thr w).stopped = false → (s.thr w).code = i :: rest →
      P (runInstr g w s rest i)) : P (step g s w) := by
  unfold step
  cases hst : (s.thr w).stopped with
  | true => simpa using h1 hst
  | false =>
    simp only [Bool.false_eq_true, if_false]
    cases hc : (s.thr w).code with
    | nil => exact h2 hst hc
    | cons i rest => exact h3 i rest hst hc

/-! ## Control flow -/

/-- The next id to be set is known (`shp` has been assigned) unless a `free`
comes first. -/
def needsCur : List Instr → Bool
  | [] => false
  | .set _ _ :: _ => true
  | .free _ :: _ => false
  | _ :: l => needsCur l

/-- Every pending `use` of a trip is followed by its `set`. -/
def WF : List Instr → Prop
  | [] => True
  | .use t :: l => t ∈ setTrips l ∧ WF l
  | _ :: l => WF l

theorem WF.tail {i : Instr} {l : List Instr} (h : WF (i :: l)) : WF l := by
  cases i <;> first | exact h | exact h.2

theorem WF.job (j : List Leaf) : WF (jobCode j) := by
  have h1 : ∀ (ts : List Nat) (pts : List Point) (l : List Instr), WF l →
      WF ((ts.flatMap fun t => [.use t, .set t pts]) ++ l) := by
    intro ts pts l hl
    induction ts with
    | nil => exact hl
    | cons t ts ih => exact ⟨by simp [setTrips, List.filterMap_cons, Instr.setT], ih⟩
  induction j with
  | nil => exact True.intro
  | cons l j ih =>
    show WF (.free l.ty :: (l.trips.flatMap _) ++ jobCode j)
    exact h1 l.trips l.pts _ ih

structure Ctl (g : Cfg) (W : Nat) (s : Sys) : Prop where
  log : s.log = List.range (min s.next g.jobs.length)
  stop : ∀ w, (s.thr w).stopped = true → (s.thr w).code = [] ∧ g.jobs.length < s.next
  uPerm : (s.decd ++ (pend useTrips W s.thr ++ future g s.next)).Perm (allTrips g)
  sPerm : (s.setd ++ (pend setTrips W s.thr ++ future g s.next)).Perm (allTrips g)
  wf : ∀ w, WF (s.thr w).code
  shapeEq : ∀ t, t ∉ s.setd → s.shape t = g.shape0 t

theorem Ctl.init (g : Cfg) (W : Nat) : Ctl g W (init g) := by
  have hp : ∀ p : List Instr → List Nat, p [] = [] →
      pend p W (fun _ => (⟨[], [], false⟩ : Thread)) = [] := by
    intro p hp
    unfold pend
    simp [hp]
  refine ⟨by simp [Workers.init], by simp [Workers.init], ?_, ?_, by simp [Workers.init, WF],
    by simp [Workers.init]⟩
  · simp only [Workers.init, hp useTrips rfl]; simp [future, allTrips]
  · simp only [Workers.init, hp setTrips rfl]; simp [future, allTrips]

theorem shift_perm {α : Type} {a p f p' : List α} {x : List α} {all : List α}
    (h : (a ++ (p ++ f)).Perm all) (hp : p.Perm (x ++ p')) :
    ((a ++ x) ++ (p' ++ f)).Perm all := by
  refine List.Perm.trans ?_ h
  rw [List.append_assoc]
  refine List.Perm.append_left _ ?_
  rw [← List.append_assoc]
  exact (hp.symm).append_right _

/-- Effect of one action on the control state. -/
theorem Ctl.update {g : Cfg} {W : Nat} {s s' : Sys} {w : Nat} (hw : w < W) (h : Ctl g W s)
    {th : Thread} (e3 : s'.thr = upd s.thr w th) (xu xs : List Nat) {i : Instr} {rest : List Instr}
    (hc : (s.thr w).code = i :: rest) (hst : (s.thr w).stopped = false)
    (e1 : s'.log = s.log) (e2 : s'.next = s.next)
    (e4 : s'.decd = s.decd ++ xu) (e5 : s'.setd = s.setd ++ xs)
    (hu : useTrips (i :: rest) = xu ++ useTrips th.code)
    (hs : setTrips (i :: rest) = xs ++ setTrips th.code) (hwf : WF th.code)
    (hsh : ∀ t, t ∉ s'.setd → s'.shape t = g.shape0 t) (hstop : th.stopped = false) : Ctl g W s' := by
  refine ⟨by rw [e1, e2]; exact h.log, ?_, ?_, ?_, ?_, hsh⟩
  · intro v hv
    rw [e3] at hv ⊢; rw [e2]
    by_cases e : v = w
    · subst e; rw [upd_same, hstop] at hv; cases hv
    · rw [upd_ne _ _ e] at hv ⊢; exact h.stop v hv
  · rw [e2, e3, e4]
    exact shift_perm h.uPerm (pend_consume hw th xu (by rw [hc, hu]))
  · rw [e2, e3, e5]
    exact shift_perm h.sPerm (pend_consume hw th xs (by rw [hc, hs]))
  · intro v
    rw [e3]
    by_cases e : v = w
    · subst e; rw [upd_same]; exact hwf
    · rw [upd_ne _ _ e]; exact h.wf v

theorem Ctl.step {g : Cfg} {W : Nat} {s : Sys} {w : Nat} (hw : w < W) (h : Ctl g W s) :
    Ctl g W (step g s w) := by
  apply step_cases
  · intro _; exact h
  · intro hst hc
    unfold fetch
    split
    · rename_i hj
      have hle := List.getElem?_eq_none_iff.mp hj
      have e1 : future g (s.next + 1) = future g s.next := by
        rw [future_none hj, future_none (List.getElem?_eq_none_iff.mpr (by omega))]
      refine ⟨?_, ?_, ?_, ?_, ?_, h.shapeEq⟩
      · rw [h.log]
        show List.range _ = List.range (min (s.next + 1) _)
        rw [Nat.min_eq_right hle, Nat.min_eq_right (by omega)]
      · intro v hv
        by_cases e : v = w
        · subst e; simp only [upd_same]; exact ⟨hc, by show _ < s.next + 1; omega⟩
        · simp only [upd_ne _ _ e] at hv ⊢
          exact ⟨(h.stop v hv).1, by show _ < s.next + 1; have := (h.stop v hv).2; omega⟩
      · show (s.decd ++ (pend useTrips W (upd s.thr w _) ++ future g (s.next + 1))).Perm _
        rw [e1, pend_same]; exact h.uPerm; rfl
      · show (s.setd ++ (pend setTrips W (upd s.thr w _) ++ future g (s.next + 1))).Perm _
        rw [e1, pend_same]; exact h.sPerm; rfl
      · intro v
        by_cases e : v = w
        · subst e; simp only [upd_same]; exact h.wf v
        · simp only [upd_ne _ _ e]; exact h.wf v
    · rename_i j hj
      have hlt : s.next < g.jobs.length := by
        rcases Nat.lt_or_ge s.next g.jobs.length with h' | h'
        · exact h'
        · rw [List.getElem?_eq_none h'] at hj; cases hj
      have e1 := future_cons hj
      have perm : ∀ (p : List Instr → List Nat) (d : List Nat), p [] = [] →
          p (jobCode j) = jobTrips j →
          (d ++ (pend p W s.thr ++ future g s.next)).Perm (allTrips g) →
          (d ++ (pend p W (upd s.thr w { s.thr w with code := jobCode j }) ++
            future g (s.next + 1))).Perm (allTrips g) := by
        intro p d hp0 hpj hperm
        refine List.Perm.trans ?_ hperm
        refine List.Perm.append_left _ ?_
        rw [e1]
        have := pend_produce (p := p) hw { s.thr w with code := jobCode j } (jobTrips j)
          (thr := s.thr) (by simp [hc, hp0, hpj])
        refine (this.append_right _).trans ?_
        rw [← List.append_assoc]
        exact (List.perm_append_comm).append_right _
      refine ⟨?_, ?_, perm useTrips s.decd rfl (useTrips_job j) h.uPerm,
        perm setTrips s.setd rfl (setTrips_job j) h.sPerm, ?_, h.shapeEq⟩
      · show s.log ++ [s.next] = List.range (min (s.next + 1) _)
        rw [h.log, Nat.min_eq_left (by omega), Nat.min_eq_left (by omega), List.range_succ]
      · intro v hv
        by_cases e : v = w
        · subst e; simp only [upd_same] at hv; rw [hst] at hv; cases hv
        · simp only [upd_ne _ _ e] at hv ⊢
          have := (h.stop v hv).2
          omega
      · intro v
        by_cases e : v = w
        · subst e; simp only [upd_same]; exact WF.job j
        · simp only [upd_ne _ _ e]; exact h.wf v
  · intro i rest hst hc
    have hwf : WF (i :: rest) := hc ▸ h.wf w
    have hnil : ∀ l : List Nat, l = l ++ [] := fun l => (List.append_nil l).symm
    cases i with
    | free ty =>
      simp only [runInstr]
      split
      · exact h
      · exact h.update hw rfl [] [] hc hst rfl rfl (hnil _) (hnil _) rfl rfl hwf h.shapeEq hst
    | use t =>
      simp only [runInstr]
      split
      · split
        · exact h.update hw rfl [t] [] hc hst rfl rfl rfl (hnil _) rfl rfl hwf.2 h.shapeEq hst
        · exact h.update hw rfl [t] [] hc hst rfl rfl rfl (hnil _) rfl rfl hwf.2 h.shapeEq hst
      · exact h.update hw rfl [t] [] hc hst rfl rfl rfl (hnil _) rfl rfl hwf.2 h.shapeEq hst
    | store sh v =>
      exact h.update hw rfl [] [] hc hst rfl rfl (hnil _) (hnil _) rfl rfl hwf h.shapeEq hst
    | chk sh =>
      exact h.update hw rfl [] [] hc hst rfl rfl (hnil _) (hnil _) rfl rfl hwf h.shapeEq hst
    | set t pts =>
      refine h.update hw rfl [] [t] hc hst rfl rfl (hnil _) rfl rfl rfl hwf ?_ hst
      intro t' ht'
      simp only [runInstr, List.mem_append, List.mem_singleton, not_or] at ht' ⊢
      rw [upd_ne _ _ ht'.2]
      exact h.shapeEq t' ht'.1

theorem ctl (g : Cfg) (W : Nat) (sched : List Nat) (h : SchedOk W sched) :
    Ctl g W (run g sched) :=
  run_induct (Ctl.init g W) (fun _ _ _ hw h => h.step hw) sched h

end Verif.Shapes.Workers
