import Verif.Shapes.WorkersLemmas

/-! # Shape workers: ids, use counters, presence of shapes, termination -/

namespace Verif.Shapes.Workers
open Verif.Shapes

/-! ## Ids -/

structure Hand (s : Sys) : Prop where
  form : ∀ id ∈ s.handed, ∃ ty k, id = shapeId ty k ∧ k ≤ s.cnt
  nodup : s.handed.Nodup
  needs : ∀ w, needsCur (s.thr w).code = true → (s.thr w).cur ∈ s.handed

theorem needsCur_job (j : List Leaf) : needsCur (jobCode j) = false := by
  cases j with
  | nil => rfl
  | cons l j => rfl

theorem needs_upd {s : Sys} {w : Nat} {th : Thread} {hd : List Str} (h : Hand s)
    (hsub : ∀ x ∈ s.handed, x ∈ hd) (hth : needsCur th.code = true → th.cur ∈ hd) :
    ∀ v, needsCur (upd s.thr w th v).code = true → (upd s.thr w th v).cur ∈ hd := by
  intro v hv
  by_cases e : v = w
  · subst e; rw [upd_same] at hv ⊢; exact hth hv
  · rw [upd_ne _ _ e] at hv ⊢; exact hsub _ (h.needs v hv)

theorem free_fresh {g : Cfg} {s : Sys} {ty cnt : Nat} {id : Str}
    (he : getFreeShapeId (exec g.limit s.hist) ty s.cnt = some (id, cnt)) :
    live s.hist id = false ∧ s.cnt < cnt ∧ id = shapeId ty cnt := by
  obtain ⟨h1, h2, h3, _⟩ := freeLoop_spec _ _ _ _ he
  refine ⟨?_, h2, h3⟩
  cases hl : live s.hist id with
  | false => rfl
  | true => exact absurd (((exec_inv g.limit s.hist).1 id).mpr hl) h1

theorem free_new {s : Sys} (h : Hand s) {ty cnt : Nat} (hlt : s.cnt < cnt) :
    shapeId ty cnt ∉ s.handed := by
  intro hm
  obtain ⟨ty', k, e, hk⟩ := h.form _ hm
  have := (shapeId_inj e).2
  omega

theorem Hand.step {g : Cfg} {s : Sys} {w : Nat} (h : Hand s) : Hand (step g s w) := by
  apply step_cases
  · intro _; exact h
  · intro hst hc
    unfold fetch
    split
    · exact ⟨h.form, h.nodup, needs_upd h (fun _ hx => hx) (fun hn => h.needs w hn)⟩
    · exact ⟨h.form, h.nodup, needs_upd h (fun _ hx => hx) (fun hn => by
        rw [needsCur_job] at hn; cases hn)⟩
  · intro i rest hst hc
    have hrest : (∀ ty, i ≠ .free ty) → needsCur rest = true → needsCur (s.thr w).code = true := by
      intro hi hn
      rw [hc]
      cases i with
      | free ty => exact absurd rfl (hi ty)
      | _ => first | rfl | exact hn
    cases i with
    | free ty =>
      simp only [runInstr]
      split
      · exact h
      · rename_i id cnt he
        obtain ⟨_, hlt, rfl⟩ := free_fresh he
        refine ⟨?_, ?_, needs_upd h (fun x hx => List.mem_append_left _ hx) (fun _ => by simp)⟩
        · intro id hid
          rcases List.mem_append.mp hid with hid | hid
          · obtain ⟨ty', k, e, hk⟩ := h.form id hid
            exact ⟨ty', k, e, by show k ≤ cnt; omega⟩
          · exact ⟨ty, cnt, List.mem_singleton.mp hid, Nat.le_refl _⟩
        · show (s.handed ++ [_]).Nodup
          rw [List.nodup_append]
          refine ⟨h.nodup, by simp, ?_⟩
          intro a ha b hb e
          rw [List.mem_singleton] at hb
          subst hb; subst e
          exact free_new h hlt ha
    | use t =>
      have hr := hrest (by simp)
      simp only [runInstr]
      split
      · split
        · exact ⟨h.form, h.nodup, needs_upd h (fun _ hx => hx) (fun hn => h.needs w (hr hn))⟩
        · exact ⟨h.form, h.nodup, needs_upd h (fun _ hx => hx) (fun hn => h.needs w (hr hn))⟩
      · exact ⟨h.form, h.nodup, needs_upd h (fun _ hx => hx) (fun hn => h.needs w (hr hn))⟩
    | store sh v =>
      exact ⟨h.form, h.nodup, needs_upd h (fun _ hx => hx)
        (fun hn => h.needs w (hrest (by simp) hn))⟩
    | chk sh =>
      exact ⟨h.form, h.nodup, needs_upd h (fun _ hx => hx)
        (fun hn => h.needs w (hrest (by simp) hn))⟩
    | set t pts =>
      exact ⟨h.form, h.nodup, needs_upd h (fun _ hx => hx)
        (fun hn => h.needs w (hrest (by simp) hn))⟩

theorem hand (g : Cfg) (sched : List Nat) : Hand (run g sched) := by
  have hok : SchedOk (sched.foldr max 0 + 1) sched := by
    have : ∀ l : List Nat, ∀ w ∈ l, w ≤ l.foldr max 0 := by
      intro l
      induction l with
      | nil => simp
      | cons a l ih =>
        intro w hw
        simp only [List.foldr_cons]
        rcases List.mem_cons.mp hw with rfl | hw
        · omega
        · have := ih w hw; omega
    intro w hw
    have := this sched w hw
    omega
  refine run_induct (P := Hand) ?_ (fun _ _ _ _ h => h.step) sched hok
  exact ⟨by simp [init], by simp [init], by simp [init, needsCur]⟩

/-! ## Use counters -/

/-- Hypotheses on the input: every trip is in at most one leaf, and in the
feed. -/
structure Valid (g : Cfg) : Prop where
  nodup : (allTrips g).Nodup
  feedNodup : g.feed.Nodup
  sub : ∀ t ∈ allTrips g, t ∈ g.feed

def usesOf (g : Cfg) (sh : Str) (l : List Nat) : Nat := l.countP (fun t => decide (g.shape0 t = sh))

structure Count (g : Cfg) (s : Sys) : Prop where
  nostore : ∀ w sh v, Instr.store sh v ∉ (s.thr w).code
  chkOk : ∀ w sh, Instr.chk sh ∈ (s.thr w).code → sh ≠ [] ∧ ∃ t ∈ g.feed, g.shape0 t = sh
  count : ∀ sh, sh ≠ [] → s.use sh + usesOf g sh s.decd = usesOf g sh g.feed

theorem mem_code_upd {P : Prop} {thr : Nat → Thread} {w v : Nat} {th : Thread} {i : Instr}
    (hm : i ∈ (upd thr w th v).code) (h1 : i ∈ th.code → P) (h2 : i ∈ (thr v).code → P) : P := by
  by_cases e : v = w
  · subst e; rw [upd_same] at hm; exact h1 hm
  · rw [upd_ne _ _ e] at hm; exact h2 hm

theorem job_instr {j : List Leaf} {i : Instr} (h : i ∈ jobCode j) :
    (∀ sh v, i ≠ .store sh v) ∧ (∀ sh, i ≠ .chk sh) := by
  obtain ⟨l, _, hi⟩ := List.mem_flatMap.mp h
  rcases List.mem_cons.mp hi with rfl | hi
  · constructor <;> intros <;> simp
  · obtain ⟨t, _, ht⟩ := List.mem_flatMap.mp hi
    simp only [List.mem_cons, List.not_mem_nil, or_false] at ht
    rcases ht with rfl | rfl <;> (constructor <;> intros <;> simp)

/-- When `use t` is about to be executed: `t` was not decremented nor set. -/
theorem use_facts {g : Cfg} {W : Nat} {s : Sys} (hv : Valid g) (hc : Ctl g W s) {w t : Nat}
    (hw : w < W) {rest : List Instr} (he : (s.thr w).code = .use t :: rest) :
    t ∉ s.decd ∧ t ∉ s.setd ∧ t ∈ g.feed ∧ t ∈ allTrips g := by
  have h1 : t ∈ pend useTrips W s.thr := mem_pend hw (by
    rw [he]; simp [useTrips, Instr.useT])
  have hwf := hc.wf w
  rw [he] at hwf
  have h2 : t ∈ pend setTrips W s.thr := mem_pend hw (by
    rw [he]; unfold setTrips; rw [List.filterMap_cons]; exact hwf.1)
  have n1 := hc.uPerm.nodup_iff.mpr hv.nodup
  have n2 := hc.sPerm.nodup_iff.mpr hv.nodup
  rw [List.nodup_append] at n1 n2
  refine ⟨fun hm => n1.2.2 t hm t (List.mem_append_left _ h1) rfl,
    fun hm => n2.2.2 t hm t (List.mem_append_left _ h2) rfl, ?_, ?_⟩
  · exact hv.sub t (hc.uPerm.mem_iff.mp (List.mem_append_right _ (List.mem_append_left _ h1)))
  · exact hc.uPerm.mem_iff.mp (List.mem_append_right _ (List.mem_append_left _ h1))

theorem usesOf_append (g : Cfg) (sh : Str) (l l' : List Nat) :
    usesOf g sh (l ++ l') = usesOf g sh l + usesOf g sh l' := List.countP_append

theorem decd_sub {g : Cfg} {W : Nat} {s : Sys} (hv : Valid g) (hc : Ctl g W s) :
    s.decd.Nodup ∧ ∀ t ∈ s.decd, t ∈ g.feed := by
  have n1 := hc.uPerm.nodup_iff.mpr hv.nodup
  rw [List.nodup_append] at n1
  exact ⟨n1.1, fun t ht => hv.sub t (hc.uPerm.mem_iff.mp (List.mem_append_left _ ht))⟩

/-- Counting users in a duplicate-free sublist of the feed. -/
theorem usesOf_le {g : Cfg} {sh : Str} {l : List Nat} (hn : l.Nodup) (hf : ∀ t ∈ l, t ∈ g.feed) :
    usesOf g sh l ≤ usesOf g sh g.feed := by
  unfold usesOf
  rw [List.countP_eq_length_filter, List.countP_eq_length_filter]
  apply length_le_of_subset (hn.sublist List.filter_sublist)
  intro x hx
  rw [List.mem_filter] at hx ⊢
  exact ⟨hf x hx.1, hx.2⟩

theorem Count.init (g : Cfg) : Count g (init g) := by
  refine ⟨by simp [Workers.init], by simp [Workers.init], ?_⟩
  intro sh hsh
  simp [Workers.init, use0, hsh, usesOf]

theorem Count.step {g : Cfg} {W : Nat} {s : Sys} {w : Nat} (ha : g.atomicDec = true)
    (hv : Valid g) (hw : w < W) (hc : Ctl g W s) (h : Count g s) : Count g (step g s w) := by
  have upd1 : ∀ th : Thread, (∀ i ∈ th.code, i ∈ (s.thr w).code) →
      (∀ v sh n, Instr.store sh n ∉ (upd s.thr w th v).code) ∧
      (∀ v sh, Instr.chk sh ∈ (upd s.thr w th v).code → sh ≠ [] ∧ ∃ t ∈ g.feed, g.shape0 t = sh) := by
    intro th hth
    refine ⟨fun v sh n hm => mem_code_upd hm (fun hi => h.nostore w sh n (hth _ hi))
      (h.nostore v sh n), fun v sh hm => mem_code_upd hm (fun hi => h.chkOk w sh (hth _ hi))
      (h.chkOk v sh)⟩
  apply step_cases
  · intro _; exact h
  · intro hst hcode
    unfold fetch
    split
    · obtain ⟨a, b⟩ := upd1 { s.thr w with stopped := true } (fun i hi => hi)
      exact ⟨a, b, h.count⟩
    · rename_i j hj
      exact ⟨fun v sh n hm => mem_code_upd hm (fun hi => (job_instr hi).1 _ _ rfl)
        (h.nostore v sh n), fun v sh hm => mem_code_upd hm
        (fun hi => absurd rfl ((job_instr hi).2 sh)) (h.chkOk v sh), h.count⟩
  · intro i rest hst hcode
    have hmem : ∀ x ∈ rest, x ∈ (s.thr w).code := fun x hx => by rw [hcode]; simp [hx]
    cases i with
    | free ty =>
      simp only [runInstr]
      split
      · exact h
      · obtain ⟨a, b⟩ := upd1 { s.thr w with cur := _, code := rest } hmem
        exact ⟨a, b, h.count⟩
    | use t =>
      obtain ⟨hd, hsd, hf, hall⟩ := use_facts hv hc hw hcode
      have hshape := hc.shapeEq t hsd
      simp only [runInstr, hshape, ha, if_true]
      have hdn : (s.decd ++ [t]).Nodup := by
        rw [List.nodup_append]
        refine ⟨(decd_sub hv hc).1, by simp, ?_⟩
        intro a haa b hb e
        rw [List.mem_singleton] at hb
        subst hb; subst e; exact hd haa
      have hdf : ∀ x ∈ s.decd ++ [t], x ∈ g.feed := by
        intro x hx
        rcases List.mem_append.mp hx with hx | hx
        · exact (decd_sub hv hc).2 x hx
        · rw [List.mem_singleton] at hx; subst hx; exact hf
      have hone : ∀ sh, usesOf g sh [t] = if g.shape0 t = sh then 1 else 0 := by
        intro sh
        simp [usesOf, List.countP_cons]
      split
      · rename_i hcond
        refine ⟨?_, ?_, ?_⟩
        · intro v sh n hm
          refine mem_code_upd hm (fun hi => ?_) (h.nostore v sh n)
          rcases List.mem_cons.mp hi with e | hi
          · cases e
          · exact h.nostore w sh n (hmem _ hi)
        · intro v sh hm
          refine mem_code_upd hm (fun hi => ?_) (h.chkOk v sh)
          rcases List.mem_cons.mp hi with e | hi
          · cases e; exact ⟨hcond.1, t, hf, rfl⟩
          · exact h.chkOk w sh (hmem _ hi)
        · intro sh hsh
          have := h.count sh hsh
          show upd s.use (g.shape0 t) (s.use (g.shape0 t) - 1) sh + usesOf g sh (s.decd ++ [t]) = _
          rw [usesOf_append, hone]
          by_cases e : g.shape0 t = sh
          · subst e; rw [upd_same]; simp only [if_true]; omega
          · rw [upd_ne _ _ (fun e' => e e'.symm)]; simp only [e, if_false]; omega
      · rename_i hcond
        obtain ⟨a, b⟩ := upd1 { s.thr w with code := rest } hmem
        refine ⟨a, b, ?_⟩
        intro sh hsh
        have := h.count sh hsh
        show s.use sh + usesOf g sh (s.decd ++ [t]) = _
        have hle := usesOf_le (sh := sh) hdn hdf
        rw [usesOf_append, hone] at hle ⊢
        by_cases e : g.shape0 t = sh
        · subst e
          simp only [if_true] at hle
          exfalso; apply hcond
          exact ⟨hsh, by omega⟩
        · simp only [e, if_false]; omega
    | store sh v => exact absurd (by rw [hcode]; simp) (h.nostore w sh v)
    | chk sh =>
      obtain ⟨a, b⟩ := upd1 { s.thr w with code := rest } hmem
      exact ⟨a, b, h.count⟩
    | set t pts =>
      obtain ⟨a, b⟩ := upd1 { s.thr w with code := rest } hmem
      exact ⟨a, b, h.count⟩

theorem count (g : Cfg) (W : Nat) (ha : g.atomicDec = true) (hv : Valid g) (sched : List Nat)
    (h : SchedOk W sched) : Count g (run g sched) :=
  run_induct (Count.init g) (fun sch hs _ hw h => h.step ha hv hw (ctl g W sch hs)) sched h

/-! ## Counters that are not atomic

With a load and a store per decrement (`atomicDec = false`, the code as it is) updates can be
lost, so a counter may be too high. It is never too low. -/

structure Low (g : Cfg) (s : Sys) : Prop where
  chkOk : ∀ w sh, Instr.chk sh ∈ (s.thr w).code → sh ≠ [] ∧ ∃ t ∈ allTrips g, g.shape0 t = sh
  store : ∀ w sh v, Instr.store sh v ∈ (s.thr w).code →
    usesOf g sh g.feed ≤ v + usesOf g sh s.decd
  low : ∀ sh, sh ≠ [] → usesOf g sh g.feed ≤ s.use sh + usesOf g sh s.decd

theorem Low.init (g : Cfg) : Low g (init g) := by
  refine ⟨by simp [Workers.init], by simp [Workers.init], ?_⟩
  intro sh hsh
  simp [Workers.init, use0, hsh, usesOf]

theorem Low.step {g : Cfg} {W : Nat} {s : Sys} {w : Nat}
    (hv : Valid g) (hw : w < W) (hc : Ctl g W s) (h : Low g s) : Low g (step g s w) := by
  have upd1 : ∀ th : Thread, (∀ i ∈ th.code, i ∈ (s.thr w).code) →
      (∀ v sh, Instr.chk sh ∈ (upd s.thr w th v).code → sh ≠ [] ∧ ∃ t ∈ allTrips g, g.shape0 t = sh) ∧
      (∀ v sh n, Instr.store sh n ∈ (upd s.thr w th v).code →
        usesOf g sh g.feed ≤ n + usesOf g sh s.decd) := by
    intro th hth
    refine ⟨fun v sh hm => mem_code_upd hm (fun hi => h.chkOk w sh (hth _ hi))
      (h.chkOk v sh), fun v sh n hm => mem_code_upd hm (fun hi => h.store w sh n (hth _ hi))
      (h.store v sh n)⟩
  apply step_cases
  · intro _; exact h
  · intro hst hcode
    unfold fetch
    split
    · obtain ⟨a, b⟩ := upd1 { s.thr w with stopped := true } (fun i hi => hi)
      exact ⟨a, b, h.low⟩
    · rename_i j hj
      exact ⟨fun v sh hm => mem_code_upd hm
        (fun hi => absurd rfl ((job_instr hi).2 sh)) (h.chkOk v sh),
        fun v sh n hm => mem_code_upd hm (fun hi => absurd rfl ((job_instr hi).1 sh n))
        (h.store v sh n), h.low⟩
  · intro i rest hst hcode
    have hmem : ∀ x ∈ rest, x ∈ (s.thr w).code := fun x hx => by rw [hcode]; simp [hx]
    cases i with
    | free ty =>
      simp only [runInstr]
      split
      · exact h
      · obtain ⟨a, b⟩ := upd1 { s.thr w with cur := _, code := rest } hmem
        exact ⟨a, b, h.low⟩
    | use t =>
      obtain ⟨hd, hsd, hf, hall⟩ := use_facts hv hc hw hcode
      have hshape := hc.shapeEq t hsd
      simp only [runInstr, hshape]
      have hdn : (s.decd ++ [t]).Nodup := by
        rw [List.nodup_append]
        refine ⟨(decd_sub hv hc).1, by simp, ?_⟩
        intro a haa b hb e
        rw [List.mem_singleton] at hb
        subst hb; subst e; exact hd haa
      have hdf : ∀ x ∈ s.decd ++ [t], x ∈ g.feed := by
        intro x hx
        rcases List.mem_append.mp hx with hx | hx
        · exact (decd_sub hv hc).2 x hx
        · rw [List.mem_singleton] at hx; subst hx; exact hf
      have hone : ∀ sh, usesOf g sh [t] = if g.shape0 t = sh then 1 else 0 := by
        intro sh
        simp [usesOf, List.countP_cons]
      have hmore : ∀ sh, usesOf g sh s.decd ≤ usesOf g sh (s.decd ++ [t]) := by
        intro sh; rw [usesOf_append]; omega
      have hst1 : ∀ v sh n, Instr.store sh n ∈ (s.thr v).code →
          usesOf g sh g.feed ≤ n + usesOf g sh (s.decd ++ [t]) := by
        intro v sh n hm
        have := h.store v sh n hm
        have := hmore sh
        omega
      split
      · rename_i hcond
        have hstored : usesOf g (g.shape0 t) g.feed ≤
            (s.use (g.shape0 t) - 1) + usesOf g (g.shape0 t) (s.decd ++ [t]) := by
          have := h.low (g.shape0 t) hcond.1
          have := hcond.2
          rw [usesOf_append, hone]; simp only [if_true]; omega
        split
        · refine ⟨?_, ?_, ?_⟩
          · intro v sh hm
            refine mem_code_upd hm (fun hi => ?_) (h.chkOk v sh)
            rcases List.mem_cons.mp hi with e | hi
            · cases e; exact ⟨hcond.1, t, hall, rfl⟩
            · exact h.chkOk w sh (hmem _ hi)
          · intro v sh n hm
            refine mem_code_upd hm (fun hi => ?_) (hst1 v sh n)
            rcases List.mem_cons.mp hi with e | hi
            · cases e
            · exact hst1 w sh n (hmem _ hi)
          · intro sh hsh
            show _ ≤ upd s.use (g.shape0 t) (s.use (g.shape0 t) - 1) sh + usesOf g sh (s.decd ++ [t])
            by_cases e : g.shape0 t = sh
            · subst e; rw [upd_same]; exact hstored
            · rw [upd_ne _ _ (fun e' => e e'.symm)]
              have := h.low sh hsh
              have := hmore sh
              omega
        · refine ⟨?_, ?_, ?_⟩
          · intro v sh hm
            refine mem_code_upd hm (fun hi => ?_) (h.chkOk v sh)
            rcases List.mem_cons.mp hi with e | hi
            · cases e
            · rcases List.mem_cons.mp hi with e | hi
              · cases e; exact ⟨hcond.1, t, hall, rfl⟩
              · exact h.chkOk w sh (hmem _ hi)
          · intro v sh n hm
            refine mem_code_upd hm (fun hi => ?_) (hst1 v sh n)
            rcases List.mem_cons.mp hi with e | hi
            · cases e; exact hstored
            · rcases List.mem_cons.mp hi with e | hi
              · cases e
              · exact hst1 w sh n (hmem _ hi)
          · intro sh hsh
            have := h.low sh hsh
            have := hmore sh
            show _ ≤ s.use sh + usesOf g sh (s.decd ++ [t])
            omega
      · obtain ⟨a, _⟩ := upd1 { s.thr w with code := rest } hmem
        refine ⟨a, ?_, ?_⟩
        · intro v sh n hm
          exact mem_code_upd hm (fun hi => hst1 w sh n (hmem _ hi)) (hst1 v sh n)
        · intro sh hsh
          have := h.low sh hsh
          have := hmore sh
          show _ ≤ s.use sh + usesOf g sh (s.decd ++ [t])
          omega
    | store sh v =>
      obtain ⟨a, b⟩ := upd1 { s.thr w with code := rest } hmem
      refine ⟨a, b, ?_⟩
      intro x hx
      show _ ≤ upd s.use sh v x + usesOf g x s.decd
      by_cases e : x = sh
      · subst e; rw [upd_same]; exact h.store w x v (by rw [hcode]; simp)
      · rw [upd_ne _ _ e]; exact h.low x hx
    | chk sh =>
      obtain ⟨a, b⟩ := upd1 { s.thr w with code := rest } hmem
      exact ⟨a, b, h.low⟩
    | set t pts =>
      obtain ⟨a, b⟩ := upd1 { s.thr w with code := rest } hmem
      exact ⟨a, b, h.low⟩

theorem low (g : Cfg) (W : Nat) (hv : Valid g) (sched : List Nat)
    (h : SchedOk W sched) : Low g (run g sched) :=
  run_induct (Low.init g) (fun sch hs _ hw h => h.step hv hw (ctl g W sch hs)) sched h

/-! ## Presence of shapes -/

/-- If the counter of `sh` is zero, all its users have been decremented. -/
theorem all_decd {g : Cfg} {W : Nat} {s : Sys} (hv : Valid g) (hc : Ctl g W s) (h : Low g s)
    {sh : Str} (hsh : sh ≠ []) (h0 : s.use sh = 0) : ∀ t ∈ g.feed, g.shape0 t = sh → t ∈ s.decd := by
  intro t ht e
  have hcnt := h.low sh hsh
  obtain ⟨hn, hf⟩ := decd_sub hv hc
  by_cases hm : t ∈ s.decd
  · exact hm
  · exfalso
    have : usesOf g sh (t :: s.decd) ≤ usesOf g sh g.feed := by
      apply usesOf_le (List.nodup_cons.mpr ⟨hm, hn⟩)
      intro x hx
      rcases List.mem_cons.mp hx with rfl | hx
      · exact ht
      · exact hf x hx
    have h1 : usesOf g sh (t :: s.decd) = usesOf g sh s.decd + 1 := by
      simp [usesOf, e]
    omega

/-- If all users have been decremented, the counter is zero. -/
theorem use_zero {g : Cfg} {s : Sys} (hv : Valid g) (h : Count g s)
    {sh : Str} (hsh : sh ≠ []) (hall : ∀ t ∈ g.feed, g.shape0 t = sh → t ∈ s.decd) :
    s.use sh = 0 := by
  have hcnt := h.count sh hsh
  have : usesOf g sh g.feed ≤ usesOf g sh s.decd := by
    unfold usesOf
    rw [List.countP_eq_length_filter, List.countP_eq_length_filter]
    apply length_le_of_subset (hv.feedNodup.sublist List.filter_sublist)
    intro x hx
    rw [List.mem_filter] at hx ⊢
    exact ⟨hall x hx.1 (of_decide_eq_true hx.2), hx.2⟩
  omega

theorem live_remove (h : List Op) (sh x : Str) :
    live (h ++ [.remove sh]) x = if sh = x then false else live h x := by
  rw [live_append]; simp only [Op.says]
  split <;> rfl

theorem live_add (h : List Op) (sp : Shape) (x : Str) :
    live (h ++ [.add sp]) x = if sp.id = x then true else live h x := by
  rw [live_append]; simp only [Op.says]
  split <;> rfl

/-- An initially present shape that is gone had users, all of which have been
taken up. -/
def Safe (g : Cfg) (s : Sys) : Prop := ∀ sh, live (init g).hist sh = true → live s.hist sh = false →
  (∃ t ∈ g.feed, g.shape0 t = sh) ∧ ∀ t ∈ g.feed, g.shape0 t = sh → t ∈ s.decd

theorem Safe.step {g : Cfg} {W : Nat} {s : Sys} {w : Nat}
    (hv : Valid g) (hc : Ctl g W s) (hlow : Low g s) (h : Safe g s) : Safe g (step g s w) := by
  apply step_cases
  · intro _; exact h
  · intro hst hcode
    unfold fetch
    split <;> exact h
  · intro i rest hst hcode
    cases i with
    | free ty =>
      simp only [runInstr]
      split <;> exact h
    | use t =>
      have hsafe : ∀ sh, live (Workers.init g).hist sh = true → live s.hist sh = false →
          (∃ t ∈ g.feed, g.shape0 t = sh) ∧ ∀ t' ∈ g.feed, g.shape0 t' = sh →
            t' ∈ s.decd ++ [t] :=
        fun sh h1 h2 => ⟨(h sh h1 h2).1, fun t' ht' e' =>
          List.mem_append_left _ ((h sh h1 h2).2 t' ht' e')⟩
      simp only [runInstr]
      split
      · split <;> exact hsafe
      · exact hsafe
    | store sh v => exact h
    | chk x =>
      obtain ⟨hne, t0, ht0, e0⟩ := hlow.chkOk w x (by rw [hcode]; simp)
      have hex : ∃ t ∈ g.feed, g.shape0 t = x := ⟨t0, hv.sub t0 ht0, e0⟩
      simp only [runInstr]
      intro sh h1 h2
      by_cases h0 : s.use x = 0
      · simp only [h0, if_true, live_remove] at h2
        by_cases e : x = sh
        · subst e; exact ⟨hex, all_decd hv hc hlow hne h0⟩
        · simp only [e, if_false] at h2; exact h sh h1 h2
      · simp only [h0, if_false] at h2; exact h sh h1 h2
    | set t pts =>
      simp only [runInstr]
      intro sh h1 h2
      simp only [live_add] at h2
      split at h2
      · cases h2
      · exact h sh h1 h2

theorem safe (g : Cfg) (W : Nat) (hv : Valid g) (sched : List Nat)
    (h : SchedOk W sched) : Safe g (run g sched) := by
  refine run_induct (P := Safe g) ?_ (fun sch hs _ _ h => h.step hv (ctl g W sch hs)
    (low g W hv sch hs)) sched h
  exact fun sh h1 h2 => absurd (h1.symm.trans h2) (by simp)

structure Pres (g : Cfg) (W : Nat) (s : Sys) : Prop where
  /-- a shape whose last user has been taken up is gone or about to go -/
  gone : ∀ sh, sh ≠ [] → sh ∉ s.handed → (∃ t ∈ g.feed, g.shape0 t = sh) → s.use sh = 0 →
    live s.hist sh = false ∨ ∃ w, w < W ∧ Instr.chk sh ∈ (s.thr w).code

theorem Pres.step {g : Cfg} {W : Nat} {s : Sys} {w : Nat} (ha : g.atomicDec = true)
    (hv : Valid g) (hw : w < W) (hc : Ctl g W s) (hh : Hand s) (hct : Count g s) (h : Pres g W s) :
    Pres g W (step g s w) := by
  have keep : ∀ (th : Thread) sh, (Instr.chk sh ∈ (s.thr w).code → Instr.chk sh ∈ th.code) →
      (∃ v, v < W ∧ Instr.chk sh ∈ (s.thr v).code) →
      ∃ v, v < W ∧ Instr.chk sh ∈ (upd s.thr w th v).code := by
    intro th sh hth ⟨v, hv, hm⟩
    refine ⟨v, hv, ?_⟩
    by_cases e : v = w
    · subst e; rw [upd_same]; exact hth hm
    · rw [upd_ne _ _ e]; exact hm
  apply step_cases
  · intro _; exact h
  · intro hst hcode
    unfold fetch
    split
    · exact ⟨fun sh h1 h2 h3 h4 => (h.gone sh h1 h2 h3 h4).imp id
        (keep { s.thr w with stopped := true } sh id)⟩
    · rename_i j hj
      exact ⟨fun sh h1 h2 h3 h4 => (h.gone sh h1 h2 h3 h4).imp id
        (keep { s.thr w with code := jobCode j } sh (fun hm => by rw [hcode] at hm; simp at hm))⟩
  · intro i rest hst hcode
    have tail : (∀ sh, i ≠ .chk sh) → ∀ sh, Instr.chk sh ∈ (s.thr w).code → Instr.chk sh ∈ rest := by
      intro hi sh hm
      rw [hcode] at hm
      rcases List.mem_cons.mp hm with e | hm
      · exact absurd e.symm (hi sh)
      · exact hm
    cases i with
    | free ty =>
      simp only [runInstr]
      split
      · exact h
      · refine ⟨fun sh h1 h2 h3 h4 => ?_⟩
        have h2' : sh ∉ s.handed := fun hm => h2 (List.mem_append_left _ hm)
        exact (h.gone sh h1 h2' h3 h4).imp id
          (keep { s.thr w with cur := _, code := rest } sh (tail (by simp) sh))
    | use t =>
      obtain ⟨hd, hsd, hf, hall⟩ := use_facts hv hc hw hcode
      have hshape := hc.shapeEq t hsd
      simp only [runInstr, hshape, ha, if_true]
      split
      · rename_i hcond
        refine ⟨fun sh h1 h2 h3 h4 => ?_⟩
        by_cases e : g.shape0 t = sh
        · right
          refine ⟨w, hw, ?_⟩
          simp only [upd_same]
          rw [e]; simp
        · have h4' : s.use sh = 0 := by
            have : upd s.use (g.shape0 t) (s.use (g.shape0 t) - 1) sh = 0 := h4
            rwa [upd_ne _ _ (fun e' => e e'.symm)] at this
          exact (h.gone sh h1 h2 h3 h4').imp id
            (keep { s.thr w with code := .chk (g.shape0 t) :: rest } sh
              (fun hm => List.mem_cons_of_mem _ (tail (by simp) sh hm)))
      · exact ⟨fun sh h1 h2 h3 h4 => (h.gone sh h1 h2 h3 h4).imp id
          (keep { s.thr w with code := rest } sh (tail (by simp) sh))⟩
    | store sh v => exact absurd (by rw [hcode]; simp) (hct.nostore w sh v)
    | chk x =>
      simp only [runInstr]
      refine ⟨?_⟩
      · intro sh h1 h2 h3 h4
        have h4 : s.use sh = 0 := h4
        by_cases e : x = sh
        · subst e
          left
          simp only [h4, if_true, live_remove]
        · rcases h.gone sh h1 h2 h3 h4 with hl | hk
          · left
            show live (if s.use x = 0 then s.hist ++ [.remove x] else s.hist) sh = false
            by_cases h0 : s.use x = 0
            · rw [if_pos h0, live_remove, if_neg e]; exact hl
            · rw [if_neg h0]; exact hl
          · right
            refine keep { s.thr w with code := rest } sh (fun hm => ?_) hk
            rw [hcode] at hm
            rcases List.mem_cons.mp hm with e' | hm
            · cases e'; exact absurd rfl e
            · exact hm
    | set t pts =>
      have hcur : (s.thr w).cur ∈ s.handed := hh.needs w (by rw [hcode]; rfl)
      simp only [runInstr]
      refine ⟨?_⟩
      · intro sh h1 h2 h3 h4
        have hne : (s.thr w).cur ≠ sh := fun e => h2 (e ▸ hcur)
        exact (h.gone sh h1 h2 h3 h4).imp (fun hl => by
          show live (s.hist ++ [.add ⟨(s.thr w).cur, pts⟩]) sh = false
          rw [live_add]; simp only [hne, if_false]; exact hl)
          (keep { s.thr w with code := rest } sh (tail (by simp) sh))

theorem pres (g : Cfg) (W : Nat) (ha : g.atomicDec = true) (hv : Valid g) (sched : List Nat)
    (h : SchedOk W sched) : Pres g W (run g sched) := by
  refine run_induct (P := Pres g W) ?_ (fun sch hs _ hw h => h.step ha hv hw (ctl g W sch hs)
    (hand g sch) (count g W ha hv sch hs)) sched h
  refine ⟨?_⟩
  intro sh hsh _ ⟨t, ht, e⟩ h0
  have h0 : use0 g sh = 0 := h0
  simp only [use0, hsh, if_false, List.countP_eq_zero] at h0
  exact absurd (decide_eq_true e) (h0 t ht)

/-! ## New shapes, when no old shape id looks like a new one -/

/-- No trip that is shaped has an old shape whose id has the form of a generated
id. (Without `--drop-shapes`, only trips without shapes are shaped.) -/
def NoClash (g : Cfg) : Prop := ∀ t ∈ allTrips g, ∀ ty k, g.shape0 t ≠ shapeId ty k

/-- What is known about the shapes that were stored before the run. -/
structure PastOk (past : List Op) : Prop where
  nodup : ((accepted past).map (·.id)).Nodup
  ok : ∀ sp ∈ accepted past, live past sp.id = true ∧ ∃ ty k, sp.id = shapeId ty k

/-- No id is handed out that was present before the run. -/
theorem handed_fresh (g : Cfg) (W : Nat) (hv : Valid g) (hn : NoClash g) (sched : List Nat)
    (h : SchedOk W sched) : ∀ id ∈ (run g sched).handed, live g.past id = false := by
  refine run_induct (P := fun s => ∀ id ∈ s.handed, live g.past id = false) (by simp [init])
    (fun sch hs w _ h => ?_) sched h
  have hsafe := safe g W hv sch hs
  have hc := ctl g W sch hs
  generalize run g sch = s at *
  apply step_cases (P := fun s => ∀ id ∈ s.handed, live g.past id = false)
  · intro _; exact h
  · intro hst hcode
    unfold fetch
    split <;> exact h
  · intro i rest hst hcode
    cases i with
    | free ty =>
      simp only [runInstr]
      split
      · exact h
      · rename_i id cnt he
        obtain ⟨hdead, _, hid⟩ := free_fresh he
        intro x hx
        rcases List.mem_append.mp hx with hx | hx
        · exact h x hx
        · rw [List.mem_singleton] at hx
          subst hx
          cases hl : live g.past x with
          | false => rfl
          | true =>
            obtain ⟨⟨t, ht, e⟩, hall⟩ := hsafe x hl hdead
            have hm : t ∈ allTrips g := hc.uPerm.mem_iff.mp (List.mem_append_left _ (hall t ht e))
            exact absurd (e.trans hid) (hn t hm ty cnt)
    | use t =>
      simp only [runInstr]
      split
      · split <;> exact h
      · exact h
    | store sh v => exact h
    | chk x => exact h
    | set t pts => exact h

structure News (g : Cfg) (s : Sys) : Prop where
  assigned : ∀ t ∈ s.setd, s.shape t ∈ s.handed ∧ live s.hist (s.shape t) = true
  accNodup : ((accepted s.hist).map (·.id)).Nodup
  accLive : ∀ sp ∈ accepted s.hist, (sp.id ∈ s.handed ∨ sp ∈ accepted g.past) ∧
    live s.hist sp.id = true

theorem News.step {g : Cfg} {s : Sys} {w : Nat}
    (hp : PastOk g.past) (hn : NoClash g) (hh : Hand s) (hct : Low g s)
    (h : News g s) : News g (step g s w) := by
  apply step_cases
  · intro _; exact h
  · intro hst hcode
    unfold fetch
    split <;> exact ⟨h.assigned, h.accNodup, h.accLive⟩
  · intro i rest hst hcode
    cases i with
    | free ty =>
      simp only [runInstr]
      split
      · exact h
      · exact ⟨fun t ht => ⟨List.mem_append_left _ (h.assigned t ht).1, (h.assigned t ht).2⟩,
          h.accNodup, fun sp hs => ⟨(h.accLive sp hs).1.imp (List.mem_append_left _) id, (h.accLive sp hs).2⟩⟩
    | use t =>
      simp only [runInstr]
      split
      · split <;> exact ⟨h.assigned, h.accNodup, h.accLive⟩
      · exact ⟨h.assigned, h.accNodup, h.accLive⟩
    | store sh v => exact ⟨h.assigned, h.accNodup, h.accLive⟩
    | chk x =>
      obtain ⟨_, t0, ht0, e0⟩ := hct.chkOk w x (by rw [hcode]; simp)
      have hx : ∀ ty k, x ≠ shapeId ty k := fun ty k e => hn t0 ht0 ty k (e0.trans e)
      simp only [runInstr]
      have keep : ∀ y, (∃ ty k, y = shapeId ty k) →
          live (if s.use x = 0 then s.hist ++ [.remove x] else s.hist) y = live s.hist y := by
        intro y ⟨ty, k, hy⟩
        split
        · rw [live_remove, if_neg (fun e => hx ty k (e.trans hy))]
        · rfl
      have hform : ∀ y ∈ s.handed, ∃ ty k, y = shapeId ty k := fun y hy => by
        obtain ⟨ty, k, e, _⟩ := hh.form y hy
        exact ⟨ty, k, e⟩
      have hacc : accepted (if s.use x = 0 then s.hist ++ [.remove x] else s.hist) =
          accepted s.hist := by
        split
        · rw [accepted_append]
        · rfl
      refine ⟨fun t ht => ⟨(h.assigned t ht).1, ?_⟩, ?_, ?_⟩
      · exact (keep _ (hform _ (h.assigned t ht).1)).trans (h.assigned t ht).2
      · show ((accepted (if s.use x = 0 then _ else _)).map (·.id)).Nodup
        rw [hacc]; exact h.accNodup
      · intro sp hs
        have hs : sp ∈ accepted (if s.use x = 0 then s.hist ++ [.remove x] else s.hist) := hs
        rw [hacc] at hs
        refine ⟨(h.accLive sp hs).1, (keep _ ?_).trans (h.accLive sp hs).2⟩
        rcases (h.accLive sp hs).1 with h1 | h1
        · exact hform _ h1
        · exact (hp.ok sp h1).2
    | set t pts =>
      have hcur : (s.thr w).cur ∈ s.handed := hh.needs w (by rw [hcode]; rfl)
      simp only [runInstr]
      refine ⟨?_, ?_, ?_⟩
      · intro t' ht'
        show upd s.shape t _ t' ∈ s.handed ∧ live (s.hist ++ [_]) (upd s.shape t _ t') = true
        by_cases e : t' = t
        · subst e; rw [upd_same, live_add]; simp [hcur]
        · rw [upd_ne _ _ e, live_add]
          have ht' : t' ∈ s.setd ++ [t] := ht'
          simp only [List.mem_append, List.mem_singleton, e, or_false] at ht'
          obtain ⟨a, b⟩ := h.assigned t' ht'
          refine ⟨a, ?_⟩
          split
          · rfl
          · exact b
      · show ((accepted (s.hist ++ [_])).map (·.id)).Nodup
        rw [accepted_append]
        simp only
        split
        · exact h.accNodup
        · rename_i hl
          rw [List.map_append, List.nodup_append]
          refine ⟨h.accNodup, by simp, ?_⟩
          intro a haa b hb e
          simp only [List.map_cons, List.map_nil, List.mem_singleton] at hb
          subst hb; subst e
          obtain ⟨sp, hs, e⟩ := List.mem_map.mp haa
          exact hl (e ▸ (h.accLive sp hs).2)
      · intro sp hs
        have hs : sp ∈ accepted (s.hist ++ [.add ⟨(s.thr w).cur, pts⟩]) := hs
        rw [accepted_append] at hs
        show (sp.id ∈ s.handed ∨ sp ∈ accepted g.past) ∧ live (s.hist ++ [_]) sp.id = true
        rw [live_add]
        simp only at hs
        have old : sp ∈ accepted s.hist → (sp.id ∈ s.handed ∨ sp ∈ accepted g.past) ∧
            (if (s.thr w).cur = sp.id then true else live s.hist sp.id) = true := by
          intro hs
          obtain ⟨a, b⟩ := h.accLive sp hs
          refine ⟨a, ?_⟩
          split
          · rfl
          · exact b
        split at hs
        · exact old hs
        · rcases List.mem_append.mp hs with hs | hs
          · exact old hs
          · rw [List.mem_singleton] at hs; subst hs; simp [hcur]

theorem accepted_registers (l : List Str) : accepted (l.map .register) = [] := by
  cases hh : accepted (l.map Op.register) with
  | nil => rfl
  | cons a as =>
    have := accepted_mem (h := l.map Op.register) (s := a) (by rw [hh]; simp)
    simp at this

theorem pastOk_registers (l : List Str) : PastOk (l.map .register) :=
  ⟨by simp [accepted_registers], by simp [accepted_registers]⟩

theorem news (g : Cfg) (W : Nat) (hv : Valid g) (hp : PastOk g.past) (hn : NoClash g)
    (sched : List Nat) (h : SchedOk W sched) : News g (run g sched) := by
  refine run_induct (P := News g) ?_ (fun sch hs _ _ h => h.step hp hn
    (hand g sch) (low g W hv sch hs)) sched h
  exact ⟨by simp [init], hp.nodup, fun sp hs => ⟨.inr hs, (hp.ok sp hs).1⟩⟩

/-! ## Termination -/

/-- Weight of an action: how many actions it can still cause. -/
def Instr.weight : Instr → Nat
  | .use _ => 3
  | _ => 1

def codeWeight (l : List Instr) : Nat := (l.map Instr.weight).sum

/-- Weight of a thread. -/
def Thread.weight (t : Thread) : Nat := (if t.stopped then 0 else 1) + codeWeight t.code

def threadsWeight (W : Nat) (thr : Nat → Thread) : Nat :=
  ((List.range W).map fun w => (thr w).weight).sum

/-- Remaining work. -/
def weight (g : Cfg) (W : Nat) (s : Sys) : Nat :=
  threadsWeight W s.thr + ((g.jobs.drop s.next).map fun j => codeWeight (jobCode j) + 1).sum

theorem sum_upd {f g : Nat → Nat} {w : Nat} : ∀ {l : List Nat}, l.Nodup → w ∈ l →
    (∀ v, v ≠ w → f v = g v) → (l.map f).sum + g w = (l.map g).sum + f w := by
  intro l
  induction l with
  | nil => intro _ h; simp at h
  | cons a l ih =>
    intro hn hw hne
    rw [List.nodup_cons] at hn
    simp only [List.map_cons, List.sum_cons]
    by_cases e : a = w
    · subst e
      have : l.map f = l.map g := by
        apply List.map_congr_left
        intro v hv
        exact hne v (fun e => hn.1 (e ▸ hv))
      rw [this]; omega
    · have hw' : w ∈ l := by
        rcases List.mem_cons.mp hw with h | h
        · exact absurd h.symm e
        · exact h
      have := ih hn.2 hw' hne
      have := hne a e
      omega

theorem threadsWeight_upd {W : Nat} {thr : Nat → Thread} {w : Nat} (hw : w < W) (th : Thread) :
    threadsWeight W (upd thr w th) + (thr w).weight = threadsWeight W thr + th.weight := by
  have := sum_upd (f := fun v => (upd thr w th v).weight) (g := fun v => (thr v).weight)
    List.nodup_range (List.mem_range.mpr hw) (fun v hv => by simp only [upd_ne _ _ hv])
  simp only [upd_same] at this
  exact this

/-- Every turn of a running thread uses up some of the remaining work. -/
theorem weight_step {g : Cfg} {W : Nat} {s : Sys} {w : Nat} (hw : w < W)
    (hr : (s.thr w).stopped = false) : weight g W (step g s w) < weight g W s := by
  have key : ∀ th : Thread, th.weight < (s.thr w).weight →
      threadsWeight W (upd s.thr w th) < threadsWeight W s.thr := by
    intro th h
    have := threadsWeight_upd (thr := s.thr) hw th
    omega
  apply step_cases (P := fun s' => weight g W s' < weight g W s)
  · intro h; rw [hr] at h; cases h
  · intro _ hc
    unfold fetch weight
    split
    · rename_i hj
      have hle := List.getElem?_eq_none_iff.mp hj
      have := key { s.thr w with stopped := true } (by simp [Thread.weight, hr])
      simp only [List.drop_eq_nil_of_le hle, List.drop_eq_nil_of_le (Nat.le_succ_of_le hle)]
      simpa using this
    · rename_i j hj
      have hlt : s.next < g.jobs.length := by
        rcases Nat.lt_or_ge s.next g.jobs.length with h' | h'
        · exact h'
        · rw [List.getElem?_eq_none h'] at hj; cases hj
      rw [List.drop_eq_getElem_cons hlt]
      rw [List.getElem?_eq_getElem hlt] at hj
      cases hj
      have := threadsWeight_upd (thr := s.thr) hw
        ⟨jobCode g.jobs[s.next], (s.thr w).cur, (s.thr w).stopped⟩
      have w1 : (s.thr w).weight = 1 := by simp [Thread.weight, hr, hc, codeWeight]
      have w2 : (⟨jobCode g.jobs[s.next], (s.thr w).cur, (s.thr w).stopped⟩ : Thread).weight =
          1 + codeWeight (jobCode g.jobs[s.next]) := by simp [Thread.weight, hr]
      rw [w1, w2] at this
      simp only [List.map_cons, List.sum_cons]
      omega
  · intro i rest _ hc
    have hwt : (s.thr w).weight = 1 + (i.weight + codeWeight rest) := by
      simp [Thread.weight, hr, hc, codeWeight]
    have fin : ∀ th : Thread, th.stopped = false → codeWeight th.code < i.weight + codeWeight rest →
        threadsWeight W (upd s.thr w th) + ((g.jobs.drop s.next).map fun j =>
          codeWeight (jobCode j) + 1).sum < weight g W s := by
      intro th h1 h2
      have := key th (by rw [hwt]; simp only [Thread.weight, h1, Bool.false_eq_true, if_false]; omega)
      unfold weight; omega
    cases i with
    | free ty =>
      obtain ⟨id, cnt, he⟩ := getFreeShapeId_total (exec g.limit s.hist) ty s.cnt
      simp only [runInstr, he]
      exact fin _ hr (by simp only [Instr.weight]; omega)
    | use t =>
      simp only [runInstr]
      split
      · split
        · exact fin _ hr (by simp only [codeWeight, List.map_cons, List.sum_cons, Instr.weight]; omega)
        · exact fin _ hr (by simp only [codeWeight, List.map_cons, List.sum_cons, Instr.weight]; omega)
      · exact fin _ hr (by simp only [Instr.weight]; omega)
    | store sh v => exact fin _ hr (by simp only [Instr.weight]; omega)
    | chk sh => exact fin _ hr (by simp only [Instr.weight]; omega)
    | set t pts => exact fin _ hr (by simp only [Instr.weight]; omega)

/-- Stopped threads stay stopped. -/
theorem stopped_step {g : Cfg} {s : Sys} {w v : Nat} (h : (s.thr v).stopped = true) :
    ((step g s w).thr v).stopped = true := by
  have keep : ∀ th : Thread, (th.stopped = true ∨ th.stopped = (s.thr w).stopped) →
      (upd s.thr w th v).stopped = true := by
    intro th hth
    by_cases e : v = w
    · subst e; rw [upd_same]; rcases hth with h' | h'
      · exact h'
      · rw [h', h]
    · rw [upd_ne _ _ e]; exact h
  apply step_cases (P := fun s' => (s'.thr v).stopped = true)
  · intro _; exact h
  · intro _ _
    unfold fetch
    split
    · exact keep _ (Or.inl rfl)
    · exact keep _ (Or.inr rfl)
  · intro i rest _ _
    cases i with
    | free ty => simp only [runInstr]; split
                 · exact h
                 · exact keep _ (Or.inr rfl)
    | use t => simp only [runInstr]; split
               · split <;> exact keep _ (Or.inr rfl)
               · exact keep _ (Or.inr rfl)
    | store sh n => exact keep _ (Or.inr rfl)
    | chk sh => exact keep _ (Or.inr rfl)
    | set t pts => exact keep _ (Or.inr rfl)

end Verif.Shapes.Workers
