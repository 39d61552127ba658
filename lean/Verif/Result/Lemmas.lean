import Verif.Result.Together
import Verif.Result.Spec

/-!
# From the matched trips to the written feed (lemmas)
-/

namespace Verif.Result
open Verif.Shapes Verif.Shapes.Workers

theorem goodId_shapeId (ty k : Nat) : GoodId (shapeId ty k) := by
  refine ⟨shapeId_ne_nil ty k, ?_⟩
  intro b hb
  have hd : ∀ n, b ∈ digits n → isSpace b = false := by
    intro n h
    have := digits_mem b h
    simp only [isSpace, Bool.or_eq_false_iff, beq_eq_false_iff_ne, Bool.and_eq_false_iff, decide_eq_false_iff_not]
    have h1 := this.1
    exact ⟨fun e => by subst e; revert h1; decide, .inr (fun e => absurd (Nat.le_trans h1 e) (by decide))⟩
  simp only [shapeId, List.mem_append, List.mem_cons, List.not_mem_nil, or_false] at hb
  rcases hb with (((rfl | rfl | rfl | rfl) | hb) | rfl) | hb
  · decide
  · decide
  · decide
  · decide
  · exact hd _ hb
  · decide
  · exact hd _ hb

theorem mem_allTrips {g : Cfg} {t : Nat} : t ∈ allTrips g ↔ ∃ l ∈ g.jobs.flatten, t ∈ l.trips := by
  constructor
  · intro h
    obtain ⟨j, hj, h⟩ := List.mem_flatMap.mp h
    obtain ⟨l, hl, h⟩ := List.mem_flatMap.mp h
    exact ⟨l, List.mem_flatten.mpr ⟨j, hj, hl⟩, h⟩
  · rintro ⟨l, hl, h⟩
    obtain ⟨j, hj, hl⟩ := List.mem_flatten.mp hl
    exact List.mem_flatMap.mpr ⟨j, hj, List.mem_flatMap.mpr ⟨l, hl, h⟩⟩

/-! ## One run -/

theorem accepted_mono (h : List Op) : ∀ (more : List Op) (sp : Shape), sp ∈ accepted h → sp ∈ accepted (h ++ more) := by
  intro more
  induction more generalizing h with
  | nil => intro sp hs; simpa using hs
  | cons op more ih =>
    intro sp hs
    rw [show h ++ op :: more = (h ++ [op]) ++ more by simp]
    refine ih (h ++ [op]) sp ?_
    rw [accepted_append]
    cases op with
    | add s => dsimp only; split <;> simp [hs]
    | remove _ => exact hs
    | register _ => exact hs

/-- The history only grows. -/
theorem past_prefix (g : Cfg) (W : Nat) (sched : List Nat) (h : SchedOk W sched) : ∃ more, (run g sched).hist = g.past ++ more := by
  refine run_induct (P := fun s => ∃ more, s.hist = g.past ++ more) ⟨[], by simp [init]⟩ (fun sch _ w _ h => ?_) sched h
  generalize run g sch = s at *
  obtain ⟨more, e⟩ := h
  apply step_cases (P := fun s => ∃ more, s.hist = g.past ++ more)
  · intro _; exact ⟨more, e⟩
  · intro _ _
    unfold fetch
    split <;> exact ⟨more, e⟩
  · intro i rest _ _
    cases i with
    | free ty =>
      simp only [runInstr]
      split <;> exact ⟨more, e⟩
    | use t =>
      simp only [runInstr]
      split
      · split <;> exact ⟨more, e⟩
      · exact ⟨more, e⟩
    | store sh v => exact ⟨more, e⟩
    | chk sh =>
      simp only [runInstr]
      split
      · exact ⟨more ++ [.remove sh], by rw [e]; simp⟩
      · exact ⟨more, e⟩
    | set t pts => exact ⟨more ++ [.add ⟨(s.thr w).cur, pts⟩], by simp only [runInstr]; rw [e]; simp⟩

theorem has_iff {limit : Nat} {h : List Op} {id : Str} : (exec limit h).has id = live h id := by
  unfold Container.has
  rw [Bool.eq_iff_iff, decide_eq_true_eq]
  exact (exec_inv limit h).1 id

/-- The feed between two runs. `js`: the lines of the runs so far; `sh0`: the shapes that the `n` trips had; `src`: the rows of shapes.txt. -/
structure Mid (exact : Prop) (w : Widths) (n : Nat) (sh0 : Nat → Str) (src : List Row) (js : List Leaf) (s : St) : Prop where
  past : PastOk s.hist
  good : AllGood w s.hist
  src1 : ∀ r ∈ src, live s.hist r.id = true ∨ ∀ ty k, r.id ≠ shapeId ty k
  src2 : ∀ sp ∈ accepted s.hist, ∀ r ∈ src, r.id ≠ sp.id
  line : ∀ l ∈ js, ∀ k ∈ l.trips, ∃ sp ∈ accepted s.hist, sp.id = s.shape k ∧ sp.pts = l.pts
  old : ∀ k, (∀ l ∈ js, k ∉ l.trips) → s.shape k = sh0 k
  kept : ∀ k, k < n → (∀ l ∈ js, k ∉ l.trips) → (∃ r ∈ src, r.id = sh0 k) → live s.hist (sh0 k) = true
  apart : ∀ l ∈ js, ∀ l' ∈ js, ∀ k ∈ l.trips, ∀ k' ∈ l'.trips, s.shape k = s.shape k' → l = l'
  together : ∀ l ∈ js, ∀ k ∈ l.trips, ∀ k' ∈ l.trips, s.shape k = s.shape k'
  usedNew : ∀ sp ∈ accepted s.hist, ∃ k, k < n ∧ s.shape k = sp.id
  usedOld : exact → ∀ r ∈ src, live s.hist r.id = true → (∃ k, k < n ∧ s.shape k = r.id) ∨ ∀ k, k < n → sh0 k ≠ r.id

theorem live_registers (r : Row) : ∀ src : List Row, live (src.map fun r => Op.register r.id) r.id = decide (r.id ∈ src.map (·.id)) := by
  have key : ∀ src : List Row, live (src.reverse.map fun r => Op.register r.id) r.id = decide (r.id ∈ src.map (·.id)) := by
    intro src
    induction src with
    | nil => rfl
    | cons x src ih =>
      rw [List.reverse_cons, List.map_append]
      show live (_ ++ [Op.register x.id]) r.id = _
      rw [live_append, ih]
      simp only [Op.says]
      by_cases e : x.id = r.id
      · simp [e]
      · have e' : ¬ r.id = x.id := fun h => e h.symm
        simp [e, e']
  intro src
  have := key src.reverse
  rw [List.reverse_reverse] at this
  rw [this]
  simp

theorem live_registered (src : List Row) (r : Row) (hr : r ∈ src) : live (src.map fun r => Op.register r.id) r.id = true := by
  rw [live_registers]
  exact decide_eq_true (List.mem_map.mpr ⟨r, hr, rfl⟩)

section
variable {X : Type} {exact : Prop} {w : Widths} {n : Nat} {src : List Row} {limit : Nat} {a : Bool} {W : Nat} {sched : List Nat}

theorem mid_start (trips : List (Content.TripRow X)) :
    Mid exact w trips.length (start trips src).shape src [] (start trips src) := by
  have e : (start trips src).hist = (src.map (·.id)).map .register := by simp [start, List.map_map, Function.comp_def]
  have ea : accepted (start trips src).hist = [] := by rw [e]; exact accepted_registers _
  constructor
  case past => rw [e]; exact pastOk_registers _
  case good =>
    intro sp hsp
    rw [e] at hsp
    obtain ⟨x, _, hx⟩ := List.mem_map.mp hsp
    cases hx
  case src1 => exact fun r hr => .inl (live_registered src r hr)
  case src2 => rw [ea]; intro sp h; cases h
  case line => intro l h; cases h
  case old => intro k _; rfl
  case kept =>
    intro k _ _ ⟨r, hr, er⟩
    rw [← er]
    exact live_registered src r hr
  case apart => intro l h; cases h
  case together => intro l h; cases h
  case usedNew => rw [ea]; intro sp h; cases h
  case usedOld =>
    intro _ r _ _
    by_cases h : ∃ k, k < trips.length ∧ (start trips src).shape k = r.id
    · exact .inl h
    · exact .inr fun k hk e => h ⟨k, hk, e⟩

theorem mid_step {sh0 : Nat → Str} {js : List Leaf} {s : St} {r : Run} (hm : Mid exact w n sh0 src js s) (hx : exact → a = true)
    (hne : ∀ x ∈ src, x.id ≠ [])
    (hv : Workers.Valid (workers limit a n r.jobs s)) (hdisj : ∀ l ∈ js, ∀ k ∈ l.trips, ∀ l' ∈ r.jobs.flatten, k ∉ l'.trips)
    (hnew : ∀ l ∈ r.jobs.flatten, ∀ k ∈ l.trips, ∀ ty m, sh0 k ≠ shapeId ty m) (hp : PtsOk w r.jobs)
    (hW : 0 < r.W) (hok : SchedOk r.W r.sched) (hf : Finished r.W (run (workers limit a n r.jobs s) r.sched)) :
    Mid exact w n sh0 src (js ++ r.jobs.flatten) (after limit a n r s) := by
  have hbefore : ∀ l' ∈ r.jobs.flatten, ∀ k ∈ l'.trips, s.shape k = sh0 k :=
    fun l' hl' k hk => hm.old k fun l hl hkl => hdisj l hl k hkl l' hl' hk
  generalize hg : workers limit a n r.jobs s = g at hv hf
  have hjobs : g.jobs = r.jobs := by rw [← hg]; rfl
  have hat : g.atomicDec = a := by rw [← hg]; rfl
  have hpast : g.past = s.hist := by rw [← hg]; rfl
  have hsh : g.shape0 = s.shape := by rw [← hg]; rfl
  have hfeed : ∀ k, k ∈ g.feed ↔ k < n := by intro k; rw [← hg]; exact List.mem_range
  have hafter : after limit a n r s = ⟨(run g r.sched).hist, (run g r.sched).shape⟩ := by rw [← hg]; rfl
  rw [hafter]
  generalize hs' : run g r.sched = s' at hf
  have hall : ∀ k, k ∈ allTrips g ↔ ∃ l ∈ r.jobs.flatten, k ∈ l.trips := by intro k; rw [mem_allTrips, hjobs]
  have hn : NoClash g := by
    intro t ht ty m
    obtain ⟨l, hl, hk⟩ := (hall t).mp ht
    rw [hsh, hbefore l hl t hk]
    exact hnew l hl t hk ty m
  have hpo : PastOk g.past := by rw [hpast]; exact hm.past
  obtain ⟨own, ho⟩ := own_run g r.W hv hpo hn r.sched hok
  have hh := hand g r.sched
  have nw := news g r.W hv hpo hn r.sched hok
  have hc := ctl g r.W r.sched hok
  have hfr := handed_fresh g r.W hv hn r.sched hok
  have hsafe := safe g r.W hv r.sched hok
  have htog := tog_run g r.W hv r.sched hok
  obtain ⟨more, hmore⟩ := past_prefix g r.W r.sched hok
  have hset : ∀ k, k ∈ (run g r.sched).setd ↔ k ∈ allTrips g :=
    fun k => (C45_each_job_once g r.W hW r.sched hok (by rw [hs']; exact hf)).2.mem_iff
  have hdrop := fun ha => C47_dropped_when_replaced g r.W hW ha hv r.sched hok (by rw [hs']; exact hf)
  have hkeep := C47_kept_while_used g r.W hv r.sched hok
  rw [hpast] at hmore hfr hkeep
  have hold := ho.old
  have hused := ho.used
  have haccl := nw.accLive
  rw [hpast] at hold hused haccl
  rw [hs'] at ho hh nw hc hfr hsafe htog hmore hset hdrop hkeep hold hused haccl
  have hsame : ∀ k, k ∉ allTrips g → s'.shape k = s.shape k := by
    intro k hk
    rw [← hsh]
    exact hc.shapeEq k fun h => hk ((hset k).mp h)
  have hacc : ∀ sp ∈ accepted s.hist, sp ∈ accepted s'.hist := by rw [hmore]; exact accepted_mono _ _
  have hsrc2 : ∀ x ∈ src, x.id ∉ s'.handed := by
    intro x hx hm2
    obtain ⟨ty, k, e, _⟩ := hh.form _ hm2
    rcases hm.src1 x hx with h | h
    · rw [hfr _ hm2] at h; cases h
    · exact h ty k e
  have hjs : ∀ l ∈ js, ∀ k ∈ l.trips, s'.shape k = s.shape k := by
    intro l hl k hk
    refine hsame k fun h => ?_
    obtain ⟨l', hl', hk'⟩ := (hall k).mp h
    exact hdisj l hl k hk l' hl' hk'
  have hown : ∀ l ∈ r.jobs.flatten, ∀ k ∈ l.trips, own (s'.shape k) = some l ∧ s'.shape k ∈ s'.handed ∧ live s'.hist (s'.shape k) = true := by
    intro l hl k hk
    have hk' := (hset k).mpr ((hall k).mpr ⟨l, hl, hk⟩)
    obtain ⟨f, hof, htf⟩ := ho.setd k hk'
    have : f = l := leaf_unique hv (ho.leaf _ f hof) (by rw [hjobs]; exact hl) htf hk
    subst this
    exact ⟨hof, nw.assigned k hk'⟩
  constructor
  case past =>
    refine ⟨nw.accNodup, ?_⟩
    intro sp hsp
    obtain ⟨h1, h2⟩ := haccl sp hsp
    refine ⟨h2, ?_⟩
    rcases h1 with h1 | h1
    · obtain ⟨ty, k, e, _⟩ := hh.form _ h1
      exact ⟨ty, k, e⟩
    · exact (hm.past.ok sp h1).2
  case good =>
    intro sp hsp
    rcases ho.add sp hsp with h0 | ⟨h1, f, hof, e⟩
    · rw [hpast] at h0
      exact hm.good sp h0
    · obtain ⟨ty, k, e', _⟩ := hh.form _ h1
      have hl := ho.leaf _ f hof
      rw [hjobs] at hl
      obtain ⟨j, hj, hl⟩ := List.mem_flatten.mp hl
      obtain ⟨p1, p2, p3⟩ := hp j hj f hl
      rw [← e] at p1 p2 p3
      exact ⟨by rw [e']; exact goodId_shapeId ty k, p1, p2, p3⟩
  case src1 =>
    intro x hx
    rcases hm.src1 x hx with h | h
    · cases hl : live s'.hist x.id with
      | true => exact .inl rfl
      | false =>
        right
        obtain ⟨⟨t, ht, et⟩, h2⟩ := hsafe x.id (by show live g.past _ = true; rw [hpast]; exact h) hl
        intro ty k e
        have : t ∈ allTrips g := hc.uPerm.mem_iff.mp (List.mem_append_left _ (h2 t ht et))
        exact hn t this ty k (by rw [et, e])
    · exact .inr h
  case src2 =>
    intro sp hsp x hx e
    rcases (haccl sp hsp).1 with h1 | h1
    · exact hsrc2 x hx (by rw [e]; exact h1)
    · exact hm.src2 sp h1 x hx e
  case line =>
    intro l hl k hk
    rcases List.mem_append.mp hl with hl | hl
    · obtain ⟨sp, h1, h2, h3⟩ := hm.line l hl k hk
      exact ⟨sp, hacc sp h1, by rw [h2]; exact (hjs l hl k hk).symm, h3⟩
    · obtain ⟨h1, h2, h3⟩ := hown l hl k hk
      obtain ⟨sp, h4, h5, f, h6, h7⟩ := ho.found _ h2 h3
      rw [h1] at h6
      cases h6
      exact ⟨sp, h4, h5, h7⟩
  case old =>
    intro k hk
    have h1 : k ∉ allTrips g := by
      intro h
      obtain ⟨l, hl, hkl⟩ := (hall k).mp h
      exact hk l (List.mem_append_right _ hl) hkl
    show s'.shape k = _
    rw [hsame k h1]
    exact hm.old k fun l hl => hk l (List.mem_append_left _ hl)
  case kept =>
    intro k hkn hk hr
    have h1 : k ∉ allTrips g := by
      intro h
      obtain ⟨l, hl, hkl⟩ := (hall k).mp h
      exact hk l (List.mem_append_right _ hl) hkl
    have hk' : ∀ l ∈ js, k ∉ l.trips := fun l hl => hk l (List.mem_append_left _ hl)
    have := hkeep (sh0 k) (hm.kept k hkn hk' hr) k ((hfeed k).mpr hkn) (by rw [hsh]; exact hm.old k hk')
      (fun h => h1 (hc.uPerm.mem_iff.mp (List.mem_append_left _ h)))
    rw [has_iff] at this
    exact this
  case apart =>
    intro l hl l' hl' k hk k' hk' e
    have e : s'.shape k = s'.shape k' := e
    have hmix : ∀ l ∈ js, ∀ k ∈ l.trips, s'.shape k ∉ s'.handed := by
      intro l hl k hk hmem
      obtain ⟨sp, h1, h2, _⟩ := hm.line l hl k hk
      have h3 := (hm.past.ok sp h1).1
      rw [h2, ← hjs l hl k hk, hfr _ hmem] at h3
      cases h3
    rcases List.mem_append.mp hl with hl | hl
    · rcases List.mem_append.mp hl' with hl' | hl'
      · rw [hjs l hl k hk, hjs l' hl' k' hk'] at e
        exact hm.apart l hl l' hl' k hk k' hk' e
      · exact absurd (by rw [e]; exact (hown l' hl' k' hk').2.1) (hmix l hl k hk)
    · rcases List.mem_append.mp hl' with hl' | hl'
      · exact absurd (by rw [← e]; exact (hown l hl k hk).2.1) (hmix l' hl' k' hk')
      · have h1 := (hown l hl k hk).1
        rw [e, (hown l' hl' k' hk').1] at h1
        exact (Option.some.inj h1).symm
  case together =>
    intro l hl k hk k' hk'
    rcases List.mem_append.mp hl with hl | hl
    · show s'.shape k = s'.shape k'
      rw [hjs l hl k hk, hjs l hl k' hk']
      exact hm.together l hl k hk k' hk'
    · exact htog.same l (by rw [hjobs]; exact hl) k hk k' hk' ((hset k).mpr ((hall k).mpr ⟨l, hl, hk⟩))
        ((hset k').mpr ((hall k').mpr ⟨l, hl, hk'⟩))
  case usedNew =>
    intro sp hsp
    rcases hused sp hsp with h | ⟨t, ht, e⟩
    · obtain ⟨k, hk, e⟩ := hm.usedNew sp h
      obtain ⟨_, ty, m, e'⟩ := hm.past.ok sp h
      refine ⟨k, hk, ?_⟩
      show s'.shape k = _
      rw [hsame k (fun h => hn k h ty m (by rw [hsh, e, e']))]
      exact e
    · exact ⟨t, (hfeed t).mp (hv.sub t ((hset t).mp ht)), e⟩
  case usedOld =>
    intro hex x hx' hlive
    rcases hold x.id hlive with h | h
    · rcases hm.usedOld hex x hx' h with ⟨k, hk, e⟩ | h
      · by_cases hu : ∃ k, k < n ∧ s.shape k = x.id ∧ k ∉ allTrips g
        · obtain ⟨k, hk, e, h1⟩ := hu
          exact .inl ⟨k, hk, (hsame k h1).trans e⟩
        · exfalso
          have := hdrop (hat.trans (hx hex)) x.id (hne x hx') (hsrc2 x hx') ⟨k, (hfeed k).mpr hk, by rw [hsh]; exact e⟩ (by
            intro t ht et
            rw [hsh] at et
            have h3 : t ∈ allTrips g := Classical.byContradiction fun h3 => hu ⟨t, (hfeed t).mp ht, et, h3⟩
            obtain ⟨j, hj, h4⟩ := List.mem_flatMap.mp h3
            obtain ⟨l, hl, h4⟩ := List.mem_flatMap.mp h4
            exact ⟨j, hj, l, hl, h4⟩)
          rw [has_iff] at this
          exact absurd (hlive.symm.trans this) (by decide)
      · exact .inr h
    · exact absurd h (hsrc2 x hx')

/-! ## All runs -/

/-- The lines of all runs. -/
def allLeafs (rs : List Run) : List Leaf := rs.flatMap fun r => r.jobs.flatten

theorem mid_all {sh0 : Nat → Str} (hx : exact → a = true) (hne : ∀ x ∈ src, x.id ≠ []) : ∀ (rs : List Run) (js : List Leaf) (s : St),
    Mid exact w n sh0 src js s → ((js ++ allLeafs rs).flatMap (·.trips)).Nodup → (∀ l ∈ allLeafs rs, ∀ k ∈ l.trips, k < n) →
    (∀ l ∈ allLeafs rs, ∀ k ∈ l.trips, ∀ ty m, sh0 k ≠ shapeId ty m) → (∀ r ∈ rs, PtsOk w r.jobs) → Done limit a n rs s →
    Mid exact w n sh0 src (js ++ allLeafs rs) (allRuns limit a n rs s)
  | [], js, s, hm, _, _, _, _, _ => by simpa [allLeafs, allRuns] using hm
  | r :: rs, js, s, hm, hnd, hlt, hnew, hp, ⟨⟨d1, d2, d3⟩, d4⟩ => by
    have e : allLeafs (r :: rs) = r.jobs.flatten ++ allLeafs rs := rfl
    rw [e] at hnd hlt hnew ⊢
    rw [← List.append_assoc] at hnd ⊢
    have hnd' := hnd
    rw [List.flatMap_append, List.nodup_append] at hnd
    obtain ⟨hnd1, _, _⟩ := hnd
    rw [List.flatMap_append, List.nodup_append] at hnd1
    obtain ⟨_, n2, n3⟩ := hnd1
    refine mid_all hx hne rs _ _ (mid_step hm hx hne ?_ ?_ (fun l hl => hnew l (List.mem_append_left _ hl)) (hp r (List.mem_cons_self ..)) d1 d2
      d3) hnd' (fun l hl => hlt l (List.mem_append_right _ hl)) (fun l hl => hnew l (List.mem_append_right _ hl))
      (fun r hr => hp r (List.mem_cons_of_mem _ hr)) d4
    · refine ⟨?_, List.nodup_range, ?_⟩
      · rw [List.flatten_eq_flatMap, List.flatMap_assoc] at n2
        exact n2
      · intro t ht
        obtain ⟨l, hl, hk⟩ := mem_allTrips.mp ht
        exact List.mem_range.mpr (hlt l (List.mem_append_left _ hl) t hk)
    · intro l hl k hk l' hl' hk'
      exact n3 k (List.mem_flatMap.mpr ⟨l, hl, hk⟩) k (List.mem_flatMap.mpr ⟨l', hl', hk'⟩) rfl

/-! ## The rows of shapes.txt -/

theorem acc_unique {h : List Op} (hn : ((accepted h).map (·.id)).Nodup) {s s' : Shape} (hs : s ∈ accepted h) (hs' : s' ∈ accepted h)
    (e : s'.id = s.id) : s' = s := by
  obtain ⟨i, hi⟩ := List.getElem?_of_mem hs'
  obtain ⟨j, hj⟩ := List.getElem?_of_mem hs
  have e1 : ((accepted h).map (·.id))[i]? = some s'.id := by rw [List.getElem?_map, hi]; rfl
  have e2 : ((accepted h).map (·.id))[j]? = some s'.id := by rw [List.getElem?_map, hj, e]; rfl
  have hlt : i < ((accepted h).map (·.id)).length := by
    rcases Nat.lt_or_ge i ((accepted h).map (·.id)).length with h | h
    · exact h
    · rw [List.getElem?_eq_none h] at e1; cases e1
  have := (List.getElem?_inj hlt hn).mp (e1.trans e2.symm)
  subst this
  rw [hi] at hj
  exact Option.some.inj hj

variable {sh0 : Nat → Str} {js : List Leaf} {s : St}

/-- The rows of a shaped trip in shapes.txt. -/
theorem line_core (hw : 0 < w.lat + w.lng + w.dist) (hm : Mid exact w n sh0 src js s) (hne : ∀ x ∈ src, x.id ≠ [])
    {l : Leaf} (hl : l ∈ js) {k : Nat} (hk : k ∈ l.trips) :
    IsLine (writeShapes w src (exec limit s.hist)) (s.shape k) l.pts := by
  obtain ⟨sp, hsp, hid, hpts⟩ := hm.line l hl k hk
  have hrows : shapeRows sp = l.pts.zipIdx.map fun p => ⟨s.shape k, p.1, p.2 + 1⟩ := by
    unfold shapeRows; rw [hid, hpts]
  unfold IsLine rowsOf
  rw [← hrows]
  rcases C07_no_mixture_partial w hw limit s.hist hm.good src hne hm.src2 hm.past.nodup (s.shape k) with h | ⟨s', hs', hid', h⟩
  · exfalso
    have h0 : src.filter (fun r => decide (r.id = s.shape k)) = [] := by
      rw [List.filter_eq_nil_iff]
      intro r hr e
      exact hm.src2 sp hsp r hr ((of_decide_eq_true e).trans hid.symm)
    rw [h0, ite_self] at h
    rw [C07_shapes_file w hw limit _ hm.good src hne, List.filter_append, List.append_eq_nil_iff] at h
    obtain ⟨p, ps, hps⟩ : ∃ p ps, sp.pts = p :: ps := by
      cases hc : sp.pts with
      | nil => exact absurd hc (hm.good sp (accepted_mem hsp)).2.1
      | cons p ps => exact ⟨p, ps, rfl⟩
    have hmem : (⟨sp.id, p, 1⟩ : Row) ∈ ((accepted s.hist).filter (fun x => live s.hist x.id)).flatMap shapeRows := by
      refine List.mem_flatMap.mpr ⟨sp, List.mem_filter.mpr ⟨hsp, (hm.past.ok sp hsp).1⟩, ?_⟩
      unfold shapeRows
      rw [hps]
      simp
    exact List.filter_eq_nil_iff.mp h.2 _ hmem (by simp [hid])
  · rw [h, acc_unique hm.past.nodup hsp hs' (hid'.trans hid.symm)]

/-- A trip that is not shaped. -/
theorem kept_core (hw : 0 < w.lat + w.lng + w.dist) (hm : Mid exact w n sh0 src js s) (hne : ∀ x ∈ src, x.id ≠ [])
    {k : Nat} (hkn : k < n) (hk : ∀ l ∈ js, k ∉ l.trips) (href : sh0 k = [] ∨ ∃ r ∈ src, r.id = sh0 k) :
    s.shape k = sh0 k ∧ rowsOf (writeShapes w src (exec limit s.hist)) (sh0 k) = rowsOf src (sh0 k) := by
  refine ⟨hm.old k hk, ?_⟩
  unfold rowsOf
  rcases C07_no_mixture_partial w hw limit s.hist hm.good src hne hm.src2 hm.past.nodup (sh0 k) with h | ⟨s', hs', hid', _⟩
  · rw [h]
    rcases href with e | href
    · have : src.filter (fun r => decide (r.id = sh0 k)) = [] := by
        rw [List.filter_eq_nil_iff]
        intro r hr e2
        exact hne r hr ((of_decide_eq_true e2).trans e)
      rw [this, ite_self]
    · rw [if_pos (hm.kept k hkn hk href)]
  · exfalso
    rcases href with e | ⟨r, hr, e⟩
    · exact (hm.good s' (accepted_mem hs')).1.1 (hid'.trans e)
    · exact hm.src2 s' hs' r hr (e.trans hid'.symm)

/-- No other rows. -/
theorem used_core (hw : 0 < w.lat + w.lng + w.dist) (hm : Mid exact w n sh0 src js s) (hex : exact) (hne : ∀ x ∈ src, x.id ≠ [])
    (r : Row) (hr : r ∈ writeShapes w src (exec limit s.hist)) :
    (∃ k, k < n ∧ s.shape k = r.id) ∨ r ∈ src ∧ ∀ k, k < n → sh0 k ≠ r.id := by
  rw [C07_shapes_file w hw limit _ hm.good src hne] at hr
  rcases List.mem_append.mp hr with hr | hr
  · obtain ⟨hr, hlive⟩ := List.mem_filter.mp hr
    rcases hm.usedOld hex r hr hlive with h | h
    · exact .inl h
    · exact .inr ⟨hr, h⟩
  · left
    obtain ⟨sp, hs, hr⟩ := List.mem_flatMap.mp hr
    obtain ⟨k, hk, e⟩ := hm.usedNew sp (List.mem_filter.mp hs).1
    refine ⟨k, hk, ?_⟩
    rw [shapeRows_eq] at hr
    rw [e, rowsFrom_id hr]

end

/-! ## The rows that are copied -/

theorem memo_inv (ids : List Str) : ∀ (pre : List Row) (cur skip : Str), (cur = [] ∨ cur ∈ ids) → (skip = [] ∨ skip ∉ ids) →
    ((memo ids cur skip pre).1 = [] ∨ (memo ids cur skip pre).1 ∈ ids) ∧
    ((memo ids cur skip pre).2 = [] ∨ (memo ids cur skip pre).2 ∉ ids)
  | [], _, _, h1, h2 => ⟨h1, h2⟩
  | sp :: rest, cur, skip, h1, h2 => by
    unfold memo
    split
    · exact memo_inv ids rest cur skip h1 h2
    · split
      · split
        · rename_i h; exact memo_inv ids rest sp.id skip (.inr h) h2
        · rename_i h; exact memo_inv ids rest cur sp.id h1 (.inr h)
      · exact memo_inv ids rest cur skip h1 h2

theorem keepRow_eq (ids : List Str) (pre : List Row) (r : Row) (hr : r.id ≠ []) : keepRow ids pre r = decide (r.id ∈ ids) := by
  obtain ⟨h1, h2⟩ := memo_inv ids pre [] [] (.inl rfl) (.inl rfl)
  unfold keepRow
  dsimp only
  split
  · rename_i e
    rcases h2 with h2 | h2
    · exact absurd (e.trans h2) hr
    · rw [← e] at h2; simp [h2]
  · split
    · rfl
    · rename_i _ e
      have e : r.id = (memo ids [] [] pre).1 := Classical.not_not.mp e
      rcases h1 with h1 | h1
      · exact absurd (e.trans h1) hr
      · rw [← e] at h1; simp [h1]

end Verif.Result
