import Verif.Shapes.WorkersProps

/-!
# Which line each trip has in the end (invariant)

The workers are those of `Verif.Shapes.Workers`. `own` says for which leaf an id was handed out; it is not a part of the program.
-/

namespace Verif.Result
open Verif.Shapes Verif.Shapes.Workers

/-- The actions that are left are those of leafs of `ls`; up to the next `free`, they are those of `p`. -/
def Seg (ls : List Leaf) : Option Leaf → List Instr → Prop
  | _, [] => True
  | _, .free ty :: l => ∃ f ∈ ls, f.ty = ty ∧ Seg ls (some f) l
  | p, .set t pts :: l => (∃ f, p = some f ∧ t ∈ f.trips ∧ pts = f.pts) ∧ Seg ls p l
  | p, .use _ :: l => Seg ls p l
  | p, .store _ _ :: l => Seg ls p l
  | p, .chk _ :: l => Seg ls p l

theorem seg_irrel {ls : List Leaf} (p q : Option Leaf) : ∀ {l : List Instr}, needsCur l = false → Seg ls p l → Seg ls q l
  | [], _, _ => True.intro
  | .free _ :: _, _, h => h
  | .set _ _ :: _, h, _ => by cases h
  | .use _ :: l, hn, h => seg_irrel (l := l) p q hn h
  | .store _ _ :: l, hn, h => seg_irrel (l := l) p q hn h
  | .chk _ :: l, hn, h => seg_irrel (l := l) p q hn h

theorem seg_trips {ls : List Leaf} (f : Leaf) (rest : List Instr) (hr : Seg ls (some f) rest) : ∀ ts : List Nat, (∀ t ∈ ts, t ∈ f.trips) →
    Seg ls (some f) ((ts.flatMap fun t => [.use t, .set t f.pts]) ++ rest)
  | [], _ => hr
  | t :: ts, h => ⟨⟨f, rfl, h t (List.mem_cons_self ..), rfl⟩, seg_trips f rest hr ts (fun t ht => h t (List.mem_cons_of_mem _ ht))⟩

theorem seg_job {ls : List Leaf} (p : Option Leaf) : ∀ j : List Leaf, (∀ f ∈ j, f ∈ ls) → Seg ls p (jobCode j)
  | [], _ => True.intro
  | f :: j, h => by
    show Seg ls p (.free f.ty :: (f.trips.flatMap _) ++ jobCode j)
    exact ⟨f, h f (List.mem_cons_self ..), rfl, seg_trips f _ (seg_job (some f) j (fun f hf => h f (List.mem_cons_of_mem _ hf))) f.trips
      (fun _ h => h)⟩

/-- What is known about the leafs that ids were handed out for. -/
structure Own (g : Cfg) (s : Sys) (own : Str → Option Leaf) : Prop where
  leaf : ∀ id f, own id = some f → f ∈ g.jobs.flatten
  seg : ∀ w, Seg g.jobs.flatten (own (s.thr w).cur) (s.thr w).code
  add : ∀ sp, Op.add sp ∈ s.hist → Op.add sp ∈ g.past ∨ sp.id ∈ s.handed ∧ ∃ f, own sp.id = some f ∧ sp.pts = f.pts
  setd : ∀ t ∈ s.setd, ∃ f, own (s.shape t) = some f ∧ t ∈ f.trips
  used : ∀ sp ∈ accepted s.hist, sp ∈ accepted g.past ∨ ∃ t ∈ s.setd, s.shape t = sp.id
  found : ∀ id ∈ s.handed, live s.hist id = true → ∃ sp ∈ accepted s.hist, sp.id = id ∧ ∃ f, own id = some f ∧ sp.pts = f.pts
  old : ∀ id, live s.hist id = true → live g.past id = true ∨ id ∈ s.handed

/-- Another thread is not concerned. -/
theorem seg_upd {ls : List Leaf} {s : Sys} {own : Str → Option Leaf} {w : Nat} {th : Thread}
    (h : ∀ v, Seg ls (own (s.thr v).cur) (s.thr v).code) (hth : Seg ls (own th.cur) th.code) :
    ∀ v, Seg ls (own (upd s.thr w th v).cur) (upd s.thr w th v).code := by
  intro v
  by_cases e : v = w
  · subst e; rw [upd_same]; exact hth
  · rw [upd_ne _ _ e]; exact h v

theorem Own.step {g : Cfg} {W : Nat} {s : Sys} {w : Nat} (hw : w < W) (hv : Valid g) (hc : Ctl g W s) (hn : NoClash g) (hh : Hand s) (hct : Low g s) (hnw : News g s)
    (h : ∃ own, Own g s own) : ∃ own, Own g (step g s w) own := by
  obtain ⟨own, h⟩ := h
  apply step_cases (P := fun s' => ∃ own, Own g s' own)
  · intro _; exact ⟨own, h⟩
  · intro hst hcode
    unfold fetch
    split
    · exact ⟨own, h.leaf, seg_upd h.seg (by have := h.seg w; exact this), h.add, h.setd, h.used, h.found, h.old⟩
    · rename_i j hj
      refine ⟨own, h.leaf, seg_upd h.seg (seg_job _ j ?_), h.add, h.setd, h.used, h.found, h.old⟩
      intro f hf
      exact List.mem_flatten.mpr ⟨j, List.mem_of_getElem? hj, hf⟩
  · intro i rest hst hcode
    have hseg := h.seg w
    rw [hcode] at hseg
    cases i with
    | free ty =>
      simp only [runInstr]
      split
      · exact ⟨own, h⟩
      · rename_i id cnt he
        obtain ⟨hdead, hlt, hid⟩ := free_fresh he
        have hnew : id ∉ s.handed := by rw [hid]; exact free_new hh hlt
        obtain ⟨f, hf, _, hrest⟩ := hseg
        have hother : ∀ x ∈ s.handed, upd own id (some f) x = own x :=
          fun x hx => upd_ne _ _ (fun e => hnew (by rw [← e]; exact hx))
        refine ⟨upd own id (some f), ?_, ?_, ?_, ?_, h.used, ?_, ?_⟩
        · intro x f' hx
          by_cases e : x = id
          · subst e; rw [upd_same] at hx; cases hx; exact hf
          · rw [upd_ne _ _ e] at hx; exact h.leaf x f' hx
        · refine seg_upd (s := s) ?_ ?_
          · intro v
            cases hnc : needsCur (s.thr v).code with
            | false => exact seg_irrel _ _ hnc (h.seg v)
            | true => rw [hother _ (hh.needs v hnc)]; exact h.seg v
          · show Seg _ (upd own id (some f) id) rest
            rw [upd_same]; exact hrest
        · intro sp hsp
          rcases h.add sp hsp with h0 | ⟨h1, h2⟩
          · exact .inl h0
          · refine .inr ⟨List.mem_append_left _ h1, ?_⟩
            rw [hother _ h1]
            exact h2
        · intro t ht
          show ∃ f', upd own id (some f) (s.shape t) = some f' ∧ _
          rw [hother _ (hnw.assigned t ht).1]
          exact h.setd t ht
        · intro x hx hl
          rcases List.mem_append.mp hx with hx | hx
          · rw [hother _ hx]
            exact h.found x hx hl
          · rw [List.mem_singleton] at hx
            subst hx
            exact absurd (hdead.symm.trans hl) (by decide)
        · intro x hl
          exact (h.old x hl).imp (fun h => h) (List.mem_append_left _)
    | use t =>
      simp only [runInstr]
      split
      · split
        · exact ⟨own, h.leaf, seg_upd h.seg hseg, h.add, h.setd, h.used, h.found, h.old⟩
        · exact ⟨own, h.leaf, seg_upd h.seg hseg, h.add, h.setd, h.used, h.found, h.old⟩
      · exact ⟨own, h.leaf, seg_upd h.seg hseg, h.add, h.setd, h.used, h.found, h.old⟩
    | store sh v => exact ⟨own, h.leaf, seg_upd h.seg hseg, h.add, h.setd, h.used, h.found, h.old⟩
    | chk x =>
      obtain ⟨_, t0, ht0, e0⟩ := hct.chkOk w x (by rw [hcode]; simp)
      have hx : x ∉ s.handed := by
        intro hm
        obtain ⟨ty, k, e, _⟩ := hh.form x hm
        exact hn t0 ht0 ty k (by rw [e0, e])
      simp only [runInstr]
      have hacc : accepted (if s.use x = 0 then s.hist ++ [.remove x] else s.hist) = accepted s.hist := by
        split
        · rw [accepted_append]
        · rfl
      have hadd : ∀ sp, Op.add sp ∈ (if s.use x = 0 then s.hist ++ [.remove x] else s.hist) → Op.add sp ∈ s.hist := by
        intro sp hsp
        split at hsp
        · rcases List.mem_append.mp hsp with hsp | hsp
          · exact hsp
          · rw [List.mem_singleton] at hsp; cases hsp
        · exact hsp
      refine ⟨own, h.leaf, seg_upd h.seg hseg, fun sp hsp => h.add sp (hadd sp hsp), h.setd, ?_, ?_, ?_⟩
      · intro sp hsp
        have hsp : sp ∈ accepted (if s.use x = 0 then s.hist ++ [.remove x] else s.hist) := hsp
        rw [hacc] at hsp
        exact h.used sp hsp
      · intro y hy hl
        show ∃ sp ∈ accepted (if s.use x = 0 then s.hist ++ [.remove x] else s.hist), sp.id = y ∧ _
        rw [hacc]
        refine h.found y hy ?_
        have hl : live (if s.use x = 0 then s.hist ++ [.remove x] else s.hist) y = true := hl
        split at hl
        · rw [live_remove, if_neg (fun e => hx (by rw [e]; exact hy))] at hl; exact hl
        · exact hl
      · intro y hl
        have hl : live (if s.use x = 0 then s.hist ++ [.remove x] else s.hist) y = true := hl
        refine h.old y ?_
        split at hl
        · rw [live_remove] at hl
          split at hl
          · cases hl
          · exact hl
        · exact hl
    | set t pts =>
      have hcur : (s.thr w).cur ∈ s.handed := hh.needs w (by rw [hcode]; rfl)
      obtain ⟨⟨f, hof, htf, hpts⟩, hrest⟩ := hseg
      simp only [runInstr]
      have hnew : t ∉ s.setd := by
        intro hm
        have h2 : t ∈ pend setTrips W s.thr := mem_pend hw (by rw [hcode]; simp [setTrips, Instr.setT])
        have n2 := hc.sPerm.nodup_iff.mpr hv.nodup
        rw [List.nodup_append] at n2
        exact n2.2.2 t hm t (List.mem_append_left _ h2) rfl
      refine ⟨own, h.leaf, seg_upd h.seg hrest, ?_, ?_, ?_, ?_, ?_⟩
      · intro sp hsp
        rcases List.mem_append.mp hsp with hsp | hsp
        · exact h.add sp hsp
        · rw [List.mem_singleton] at hsp; cases hsp; exact .inr ⟨hcur, f, hof, hpts⟩
      · intro t' ht'
        show ∃ f', own (upd s.shape t _ t') = some f' ∧ _
        by_cases e : t' = t
        · subst e; rw [upd_same]; exact ⟨f, hof, htf⟩
        · rw [upd_ne _ _ e]
          have ht' : t' ∈ s.setd ++ [t] := ht'
          simp only [List.mem_append, List.mem_singleton, e, or_false] at ht'
          exact h.setd t' ht'
      · intro sp hsp
        show _ ∨ ∃ t' ∈ s.setd ++ [t], upd s.shape t (s.thr w).cur t' = sp.id
        have hsp : sp ∈ accepted (s.hist ++ [.add ⟨(s.thr w).cur, pts⟩]) := hsp
        rw [accepted_append] at hsp
        simp only at hsp
        have hold : sp ∈ accepted s.hist → sp ∈ accepted g.past ∨ ∃ t' ∈ s.setd ++ [t], upd s.shape t (s.thr w).cur t' = sp.id := by
          intro hsp
          rcases h.used sp hsp with h0 | ⟨t', ht', e'⟩
          · exact .inl h0
          · refine .inr ⟨t', List.mem_append_left _ ht', ?_⟩
            rw [upd_ne _ _ (fun e => hnew (by rw [← e]; exact ht'))]
            exact e'
        split at hsp
        · exact hold hsp
        · rcases List.mem_append.mp hsp with hsp | hsp
          · exact hold hsp
          · rw [List.mem_singleton] at hsp
            subst hsp
            exact .inr ⟨t, List.mem_append_right _ (List.mem_singleton.mpr rfl), upd_same ..⟩
      · intro x hx hl
        show ∃ sp ∈ accepted (s.hist ++ [.add ⟨(s.thr w).cur, pts⟩]), sp.id = x ∧ _
        have hl : live (s.hist ++ [.add ⟨(s.thr w).cur, pts⟩]) x = true := hl
        rw [live_add] at hl
        rw [accepted_append]
        simp only at hl ⊢
        by_cases e : (s.thr w).cur = x
        · subst e
          split
          · rename_i hlive; exact h.found _ hx hlive
          · exact ⟨_, List.mem_append_right _ (List.mem_singleton.mpr rfl), rfl, f, hof, hpts⟩
        · rw [if_neg e] at hl
          obtain ⟨sp, hsp, e'⟩ := h.found x hx hl
          split
          · exact ⟨sp, hsp, e'⟩
          · exact ⟨sp, List.mem_append_left _ hsp, e'⟩
      · intro x hl
        have hl : live (s.hist ++ [.add ⟨(s.thr w).cur, pts⟩]) x = true := hl
        rw [live_add] at hl
        simp only at hl
        split at hl
        · rename_i e; exact .inr (by rw [← e]; exact hcur)
        · exact h.old x hl

theorem own_run (g : Cfg) (W : Nat) (hv : Valid g) (hp : PastOk g.past) (hn : NoClash g) (sched : List Nat) (h : SchedOk W sched) :
    ∃ own, Own g (run g sched) own := by
  refine run_induct (P := fun s => ∃ own, Own g s own) ?_ (fun sch hs _ hw h => Own.step hw hv (ctl g W sch hs) hn (hand g sch)
    (low g W hv sch hs) (news g W hv hp hn sch hs) h) sched h
  exact ⟨fun _ => none, by simp, fun w => True.intro, fun sp h => .inl h, by simp [init], fun sp h => .inl h, by simp [init],
    fun id h => .inl h⟩

end Verif.Result
