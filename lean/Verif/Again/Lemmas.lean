import Verif.Again.Spec
import Verif.Again.Colors
import Verif.Intake.Props
import Verif.Build.Props

/-!
# Running the program again (lemmas)
-/

namespace Verif.Again
open Verif.Shapes (Str Widths)
open Verif.Out (Cfg FS HasOutput HasInput Paths NoTmpZip Act StRow StopTime)
open Verif.Content (Tables TripRow Matching EnvOk SameService)
open Verif.Color (Route)
open Verif.Trie (CEnv needsShape groupTrips cinit crun cstep distribute)
open Verif.Build (Mode Item items cluster mrun mruns Spread)
open Verif.Intake (Fields StopRow Wanted RowsOk rowsAt intake)
open Verif.Dists (DRow stRow MRun Measured SmallSeqs readTimes allTimes)
open Verif.Result (shapeRow Run St Done Lines RefsOk Found allRuns start)

variable {A B X Y S P K E C Pt D S' Z Di : Type}

/-! ## A mode configuration without work -/

theorem groups_nil {c : CEnv Nat P K} {n : Nat} (h : ∀ k, k < n → ¬ needsShape c k) : groupTrips c (List.range n) = [] := by
  rw [Trie.groupTrips_eq]
  have : (List.range n).filter (fun t => decide (needsShape c t)) = [] := by
    rw [List.filter_eq_nil_iff]
    intro k hk
    simp [h k (List.mem_range.mp hk)]
  rw [this]
  rfl

theorem crun_idle {c : CEnv Nat P K} {groups : List (K × List Nat)} {s : Trie.CSys Nat P K} (h : ∀ l ∈ s.pend, l = []) :
    ∀ sched : List Nat, crun c groups sched s = some s
  | [] => rfl
  | i :: sched => by
    have : cstep c groups s i = some s := by
      unfold cstep
      cases hp : s.pend[i]? with
      | none => rfl
      | some l =>
        rw [h l (List.mem_of_getElem? hp)]
    rw [crun, this]
    exact crun_idle h sched

theorem items_idle [DecidableEq E] (geo : Line.Geo Pt) {m : Mode E C Pt D S' P K} {n : Nat} (h : ∀ k, k < n → ¬ needsShape m.c k) :
    items geo m n = some [] := by
  have e : cinit m.c m.thr (List.range n) = some ⟨[], (List.replicate m.thr []).map (Trie.todo ([] : List (K × List Nat)))⟩ := by
    unfold cinit
    rw [groups_nil h]
    rfl
  unfold items cluster
  rw [e, groups_nil h]
  dsimp only
  rw [crun_idle (by
    intro l hl
    obtain ⟨x, hx, rfl⟩ := List.mem_map.mp hl
    rw [(List.mem_replicate.mp hx).2]
    rfl)]
  rfl

theorem run_idle (g : Shapes.Workers.Cfg) (hj : g.jobs = []) : ∀ (sched : List Nat) (s : Shapes.Workers.Sys), (∀ w, (s.thr w).code = []) →
    (sched.foldl (Shapes.Workers.step g) s).hist = s.hist ∧ (sched.foldl (Shapes.Workers.step g) s).shape = s.shape ∧
      (sched.foldl (Shapes.Workers.step g) s).setd = s.setd
  | [], s, _ => ⟨rfl, rfl, rfl⟩
  | w :: sched, s, h => by
    have key : (∀ v, ((Shapes.Workers.step g s w).thr v).code = []) ∧ (Shapes.Workers.step g s w).hist = s.hist ∧
        (Shapes.Workers.step g s w).shape = s.shape ∧ (Shapes.Workers.step g s w).setd = s.setd := by
      unfold Shapes.Workers.step
      by_cases hs : (s.thr w).stopped = true
      · rw [if_pos hs]; exact ⟨h, rfl, rfl, rfl⟩
      · rw [if_neg hs, h w]
        dsimp only
        unfold Shapes.Workers.fetch
        rw [hj]
        dsimp only [List.getElem?_nil]
        refine ⟨fun v => ?_, rfl, rfl, rfl⟩
        by_cases hv : v = w
        · rw [Shapes.Workers.upd, if_pos hv]; exact h w
        · rw [Shapes.Workers.upd, if_neg hv]; exact h v
    obtain ⟨h1, h2, h3⟩ := run_idle g hj sched _ key.1
    rw [List.foldl_cons]
    exact ⟨h1.trans key.2.1, h2.trans key.2.2.1, h3.trans key.2.2.2⟩

theorem run_idle' {limit : Nat} {a : Bool} {n : Nat} {s : St} (sched : List Nat) :
    (Shapes.Workers.run (Result.workers limit a n [] s) sched).hist = s.hist ∧ (Shapes.Workers.run (Result.workers limit a n [] s) sched).shape = s.shape ∧
      (Shapes.Workers.run (Result.workers limit a n [] s) sched).setd = [] :=
  run_idle (Result.workers limit a n [] s) rfl sched _ fun _ => rfl

theorem after_idle {limit : Nat} {a : Bool} {n : Nat} {r : Run} (h : r.jobs = []) (s : St) : Result.after limit a n r s = s := by
  unfold Result.after
  rw [h]
  obtain ⟨h1, h2, _⟩ := run_idle' (limit := limit) (a := a) (n := n) (s := s) r.sched
  dsimp only
  rw [h1, h2]

theorem allRuns_idle {limit : Nat} {a : Bool} {n : Nat} : ∀ (rs : List Run) (s : St), (∀ r ∈ rs, r.jobs = []) → allRuns limit a n rs s = s
  | [], _, _ => rfl
  | r :: rs, s, h => by
    rw [allRuns, List.foldl_cons, after_idle (h r (List.mem_cons_self ..))]
    exact allRuns_idle rs s fun r hr => h r (List.mem_cons_of_mem _ hr)

theorem allTimes_idle {limit : Nat} {a : Bool} {n : Nat} {ts : List (List (StopTime Di))} : ∀ (rs : List (MRun Di)) (s : St),
    (∀ r ∈ rs, r.run.jobs = []) → allTimes limit a n rs s ts = some ts
  | [], _, _ => rfl
  | r :: rs, s, h => by
    have hr := h r (List.mem_cons_self ..)
    rw [allTimes, hr, (run_idle' (limit := limit) (a := a) (n := n) (s := s) r.run.sched).2.2]
    dsimp only [Dists.setAll]
    exact allTimes_idle rs _ fun r hr => h r (List.mem_cons_of_mem _ hr)

/-! ## What is written without work -/

/-- All shapes of the input are written, and no others. -/
theorem shapes_idle (w : Widths) (hw : 0 < w.lat + w.lng + w.dist) (limit : Nat) (trips : List (TripRow X)) (src : List Shapes.Row)
    (hne : ∀ r ∈ src, r.id ≠ []) : Shapes.writeShapes w src (Shapes.exec limit (start trips src).hist) = src := by
  have hm := Result.mid_start (exact := True) (w := w) (src := src) trips
  rw [Shapes.C07_shapes_file w hw limit _ hm.good src hne]
  have e : (start trips src).hist = (src.map (·.id)).map .register := by simp [start, List.map_map, Function.comp_def]
  have ea : Shapes.accepted (start trips src).hist = [] := by rw [e]; exact Shapes.Workers.accepted_registers _
  rw [ea]
  have : src.filter (fun r => Shapes.live (start trips src).hist r.id) = src := by
    rw [List.filter_eq_self]
    intro r hr
    exact Result.live_registered src r hr
  rw [this]
  exact List.append_nil _

theorem flat_idle {i : Tables A B X Z} {F : Color.Feed A B} (hl : Content.Loaded i F) (src : List Shapes.Row) {rows : List (TripRow X)}
    (h : Content.flatTrips F i.trips F.trips ((List.range i.trips.length).map (start i.trips src).shape) = some rows) : rows = i.trips := by
  obtain ⟨hlen, hget⟩ := Content.flatTrips_get h
  apply List.ext_getElem?
  intro k
  cases hk : i.trips[k]? with
  | none => rw [List.getElem?_eq_none_iff] at hk ⊢; omega
  | some t =>
    obtain ⟨r, s, R, h1, h2, h3, h4⟩ := hget k t hk
    obtain ⟨r', R', g1, g2, g3⟩ := hl.trip k t hk
    rw [g1] at h1
    cases h1
    rw [hl.routes, g2] at h3
    cases h3
    rw [List.getElem?_map, List.getElem?_range (Content.lt_of_some hk)] at h2
    have : s = t.shape := by
      rw [← Option.some.inj h2]
      show (i.trips[k]?.map (·.shape)).getD [] = _
      rw [hk]; rfl
    rw [h4, g3, this]

theorem measured_idle {rs : List (MRun Di)} {trips : List (TripRow X)} {rows rows' : List (StRow Di S)} (hk : ∀ r ∈ rows, ∃ t ∈ trips, t.id = r.trip)
    (hj : ∀ r ∈ rs, r.run.jobs = []) (h : Measured rs trips rows rows') : rows' = rows := by
  apply List.ext_getElem?
  intro p
  by_cases hp : p < rows.length
  · have hp' : p < rows'.length := by rw [h.length]; exact hp
    have e1 := List.getElem?_eq_getElem hp
    have e2 := List.getElem?_eq_getElem hp'
    obtain ⟨a1, a2, a3⟩ := h.row p _ _ e1 e2
    obtain ⟨t, ht, hid⟩ := hk _ (List.getElem_mem hp)
    obtain ⟨k, hkt⟩ := List.getElem?_of_mem ht
    have a4 := h.old p _ _ e1 e2 k t hkt hid (by
      rintro ⟨ds, r, hr, ⟨j, hjm, _⟩, _⟩
      rw [hj r hr] at hjm
      cases hjm)
    rw [e1, e2]
    generalize rows'[p] = x at *
    generalize rows[p] = y at *
    cases x; cases y
    dsimp only at a1 a2 a3 a4
    rw [a1, a2, a3, a4]
  · rw [List.getElem?_eq_none (by rw [h.length]; omega), List.getElem?_eq_none (by omega)]

/-- A run without work. -/
theorem idle_core (w : Widths) (hw : 0 < w.lat + w.lng + w.dist) (mt : Matching) (e : Content.Env A B X (Shapes.Row ⊕ (StRow Di S ⊕ Y))) (he : EnvOk e)
    (i : Tables A B X (Shapes.Row ⊕ (StRow Di S ⊕ Y))) (v : Content.Valid i) (hne : ∀ t ∈ i.trips, t.id ≠ []) (src : List Shapes.Row)
    (hsrc : ∀ r ∈ src, r.id ≠ []) (rs : List (MRun Di)) (hj : ∀ r ∈ rs, r.run.jobs = []) (hth : ∀ r ∈ rs, r.run.threads.flatten = [])
    (htext : ∀ r ∈ rs, ∀ (k : Nat) t, i.trips[k]? = some t → r.run.keep k = true → ∀ R ∈ i.routes, R.id = t.route → R.color ≠ mt.noColor →
      R.text = mt.textColor R.color)
    (rows : List (StRow Di S)) (hs : SmallSeqs rows) (ts0 : List (List (StopTime Di))) (hr : readTimes i.trips rows = some ts0) (limit : Nat) (a : Bool) :
    ∃ f, allTimes limit a i.trips.length rs (start i.trips src) ts0 = some ts0 ∧
      Dists.write mt e w limit i rs (allRuns limit a i.trips.length (rs.map (·.run)) (start i.trips src)) ts0 = some f ∧
      ∀ (c : Cfg) (fs : FS (DRow A B Di S X Y)), Paths c → NoTmpZip c fs → Content.Reads c fs i → Out.Input c fs .shapes (src.map shapeRow) →
      HasInput c fs .stopTimes (rows.map stRow) →
      ∀ as : List Act, .wrErr ∉ as → (Out.run c (Out.init fs (Out.jobs f)) as).phase = .done →
        Written c (Out.run c (Out.init fs (Out.jobs f)) as).fs i.routes i.trips src rows ∧
        (∀ n ∈ [Out.Name.agency, .stops, .calendar, .calendarDates, .transfers, .fareAttributes, .fareRules, .pathways, .levels], ∀ rows,
          HasInput c fs n rows → HasOutput c (Out.run c (Out.init fs (Out.jobs f)) as).fs n (.header n :: rows)) ∧
        (∀ r rows, HasInput c fs .frequencies (r :: rows) →
          HasOutput c (Out.run c (Out.init fs (Out.jobs f)) as).fs .frequencies (.header .frequencies :: r :: rows)) := by
  have hj' : ∀ r ∈ rs.map (·.run), r.jobs = [] := by
    intro r hr
    obtain ⟨x, hx, rfl⟩ := List.mem_map.mp hr
    exact hj x hx
  obtain ⟨F, hF⟩ := Content.load_valid v
  have hl := Content.loaded_of_load hF
  have hcol : Color.colorRuns mt.noColor mt.textColor mt.writeColors (Result.paints (rs.map (·.run))) F = some F := by
    refine colorRuns_same (Content.loaded_ok v hl) _ ?_ ?_
    · intro p hp
      obtain ⟨r, hr, rfl⟩ := List.mem_map.mp hp
      obtain ⟨x, hx, rfl⟩ := List.mem_map.mp hr
      exact hth x hx
    · intro p hp k hk r htr R hR hc
      obtain ⟨r', hr', rfl⟩ := List.mem_map.mp hp
      obtain ⟨x, hx, rfl⟩ := List.mem_map.mp hr'
      have hlt : k < i.trips.length := by rw [← hl.len]; exact Color.lt_of_getElem? htr
      obtain ⟨r2, R2, g1, g2, g3⟩ := hl.trip k _ (List.getElem?_eq_getElem hlt)
      rw [htr] at g1
      cases g1
      rw [hl.routes, g2] at hR
      cases hR
      exact htext x hx k _ (List.getElem?_eq_getElem hlt) hk _ (List.mem_of_getElem? g2) g3 hc
  obtain ⟨trows, hflat⟩ := Content.flatTrips_all (F := F) (ts := i.trips) (rs := F.trips) (ss := (List.range i.trips.length).map (start i.trips src).shape)
    hl.len (by simp) (Content.loaded_ok v hl).trips
  have ht := flat_idle hl src hflat
  subst ht
  have hw0 : Dists.write mt e w limit i rs (start i.trips src) ts0 = some (Content.outFeed (Result.shapesEnv w (Shapes.exec limit (start i.trips src).hist)
      (Dists.stEnv (Dists.lookup i.trips ts0) e)) i F i.trips) := by
    rw [Dists.write, Result.write, hF]
    simp only [hcol, hflat]
  refine ⟨_, allTimes_idle rs _ hj, by rw [allRuns_idle _ _ hj']; exact hw0, ?_⟩
  intro c fs g hz hrd hin hst as ha hd
  obtain ⟨o1, o2, _⟩ := Out.C42_memory _ c g fs hz as ha hd
  have o3 := Result.shapes_written hsrc c fs g hz hin as ha hd
  rw [shapes_idle w hw limit i.trips src hsrc] at o3
  obtain ⟨rows', o4, hM⟩ := Dists.times_of (rs := rs) v hne hs hr rfl (fun _ _ => rfl) (by
    rintro k ds ⟨r, hr, ⟨j, hjm, _⟩, _⟩
    rw [hj r hr] at hjm
    cases hjm) hw0 c fs g hz hst as ha hd
  have : rows' = rows := measured_idle (by
    intro r hrm
    obtain ⟨k, hk⟩ := (Dists.readTimes_ok hr).1 r hrm
    have := Content.pos_some hk
    rw [List.getElem?_map] at this
    obtain ⟨t, ht, e⟩ := Option.map_eq_some_iff.mp this
    exact ⟨t, List.mem_of_getElem? ht, e⟩) hj hM
  subst this
  refine ⟨⟨⟨e.orderR F.routes, by rw [← hl.routes]; exact he.routes _, o1⟩, ⟨e.orderT i.trips, he.trips _, o2⟩, o3, o4⟩, ?_⟩
  exact Content.files_of v c fs g hz hrd as ha hd

end Verif.Again
