import Verif.Dists.Lemmas
import Verif.Line.ColProps

/-!
# Distances in stop_times.txt (property C86)
-/

namespace Verif.Dists
open Verif.Shapes (Str Widths)
open Verif.Out (StRow StopTime Trips Cfg FS HasInput HasOutput Paths NoTmpZip Act jobs stStep curAfter)
open Verif.Content (Tables TripRow Env Matching EnvOk lt_of_some)
open Verif.Result (Run St Done LeafsOk RefsOk NewIds ColorsOk PtsOk NoDrop Lines rowsOf IsLine allRuns start shapeRow)

variable {A B D S X Y : Type}

theorem getSeq_small {x : Int} (h : 0 ≤ x ∧ x < 65536) : getSeq x = x := Int.emod_eq_of_lt h.1 h.2

theorem sorted_nodup {l l' : List (StopTime D)} (h : Sorted l) (e : l'.map (·.seq) = l.map (·.seq)) : (l'.map (·.seq)).Nodup := by
  rw [e, List.Nodup, List.pairwise_map]
  exact h.imp fun h => by omega

theorem exists_map {α β : Type} {f : α → β} : ∀ {l : List β}, (∀ x ∈ l, ∃ y, x = f y) → ∃ m : List α, l = m.map f
  | [], _ => ⟨[], rfl⟩
  | x :: l, h => by
    obtain ⟨y, rfl⟩ := h x (List.mem_cons_self ..)
    obtain ⟨m, rfl⟩ := exists_map (f := f) (l := l) fun x hx => h x (List.mem_cons_of_mem _ hx)
    exact ⟨y :: m, rfl⟩

/-- The stop times of a trip in memory and its rows. -/
theorem place_perm {rows : List (StRow D S)} (hs : SmallSeqs rows) {l : List (StopTime D)} {id : Str}
    (hp : l.Perm ((rows.filter fun r => r.trip = id).map mem)) (x : Int) :
    (l.filter fun s => s.seq < x).length = (rows.filter fun q => q.trip = id ∧ q.seq < x).length := by
  rw [(hp.filter _).length_eq]
  rw [List.filter_map, List.length_map, List.filter_filter]
  congr 1
  apply List.filter_congr
  intro r hr
  have e : ((fun s : StopTime D => decide (s.seq < x)) ∘ mem) r = decide (r.seq < x) := by
    show decide (getSeq r.seq < x) = _
    rw [getSeq_small (hs r hr)]
  rw [e]
  by_cases h1 : r.trip = id <;> by_cases h2 : r.seq < x <;> simp [h1, h2]

/-- The rows that are written, from the stop times in memory. -/
theorem measured_of {rs : List (MRun D)} {trips : List (TripRow X)} (hids : (trips.map (·.id)).Nodup) (hne : ∀ t ∈ trips, t.id ≠ [])
    {rows : List (StRow D S)} (hs : SmallSeqs rows) {ts0 ts : List (List (StopTime D))} (hr : readTimes trips rows = some ts0)
    (_hlen : ts.length = ts0.length) (hold : ∀ (k : Nat), (¬ ∃ ds, Given rs k ds) → ts[k]? = ts0[k]?)
    (hnew : ∀ (k : Nat) ds, Given rs k ds → ∀ l, ts0[k]? = some l → ∃ l', ts[k]? = some l' ∧ SetTo ds l l')
    (i : Nat) (r : StRow D S) (hi : rows[i]? = some r) :
    ∃ r', (stStep (lookup trips ts) (curAfter (lookup trips ts) (rows.take i)) r).2 = some r' ∧ r'.trip = r.trip ∧ r'.seq = r.seq ∧
      r'.rest = r.rest ∧ (∀ (k : Nat) t ds, trips[k]? = some t → t.id = r.trip → Given rs k ds → ds[placeOf rows r]? = some r'.dist) ∧
      ∀ (k : Nat) t, trips[k]? = some t → t.id = r.trip → (¬ ∃ ds, Given rs k ds) → r'.dist = r.dist := by
  obtain ⟨h1, h2, h3⟩ := readTimes_ok hr
  have hget : ∀ (k : Nat) t, trips[k]? = some t → ∃ l l', ts0[k]? = some l ∧ ts[k]? = some l' ∧ Sorted l ∧
      l.Perm ((rows.filter fun r => r.trip = t.id).map mem) ∧ l'.map (·.seq) = l.map (·.seq) := by
    intro k t ht
    obtain ⟨l, hl, e1, e2⟩ := h3 k t ht
    by_cases hg : ∃ ds, Given rs k ds
    · obtain ⟨ds, hg⟩ := hg
      obtain ⟨l', e3, e4, _⟩ := hnew k ds hg l hl
      exact ⟨l, l', hl, e3, e1, e2, e4⟩
    · exact ⟨l, l, hl, by rw [hold k hg]; exact hl, e1, e2, rfl⟩
  have hlook : ∀ (k : Nat) t, trips[k]? = some t → lookup trips ts t.id = ts[k]? := by
    intro k t ht
    have e1 : (trips.map (·.id))[k]? = some t.id := by rw [List.getElem?_map, ht]; rfl
    obtain ⟨k', hk'⟩ := Content.pos_mem (List.mem_of_getElem? e1)
    have := (List.getElem?_inj (lt_of_some (Content.pos_some hk')) hids).mp ((Content.pos_some hk').trans e1.symm)
    subst this
    unfold lookup
    rw [hk']
  have hu : Out.UniqueSeqs (lookup trips ts) := by
    intro id sts h
    unfold lookup at h
    cases hp : Content.pos (trips.map (·.id)) id with
    | none => rw [hp] at h; cases h
    | some k =>
      rw [hp] at h
      have hk := lt_of_some (Content.pos_some hp)
      rw [List.length_map] at hk
      obtain ⟨l, l', _, e2, e3, _, e5⟩ := hget k _ (List.getElem?_eq_getElem hk)
      have h : ts[k]? = some sts := h
      rw [h] at e2
      cases e2
      exact sorted_nodup e3 e5
  have hknown : ∀ q ∈ rows, q.trip ≠ [] ∧ ((lookup trips ts) q.trip).isSome := by
    intro q hq
    obtain ⟨k, hk⟩ := h1 q hq
    have e := Content.pos_some hk
    have hlt := lt_of_some e
    rw [List.length_map] at hlt
    rw [List.getElem?_map, List.getElem?_eq_getElem hlt] at e
    have e : trips[k].id = q.trip := Option.some.inj e
    refine ⟨by rw [← e]; exact hne _ (List.getElem_mem hlt), ?_⟩
    obtain ⟨l, l', _, e2, _⟩ := hget k _ (List.getElem?_eq_getElem hlt)
    rw [← e, hlook k _ (List.getElem?_eq_getElem hlt), e2]
    rfl
  obtain ⟨r', e1, e2, e3, e4, sts, e5, e6, e7⟩ := Out.C43_stream (lookup trips ts) hu (rows.take i) r (by
    intro q hq
    rcases List.mem_append.mp hq with hq | hq
    · exact hknown q (List.mem_of_mem_take hq)
    · rw [List.mem_singleton.mp hq]; exact hknown r (List.mem_of_getElem? hi))
  have hrm := List.mem_of_getElem? hi
  have hmem : ∀ (k : Nat) t (l : List (StopTime D)), trips[k]? = some t → t.id = r.trip → l.Perm ((rows.filter fun r => r.trip = t.id).map mem) → mem r ∈ l := by
    intro k t l _ hid hp
    exact hp.mem_iff.mpr (List.mem_map.mpr ⟨r, List.mem_filter.mpr ⟨hrm, by simp [hid]⟩, rfl⟩)
  have hseq : (mem r).seq = r.seq := getSeq_small (hs r hrm)
  refine ⟨r', e1, e2, e3, e4, ?_, ?_⟩
  · intro k t ds ht hid hg
    obtain ⟨l, hl, g1, g2⟩ := h3 k t ht
    obtain ⟨l', f1, f2, f3⟩ := hnew k ds hg l hl
    have : sts = l' := by
      rw [← hid, hlook k t ht, f1] at e5
      exact (Option.some.inj e5).symm
    subst this
    obtain ⟨p, hp⟩ := List.getElem?_of_mem (hmem k t l ht hid g2)
    have hplace := place_sorted l g1 p _ hp
    rw [place_perm hs g2, hseq, hid] at hplace
    have e8 : (sts.map (·.seq))[p]? = some r.seq := by rw [f2, List.getElem?_map, hp, Option.map_some, hseq]
    rw [List.getElem?_map] at e8
    obtain ⟨x, hx, hxs⟩ := Option.map_eq_some_iff.mp e8
    rw [e6 x (List.mem_of_getElem? hx) hxs]
    unfold placeOf
    rw [hplace]
    exact f3 p x hx
  · intro k t ht hid hg
    obtain ⟨l, hl, g1, g2⟩ := h3 k t ht
    have : sts = l := by
      rw [← hid, hlook k t ht, hold k hg, hl] at e5
      exact (Option.some.inj e5).symm
    subst this
    exact e6 (mem r) (hmem k t sts ht hid g2) hseq

/-- The writer of stop times in `write`. -/
theorem write_fields {m : Matching} {e : Env A B X (Shapes.Row ⊕ Y)} {w : Widths} {limit : Nat}
    {i : Tables A B X (Shapes.Row ⊕ Y)} {rs : List Run} {s : St} {f} (h : Result.write m e w limit i rs s = some f) :
    f.stopTime = e.stopTime ∧ f.header = fun n => [.header n] := by
  unfold Result.write at h
  cases h1 : Content.load i with
  | none => rw [h1] at h; cases h
  | some F =>
    rw [h1] at h
    dsimp only at h
    cases h2 : Color.colorRuns m.noColor m.textColor m.writeColors (Result.paints rs) F with
    | none => rw [h2] at h; cases h
    | some F' =>
      rw [h2] at h
      dsimp only at h
      cases h3 : Content.flatTrips F' i.trips F'.trips ((List.range i.trips.length).map s.shape) with
      | none => rw [h3] at h; cases h
      | some rows => rw [h3] at h; cases h; exact ⟨rfl, rfl⟩

theorem stOf_stRow (r : StRow D S) : stOf (stRow r : DRow A B D S X Y) = some r := rfl

theorem filterMap_stRow : ∀ (l : List (StRow D S)), (l.map (stRow : StRow D S → DRow A B D S X Y)).filterMap stOf = l
  | [] => rfl
  | r :: l => by rw [List.map_cons, List.filterMap_cons_some (f := stOf) (stOf_stRow r), filterMap_stRow l]

/-- The files of the output. -/
structure Output (c : Cfg) (fs : FS (DRow A B D S X Y)) (exact : Prop) (i : Tables A B X (Shapes.Row ⊕ (StRow D S ⊕ Y))) (rs : List (MRun D))
    (src : List Shapes.Row) (rows : List (StRow D S)) (trips' : List (TripRow X)) (out : List Shapes.Row) (rows' : List (StRow D S)) : Prop where
  trips : HasOutput c fs .trips (.header .trips :: trips'.map .trip)
  shapes : HasOutput c fs .shapes (.header .shapes :: out.map shapeRow)
  times : HasOutput c fs .stopTimes (.header .stopTimes :: rows'.map stRow)
  lines : Lines ((rs.map (·.run)).flatMap (·.jobs)) exact i.trips trips' src out
  measured : Measured rs i.trips rows rows'

theorem trips_eq (rs : List (MRun D)) : (rs.flatMap fun r => tripsOf r.run) =
    ((rs.map (·.run)).flatMap (·.jobs)).flatMap fun j => j.flatMap (·.trips) := by
  rw [List.flatMap_assoc, List.flatMap_map]
  rfl

/-- The rows of stop_times.txt in the output. -/
theorem times_of {m : Matching} {e : Env A B X (Shapes.Row ⊕ (StRow D S ⊕ Y))} {w : Widths} {limit : Nat}
    {i : Tables A B X (Shapes.Row ⊕ (StRow D S ⊕ Y))} (v : Content.Valid i) (hne : ∀ t ∈ i.trips, t.id ≠ []) {s : St}
    {rs : List (MRun D)} {rows : List (StRow D S)} (hs : SmallSeqs rows) {ts0 ts : List (List (StopTime D))}
    (hr : readTimes i.trips rows = some ts0) (e2 : ts.length = ts0.length) (e3 : ∀ (k : Nat), (¬ ∃ ds, Given rs k ds) → ts[k]? = ts0[k]?)
    (e4 : ∀ (k : Nat) ds, Given rs k ds → ∀ l, ts0[k]? = some l → ∃ l', ts[k]? = some l' ∧ SetTo ds l l') {f}
    (f1 : write m e w limit i rs s ts = some f) (c : Cfg) (fs : FS (DRow A B D S X Y)) (hc : Paths c) (hz : NoTmpZip c fs)
    (hst : HasInput c fs .stopTimes (rows.map stRow)) (as : List Act) (ha : .wrErr ∉ as) (hdone : (Out.run c (Out.init fs (jobs f)) as).phase = .done) :
    ∃ rows', HasOutput c (Out.run c (Out.init fs (jobs f)) as).fs .stopTimes (.header .stopTimes :: rows'.map stRow) ∧
      Measured rs i.trips rows rows' := by
  obtain ⟨f3, f4⟩ := write_fields f1
  obtain ⟨new, g1, g2, g3⟩ := (Out.C42_shapes_stop_times f c hc fs hz as ha hdone).2 _ hst
  rw [f3] at g3
  rw [f4] at g1
  rw [List.length_map] at g2
  have hrow := measured_of (rs := rs) v.trips hne hs hr e2 e3 e4
  have key : ∀ (p : Nat) r, rows[p]? = some r → ∃ r', new[p]? = some (stRow r') ∧
      (stStep (lookup i.trips ts) (curAfter (lookup i.trips ts) (rows.take p)) r).2 = some r' := by
    intro p r hp
    have hlt : p < new.length := by rw [g2]; exact lt_of_some hp
    have := g3 p (stRow r) _ (by rw [List.getElem?_map, hp]; rfl) (List.getElem?_eq_getElem hlt)
    obtain ⟨r', q1, _⟩ := hrow p r hp
    refine ⟨r', ?_, q1⟩
    have e5 : (stEnv (lookup i.trips ts) e).stopTime ((rows.map stRow).take p) (stRow r) =
        (stStep (lookup i.trips ts) (curAfter (lookup i.trips ts) (rows.take p)) r).2.map stRow := by
      show Option.map stRow (stStep _ (curAfter _ (((rows.map stRow).take p).filterMap stOf)) r).2 = _
      rw [← List.map_take, filterMap_stRow]
    rw [e5, q1] at this
    rw [List.getElem?_eq_getElem hlt]
    exact this.symm
  obtain ⟨rows', rfl⟩ : ∃ rows' : List (StRow D S), new = rows'.map stRow := by
    apply exists_map
    intro x hx
    obtain ⟨p, hp⟩ := List.getElem?_of_mem hx
    have hlt : p < rows.length := by rw [← g2]; exact lt_of_some hp
    obtain ⟨r', q1, _⟩ := key p _ (List.getElem?_eq_getElem hlt)
    rw [hp] at q1
    exact ⟨r', Option.some.inj q1⟩
  rw [List.length_map] at g2
  have key' : ∀ (p : Nat) r r', rows[p]? = some r → rows'[p]? = some r' →
      (stStep (lookup i.trips ts) (curAfter (lookup i.trips ts) (rows.take p)) r).2 = some r' := by
    intro p r r' hp hp'
    obtain ⟨r2, q1, q2⟩ := key p r hp
    rw [List.getElem?_map, hp'] at q1
    cases q1
    exact q2
  refine ⟨rows', g1, g2, ?_, ?_, ?_⟩
  · intro p r r' hp hp'
    obtain ⟨r2, q1, q2, q3, q4, _⟩ := hrow p r hp
    rw [key' p r r' hp hp'] at q1
    cases q1
    exact ⟨q2, q3, q4⟩
  · intro p r r' hp hp' k t ds ht hid hg
    obtain ⟨r2, q1, _, _, _, q5, _⟩ := hrow p r hp
    rw [key' p r r' hp hp'] at q1
    cases q1
    exact q5 k t ds ht hid hg
  · intro p r r' hp hp' k t ht hid hg
    obtain ⟨r2, q1, _, _, _, _, q6⟩ := hrow p r hp
    rw [key' p r r' hp hp'] at q1
    cases q1
    exact q6 k t ht hid hg

theorem output_of {m : Matching} {e : Env A B X (Shapes.Row ⊕ (StRow D S ⊕ Y))} {w : Widths} {limit : Nat}
    {i : Tables A B X (Shapes.Row ⊕ (StRow D S ⊕ Y))} (v : Content.Valid i) (hne : ∀ t ∈ i.trips, t.id ≠ []) {exact : Prop} {s : St}
    {rs : List (MRun D)} {src : List Shapes.Row} {rows : List (StRow D S)} (hs : SmallSeqs rows) {a : Bool} {ts0 : List (List (StopTime D))}
    (hr : readTimes i.trips rows = some ts0) (hlens : LensOk rs i.trips rows) (s0 : St)
    (hd : Done limit a i.trips.length (rs.map (·.run)) s0)
    (hl : (((rs.map (·.run)).flatMap (·.jobs)).flatMap fun j => j.flatMap (·.trips)).Nodup)
    (hlt : ∀ j ∈ (rs.map (·.run)).flatMap (·.jobs), ∀ l ∈ j, ∀ k ∈ l.trips, k < i.trips.length)
    (hlines : ∀ e' : Env A B X (Shapes.Row ⊕ (StRow D S ⊕ Y)), e'.orderR = e.orderR → e'.orderT = e.orderT →
      ∃ f, Result.write m e' w limit i (rs.map (·.run)) s = some f ∧
      ∀ (c : Cfg) (fs : FS (DRow A B D S X Y)), Paths c → NoTmpZip c fs → Out.Input c fs .shapes (src.map shapeRow) →
      ∀ as : List Act, .wrErr ∉ as → (Out.run c (Out.init fs (jobs f)) as).phase = .done →
        ∃ trips' out, HasOutput c (Out.run c (Out.init fs (jobs f)) as).fs .trips (.header .trips :: trips'.map .trip) ∧
          HasOutput c (Out.run c (Out.init fs (jobs f)) as).fs .shapes (.header .shapes :: out.map shapeRow) ∧
          Lines ((rs.map (·.run)).flatMap (·.jobs)) exact i.trips trips' src out) :
    ∃ ts f, allTimes limit a i.trips.length rs s0 ts0 = some ts ∧ write m e w limit i rs s ts = some f ∧
      ∀ (c : Cfg) (fs : FS (DRow A B D S X Y)), Paths c → NoTmpZip c fs → Out.Input c fs .shapes (src.map shapeRow) →
      HasInput c fs .stopTimes (rows.map stRow) →
      ∀ as : List Act, .wrErr ∉ as → (Out.run c (Out.init fs (jobs f)) as).phase = .done →
        ∃ trips' out rows', Output c (Out.run c (Out.init fs (jobs f)) as).fs exact i rs src rows trips' out rows' := by
  obtain ⟨h1, h2, h3⟩ := readTimes_ok hr
  obtain ⟨ts, e1, e2, e3, e4⟩ := allTimes_ok limit a i.trips.length rs s0 ts0 hd (by rw [trips_eq]; exact hl) (by
    intro k ds hg
    obtain ⟨r, hr, ⟨j, hj, l, hl, hk⟩, _⟩ := id hg
    have hlt := hlt j (List.mem_flatMap.mpr ⟨r.run, List.mem_map.mpr ⟨r, hr, rfl⟩, hj⟩) l hl k hk
    obtain ⟨x, hx, _, hp⟩ := h3 k _ (List.getElem?_eq_getElem hlt)
    refine ⟨x, hx, ?_⟩
    rw [hlens k _ ds (List.getElem?_eq_getElem hlt) hg, hp.length_eq, List.length_map]
    exact Nat.le_refl _)
  obtain ⟨f, f1, f2⟩ := hlines (stEnv (lookup i.trips ts) e) rfl rfl
  refine ⟨ts, f, e1, f1, ?_⟩
  intro c fs hc hz hin hst as ha hdone
  obtain ⟨trips', out, o1, o2, o3⟩ := f2 c fs hc hz hin as ha hdone
  obtain ⟨rows', g1, g2⟩ := times_of v hne hs hr e2 e3 e4 f1 c fs hc hz hst as ha hdone
  exact ⟨trips', out, rows', o1, o2, g1, o3, g2⟩

/-- **C86.** For every feed without errors whose sequence numbers fit into 16 bits, any number of mode configurations, whatever lines and
distances were found for whatever trips, and under every schedule: no distance is read past the end of a vector and no missing trip is
used; and after every run of the writer that reached its end, the rows of stop_times.txt are those of the input, in the same order, except
for distances: each stop of a matched trip has the distance that was found for it, in the order of the sequence numbers, and other trips keep
their distances. -/
theorem C86_distances_partial (w : Widths) (hw : 0 < w.lat + w.lng + w.dist) (m : Matching) (e : Env A B X (Shapes.Row ⊕ (StRow D S ⊕ Y)))
    (he : EnvOk e) (i : Tables A B X (Shapes.Row ⊕ (StRow D S ⊕ Y))) (v : Content.Valid i) (hne : ∀ t ∈ i.trips, t.id ≠ [])
    (src : List Shapes.Row) (hi : RefsOk i.trips src) (rs : List (MRun D)) (hm : ColorsOk (rs.map (·.run)) i.trips.length)
    (hl : LeafsOk ((rs.map (·.run)).flatMap (·.jobs)) i.trips.length) (hn : NewIds ((rs.map (·.run)).flatMap (·.jobs)) i.trips)
    (hp : PtsOk w ((rs.map (·.run)).flatMap (·.jobs))) (limit : Nat) (atomicDec : Bool)
    (hd : Done limit atomicDec i.trips.length (rs.map (·.run)) (start i.trips src)) (rows : List (StRow D S)) (hs : SmallSeqs rows)
    (ts0 : List (List (StopTime D))) (hr : readTimes i.trips rows = some ts0) (hlens : LensOk rs i.trips rows) :
    ∃ ts f, allTimes limit atomicDec i.trips.length rs (start i.trips src) ts0 = some ts ∧
      write m e w limit i rs (allRuns limit atomicDec i.trips.length (rs.map (·.run)) (start i.trips src)) ts = some f ∧
      ∀ (c : Cfg) (fs : FS (DRow A B D S X Y)), Paths c → NoTmpZip c fs → Out.Input c fs .shapes (src.map shapeRow) →
      HasInput c fs .stopTimes (rows.map stRow) →
      ∀ as : List Act, .wrErr ∉ as → (Out.run c (Out.init fs (jobs f)) as).phase = .done →
        ∃ trips' out rows', Output c (Out.run c (Out.init fs (jobs f)) as).fs (atomicDec = true) i rs src rows trips' out rows' :=
  output_of v hne hs hr hlens _ hd hl.once hl.trips fun e' h1 h2 =>
    Result.C85_lines w hw m e' ⟨by rw [h1]; exact he.routes, by rw [h2]; exact he.trips⟩ i v src hi _ hm hl hn hp limit atomicDec hd

/-- **C86 (without `--drop-shapes`).** -/
theorem C86_distances_no_drop_partial (w : Widths) (hw : 0 < w.lat + w.lng + w.dist) (m : Matching)
    (e : Env A B X (Shapes.Row ⊕ (StRow D S ⊕ Y))) (he : EnvOk e) (i : Tables A B X (Shapes.Row ⊕ (StRow D S ⊕ Y))) (v : Content.Valid i)
    (hne : ∀ t ∈ i.trips, t.id ≠ []) (src : List Shapes.Row) (hi : RefsOk i.trips src) (rs : List (MRun D))
    (hm : ColorsOk (rs.map (·.run)) i.trips.length) (hp : PtsOk w ((rs.map (·.run)).flatMap (·.jobs))) (limit : Nat) (atomicDec : Bool)
    (hd : Done limit atomicDec i.trips.length (rs.map (·.run)) (start i.trips src))
    (hn : NoDrop limit atomicDec i.trips.length (rs.map (·.run)) (start i.trips src)) (rows : List (StRow D S)) (hs : SmallSeqs rows)
    (ts0 : List (List (StopTime D))) (hr : readTimes i.trips rows = some ts0) (hlens : LensOk rs i.trips rows) :
    ∃ ts f, allTimes limit atomicDec i.trips.length rs (start i.trips src) ts0 = some ts ∧
      write m e w limit i rs (allRuns limit atomicDec i.trips.length (rs.map (·.run)) (start i.trips src)) ts = some f ∧
      ∀ (c : Cfg) (fs : FS (DRow A B D S X Y)), Paths c → NoTmpZip c fs → Out.Input c fs .shapes (src.map shapeRow) →
      HasInput c fs .stopTimes (rows.map stRow) →
      ∀ as : List Act, .wrErr ∉ as → (Out.run c (Out.init fs (jobs f)) as).phase = .done →
        ∃ trips' out rows', Output c (Out.run c (Out.init fs (jobs f)) as).fs (atomicDec = true) i rs src rows trips' out rows' := by
  obtain ⟨h1, h2, _⟩ := Result.noDrop_ok (exact := atomicDec = true) (limit := limit) (a := atomicDec) (fun h => h) hi.named
    (rs.map (·.run)) [] _ (Result.mid_start (w := w) (src := src) i.trips) (by simp) (Result.ptsOk_run hp) hd hn
  rw [List.nil_append, Result.nodup_allLeafs] at h1
  exact output_of v hne hs hr hlens _ hd h1 (fun j hj l hl k hk => h2 l (Result.mem_allLeafs.mpr ⟨j, hj, hl⟩) k hk) fun e' h1 h2 =>
    Result.C85_lines_no_drop w hw m e' ⟨by rw [h1]; exact he.routes, by rw [h2]; exact he.trips⟩ i v src hi _ hm hp limit atomicDec hd hn

/-! ## Stops along the shape -/

/-- No two stops of a trip have the same sequence number, as the feed is refused otherwise. -/
theorem unique_of_read {trips : List (TripRow X)} {rows : List (StRow D S)} {ts0 : List (List (StopTime D))} (hr : readTimes trips rows = some ts0)
    {k : Nat} {t : TripRow X} (ht : trips[k]? = some t) : ((rows.filter fun r => r.trip = t.id).map (·.seq)).Nodup := by
  obtain ⟨_, _, h3⟩ := readTimes_ok hr
  obtain ⟨l, _, hs, hp⟩ := h3 k t ht
  have h1 := sorted_nodup hs rfl
  have h2 := (hp.map (·.seq)).nodup_iff.mp h1
  rw [List.map_map] at h2
  have h3 : ((rows.filter fun r => r.trip = t.id).map (·.seq)).Pairwise (getSeq · ≠ getSeq ·) := by
    rw [List.pairwise_map]
    rw [List.Nodup, List.pairwise_map] at h2
    exact h2
  exact h3.imp fun h e => h (by rw [e])

/-- The rows of the output have the trips and the sequence numbers of the input. -/
theorem measured_map {rs : List (MRun D)} {trips : List (TripRow X)} {rows rows' : List (StRow D S)} (h : Measured rs trips rows rows') :
    rows'.map (fun r => (r.trip, r.seq)) = rows.map (fun r => (r.trip, r.seq)) := by
  apply List.ext_getElem?
  intro p
  rw [List.getElem?_map, List.getElem?_map]
  by_cases hp : p < rows.length
  · have hp' : p < rows'.length := by rw [h.length]; exact hp
    obtain ⟨e1, e2, _⟩ := h.row p _ _ (List.getElem?_eq_getElem hp) (List.getElem?_eq_getElem hp')
    rw [List.getElem?_eq_getElem hp, List.getElem?_eq_getElem hp', Option.map_some, Option.map_some, e1, e2]
  · rw [List.getElem?_eq_none (by rw [h.length]; omega), List.getElem?_eq_none (by omega)]

theorem count_map {α β : Type} (f : α → β) (p : β → Bool) {l m : List α} (h : l.map f = m.map f) :
    (l.filter fun x => p (f x)).map f = (m.filter fun x => p (f x)).map f := by
  have e : ∀ l : List α, (l.filter fun x => p (f x)).map f = (l.map f).filter p := fun l => by rw [List.filter_map]; rfl
  rw [e, e, h]

theorem head_le {α : Type} {R : α → α → Prop} (hr : ∀ x, R x x) : ∀ {l : List α}, l.Pairwise R → ∀ {p q : Nat} {x y : α}, l[p]? = some x →
    l[q]? = some y → p ≤ q → R x y := by
  intro l h p q x y hp hq hle
  rcases Nat.lt_or_eq_of_le hle with hlt | rfl
  · obtain ⟨h1, e1⟩ := List.getElem?_eq_some_iff.mp hp
    obtain ⟨h2, e2⟩ := List.getElem?_eq_some_iff.mp hq
    rw [← e1, ← e2]
    exact List.pairwise_iff_getElem.mp h p q h1 h2 hlt
  · rw [hp] at hq; cases hq; exact hr _

/-- In a list without duplicates, all but the largest are smaller than it. -/
theorem count_max {l : List Int} (hn : l.Nodup) {x : Int} (hx : x ∈ l) (hmax : ∀ y ∈ l, y ≤ x) :
    (l.filter fun y => y < x).length + 1 = l.length := by
  induction l with
  | nil => cases hx
  | cons a l ih =>
    obtain ⟨ha, hn⟩ := List.nodup_cons.mp hn
    by_cases e : a = x
    · subst e
      have : (l.filter fun y => y < a) = l := by
        apply List.filter_eq_self.mpr
        intro y hy
        have h1 := hmax y (List.mem_cons_of_mem _ hy)
        have h2 : y ≠ a := fun e => ha (e ▸ hy)
        simp; omega
      rw [List.filter_cons_of_neg (by simp), this, List.length_cons]
    · have hx : x ∈ l := by
        rcases List.mem_cons.mp hx with h | h
        · exact absurd h.symm e
        · exact h
      have h1 := hmax a (List.mem_cons_self ..)
      rw [List.filter_cons_of_pos (by simp; omega), List.length_cons, List.length_cons,
        ih hn hx fun y hy => hmax y (List.mem_cons_of_mem _ hy)]

theorem count_lt {l : List Int} {x y : Int} (hx : x ∈ l) (h : x < y) : (l.filter fun z => z < x).length < (l.filter fun z => z < y).length := by
  induction l with
  | nil => cases hx
  | cons a l ih =>
    have hle : (l.filter fun z => z < x).length ≤ (l.filter fun z => z < y).length := by
      rw [← List.countP_eq_length_filter, ← List.countP_eq_length_filter]
      apply List.countP_mono_left
      intro z _ hz
      simp at hz ⊢
      omega
    rcases List.mem_cons.mp hx with rfl | hx
    · rw [List.filter_cons_of_neg (by simp), List.filter_cons_of_pos (by simp; exact h), List.length_cons]
      omega
    · have := ih hx
      by_cases h1 : a < x
      · rw [List.filter_cons_of_pos (by simp; exact h1), List.filter_cons_of_pos (by simp; omega), List.length_cons, List.length_cons]
        omega
      · rw [List.filter_cons_of_neg (by simp; omega)]
        by_cases h2 : a < y
        · rw [List.filter_cons_of_pos (by simp; exact h2), List.length_cons]; omega
        · rw [List.filter_cons_of_neg (by simp; omega)]; exact this

/-- **C86 (together with C46 and C85).** If the line and the distances of a matched trip were made from the hops that were found for it, then
in the output the stops of the trip go along its shape: distances in shapes.txt never decrease; later stops are at the same or later points
of the shape; the first stop is at its first point and the last stop at its last point; and each other stop is at the point where the hop
to it ends. -/
theorem C86_along_partial {E Pt : Type} [DecidableEq E] {geo : Line.Geo Pt} {pt : List Pt → Rat → Pt} (ok : Line.GeoOk geo pt) {g : Line.Edges E Pt}
    (gok : Line.GeomOk g) (hops : List (Line.LHop E Pt)) (hok : ∀ h ∈ hops, Line.HopOk g h) (hne : hops ≠ []) (shp : Line.Shp Pt)
    (hshp : Line.getGtfsShape geo g hops = some shp) (enc : Line.ShpPt Pt → Shapes.Point) (encD : Rat → List Nat)
    (henc : ∀ q, (enc q).dist = encD q.d) {rs : List (MRun (List Nat))} {exact : Prop} {trips trips' : List (TripRow X)}
    {rows rows' : List (StRow (List Nat) S)} {src out : List Shapes.Row} {ts0 : List (List (StopTime (List Nat)))}
    (hr : readTimes trips rows = some ts0) (hlens : LensOk rs trips rows)
    (hL : Lines ((rs.map (·.run)).flatMap (·.jobs)) exact trips trips' src out) (hM : Measured rs trips rows rows')
    (r : MRun (List Nat)) (hrs : r ∈ rs) (j : List Shapes.Workers.Leaf) (hj : j ∈ r.run.jobs) (l : Shapes.Workers.Leaf) (hl : l ∈ j)
    (hpts : l.pts = shp.pts.map enc) (k : Nat) (hk : k ∈ l.trips) (hds : r.dists k = shp.dists.map encD)
    (t : TripRow X) (ht : trips[k]? = some t) (t' : TripRow X) (ht' : t' ∈ trips') (hid : t'.id = t.id) :
    Along pt g encD (fun s x => ∃ q : Line.ShpPt Pt, s.pt = enc q ∧ q.p = x) hops (rowsOf out t'.shape) (rows'.filter fun q => q.trip = t.id) := by
  obtain ⟨shp', lines, c, _, e1, _, _, e4, e5, _, e7, e8, e9, e10, e11⟩ := Line.C46_shape_partial ok gok hops hok hne
  rw [hshp] at e1
  cases e1
  have hg : Given rs k (shp.dists.map encD) := ⟨r, hrs, ⟨j, hj, l, hl, hk⟩, hds⟩
  have hline : IsLine out t'.shape (shp.pts.map enc) := by
    rw [← hpts]
    exact hL.line k t l.pts ht ⟨j, List.mem_flatMap.mpr ⟨r.run, List.mem_map.mpr ⟨r, hrs, rfl⟩, hj⟩, l, hl, hk, rfl⟩ t' ht' hid
  have hget : ∀ (a : Nat) q, shp.pts[a]? = some q → ∃ s, (rowsOf out t'.shape)[a]? = some s ∧ s.pt = enc q := by
    intro a q hq
    rw [hline]
    refine ⟨⟨t'.shape, enc q, a + 1⟩, ?_, rfl⟩
    rw [List.getElem?_map, List.getElem?_zipIdx, List.getElem?_map, hq]
    simp
  have hdist : (rowsOf out t'.shape).map (·.pt.dist) = (shp.pts.map (·.d)).map encD := by
    rw [hline]
    apply List.ext_getElem?
    intro a
    simp only [List.getElem?_map, List.getElem?_zipIdx]
    cases shp.pts[a]? with
    | none => rfl
    | some q => simp [henc]
  have hlen : (shp.dists.map encD).length = (rows.filter fun r => r.trip = t.id).length := hlens k t _ ht hg
  rw [List.length_map] at hlen
  -- the sequence numbers of the stops
  have hm := measured_map hM
  have hseqs : (rows'.filter fun q => q.trip = t.id).map (·.seq) = (rows.filter fun q => q.trip = t.id).map (·.seq) := by
    have := count_map (fun r : StRow (List Nat) S => (r.trip, r.seq)) (fun x => decide (x.1 = t.id)) hm
    have := congrArg (List.map Prod.snd) this
    rw [List.map_map, List.map_map] at this
    exact this
  have hcount : ∀ x : Int, ((rows'.filter fun q => q.trip = t.id).filter fun q => q.seq < x).length =
      (((rows.filter fun q => q.trip = t.id).map (·.seq)).filter fun z => z < x).length := by
    intro x
    rw [← hseqs, List.filter_map, List.length_map]
    rfl
  have hplace : ∀ q ∈ rows'.filter fun q => q.trip = t.id,
      (shp.dists.map encD)[(((rows.filter fun q => q.trip = t.id).map (·.seq)).filter fun z => z < q.seq).length]? = some q.dist := by
    intro q hq
    obtain ⟨hq, htrip⟩ := List.mem_filter.mp hq
    have htrip : q.trip = t.id := by simpa using htrip
    obtain ⟨p, hp⟩ := List.getElem?_of_mem hq
    have hlt : p < rows.length := by rw [← hM.length]; exact lt_of_some hp
    obtain ⟨f1, f2, _⟩ := hM.row p _ _ (List.getElem?_eq_getElem hlt) hp
    have := hM.new p _ _ (List.getElem?_eq_getElem hlt) hp k t _ ht (by rw [← f1, htrip]) hg
    rw [← this]
    congr 1
    unfold placeOf
    rw [List.filter_map, List.length_map, List.filter_filter]
    congr 1
    apply List.filter_congr
    intro z _
    rw [← f1, ← f2, htrip]
    by_cases h1 : z.trip = t.id <;> by_cases h2 : z.seq < q.seq <;> simp [h1, h2]
  -- the point of each stop
  have hpoint : ∀ (p : Nat) d, shp.dists[p]? = some d → ∃ (a : Nat) (q : Line.ShpPt Pt), shp.pts[a]? = some q ∧ q.d = d := by
    intro p d hp
    cases p with
    | zero =>
      obtain ⟨q, hq, h0, _⟩ := e4
      rw [List.head?_eq_getElem?, hp] at e8
      exact ⟨0, q, by rw [← List.head?_eq_getElem?]; exact hq, by rw [h0]; exact (Option.some.inj e8).symm⟩
    | succ p =>
      have hlt : p < hops.reverse.length := by
        have := lt_of_some hp
        rw [List.length_reverse]; omega
      obtain ⟨a, q, h1, h2, _⟩ := e10 p _ d (List.getElem?_eq_getElem hlt) hp
      exact ⟨a, q, h1, h2⟩
  have hof : ∀ q ∈ rows'.filter fun q => q.trip = t.id, ∃ d,
      shp.dists[(((rows.filter fun q => q.trip = t.id).map (·.seq)).filter fun z => z < q.seq).length]? = some d ∧ encD d = q.dist := by
    intro q hq
    have := hplace q hq
    rw [List.getElem?_map] at this
    exact Option.map_eq_some_iff.mp this
  have hmemseq : ∀ q ∈ rows'.filter fun q => q.trip = t.id, q.seq ∈ (rows.filter fun q => q.trip = t.id).map (·.seq) := by
    intro q hq
    rw [← hseqs]
    exact List.mem_map.mpr ⟨q, hq, rfl⟩
  have hzero : ∀ q ∈ rows'.filter fun q => q.trip = t.id, (∀ q' ∈ rows'.filter fun q => q.trip = t.id, q.seq ≤ q'.seq) →
      (((rows.filter fun q => q.trip = t.id).map (·.seq)).filter fun z => z < q.seq).length = 0 := by
    intro q _ hmin
    rw [List.length_eq_zero_iff, List.filter_eq_nil_iff, ← hseqs]
    intro z hz
    obtain ⟨q', hq', rfl⟩ := List.mem_map.mp hz
    have := hmin q' hq'
    simp; omega
  constructor
  case grow => exact ⟨shp.pts.map (·.d), e5, hdist⟩
  case order =>
    intro q hq q' hq' hlt
    obtain ⟨d, hd, hqd⟩ := hof q hq
    obtain ⟨d', hd', hqd'⟩ := hof q' hq'
    have hc := count_lt (hmemseq q hq) hlt
    have hdd : d ≤ d' := head_le (R := (· ≤ ·)) (fun x => Rat.le_refl) e9 hd hd' (Nat.le_of_lt hc)
    obtain ⟨a, x, ha, hxa⟩ := hpoint _ d hd
    obtain ⟨b, y, hb, hyb⟩ := hpoint _ d' hd'
    obtain ⟨s, hs, hsx⟩ := hget a x ha
    obtain ⟨s', hs', hsy⟩ := hget b y hb
    have h1 : s.pt.dist = q.dist := by rw [hsx, henc, hxa, hqd]
    have h2 : s'.pt.dist = q'.dist := by rw [hsy, henc, hyb, hqd']
    by_cases hab : a ≤ b
    · exact ⟨a, b, s, s', hab, hs, hs', h1, h2⟩
    · have : d' ≤ d := by
        have := head_le (R := (· ≤ ·)) (fun x => Rat.le_refl) e5 (p := b) (q := a) (x := y.d) (y := x.d) (by rw [List.getElem?_map, hb]; rfl)
          (by rw [List.getElem?_map, ha]; rfl) (by omega)
        rwa [hxa, hyb] at this
      have : d = d' := Rat.le_antisymm hdd this
      exact ⟨b, b, s', s', Nat.le_refl _, hs', hs', by rw [h2, ← hqd', ← this, hqd], h2⟩
  case first =>
    intro q hq hmin
    obtain ⟨d, hd, hqd⟩ := hof q hq
    rw [hzero q hq hmin, ← List.head?_eq_getElem?, e8] at hd
    cases hd
    obtain ⟨x, hx, hx0, _⟩ := e4
    obtain ⟨s, hs, hsx⟩ := hget 0 x (by rw [← List.head?_eq_getElem?]; exact hx)
    exact ⟨s, by rw [List.head?_eq_getElem?]; exact hs, by rw [hsx, henc, hx0, hqd]⟩
  case start =>
    intro q hq hmin h hh
    obtain ⟨d, hd, hqd⟩ := hof q hq
    rw [hzero q hq hmin, ← List.head?_eq_getElem?, e8] at hd
    cases hd
    obtain ⟨x, hx, hx0, h', hh', hat⟩ := e4
    rw [hh] at hh'
    cases hh'
    obtain ⟨s, hs, hsx⟩ := hget 0 x (by rw [← List.head?_eq_getElem?]; exact hx)
    exact ⟨s, List.mem_of_getElem? hs, by rw [hsx, henc, hx0, hqd], x.p, ⟨x, hsx, rfl⟩, hat⟩
  case last =>
    intro q hq hmax
    obtain ⟨d, hd, hqd⟩ := hof q hq
    have h1 := count_max (unique_of_read hr ht) (hmemseq q hq) (by
      rw [← hseqs]
      intro z hz
      obtain ⟨q', hq', rfl⟩ := List.mem_map.mp hz
      exact hmax q' hq')
    rw [List.length_map] at h1
    have h2 : shp.dists.getLast? = some d := by
      rw [List.getLast?_eq_getElem?, ← hd]
      congr 1
      omega
    rw [e11] at h2
    obtain ⟨x, hx, hxd⟩ := Option.map_eq_some_iff.mp h2
    rw [List.getLast?_eq_getElem?] at hx
    obtain ⟨s, hs, hsx⟩ := hget _ x hx
    have hlen2 : (rowsOf out t'.shape).length = shp.pts.length := by rw [hline]; simp
    exact ⟨s, by rw [List.getLast?_eq_getElem?, hlen2]; exact hs, by rw [hsx, henc, hxd, hqd]⟩
  case place =>
    intro q hq p h hp hh
    obtain ⟨d, hd, hqd⟩ := hof q hq
    rw [← hcount, hp] at hd
    obtain ⟨a, x, hx, hxd, hat⟩ := e10 p h d hh hd
    obtain ⟨s, hs, hsx⟩ := hget a x hx
    exact ⟨s, List.mem_of_getElem? hs, by rw [hsx, henc, hxd, hqd], x.p, ⟨x, hsx, rfl⟩, hat⟩

/-! ## Large sequence numbers -/

/-- One trip with two stops; `stop_sequence` may be any number. -/
def exLargeTrips : List (TripRow Unit) := [⟨[65], [1], [], ()⟩]

def exLarge : List (StRow Nat Unit) := [⟨[65], 1, 70, ()⟩, ⟨[65], 65536, 71, ()⟩]

/-- The distances 0 and 9 were found for its stops. -/
def exLargeRuns : List (MRun Nat) := [⟨⟨[[⟨3, [0], [Shapes.Workers.pt 1]⟩]], 1, List.replicate 6 0, fun _ => false, []⟩, fun _ => [0, 9]⟩]

/-- **C86 (negation for large sequence numbers).** `getSeq` drops all but 16 bits. The stop with the sequence number 65536 is taken for the
first stop of the trip (number 0), and its distance is not written: in the output the stop before it has the distance of the end, and it
keeps the old one. -/
theorem C86_negation_seq : ∃ ts0 ts rows', readTimes exLargeTrips exLarge = some ts0 ∧ LensOk exLargeRuns exLargeTrips exLarge ∧
    Done 100 true 1 (exLargeRuns.map (·.run)) (start exLargeTrips []) ∧ allTimes 100 true 1 exLargeRuns (start exLargeTrips []) ts0 = some ts ∧
    Out.writeStopTimes (lookup exLargeTrips ts) exLarge = some rows' ∧ rows'.map (·.dist) = [9, 71] ∧
    ¬ Measured exLargeRuns exLargeTrips exLarge rows' := by
  refine ⟨[[⟨0, 71⟩, ⟨1, 70⟩]], [[⟨0, 0⟩, ⟨1, 9⟩]], [⟨[65], 1, 9, ()⟩, ⟨[65], 65536, 71, ()⟩], by decide +kernel, ?_, ⟨⟨by decide, by decide, ?_⟩, trivial⟩,
    by decide +kernel, by decide +kernel, rfl, ?_⟩
  · intro k t ds ht ⟨r, hr, ⟨j, hj, l, hl, hk⟩, hds⟩
    subst hds
    revert r
    have : ∀ r ∈ exLargeRuns, ∀ j ∈ r.run.jobs, ∀ l ∈ j, ∀ k ∈ l.trips, ∀ t ∈ exLargeTrips[k]?,
      (r.dists k).length = (exLarge.filter fun r => r.trip = t.id).length := by decide
    intro r hr hj
    exact this r hr j hj l hl k hk t ht
  · intro w hw
    match w, hw with
    | 0, _ => decide +kernel
  · intro h
    have := h.new 0 _ _ rfl rfl 0 _ [0, 9] rfl rfl ⟨_, List.mem_cons_self .., ⟨_, List.mem_cons_self .., _, List.mem_cons_self .., by decide⟩, rfl⟩
    exact absurd this (by decide)

/-- **C86 (negation for large sequence numbers).** A feed in which the sequence numbers of each trip are different is refused. -/
theorem C86_negation_collision : ∃ rows : List (StRow Nat Unit), (rows.map (·.seq)).Nodup ∧ (∀ r ∈ rows, r.trip = [65]) ∧
    readTimes exLargeTrips rows = none :=
  ⟨[⟨[65], 1, 0, ()⟩, ⟨[65], 65537, 0, ()⟩], by decide, by decide, by decide +kernel⟩

/-- **C86 (limit).** If there are fewer distances than stops, then memory after the end of the vector is read (the `assert` in `setShape` is not
compiled into a release); if there are more, the rest is ignored. That there are as many is C46. -/
theorem C86_limit_short : ∀ (ds : List D) (l : List (StopTime D)), setDists ds l = none ↔ ds.length < l.length
  | ds, [] => by rw [setDists]; simp
  | [], _ :: _ => by rw [setDists]; simp
  | d :: ds, s :: l => by
    rw [setDists, Option.map_eq_none_iff, C86_limit_short ds l]
    simp

/-! ## Example -/

/-- The tables of the example of C85: one route with four trips. -/
def exTables : Tables Unit Unit Unit (Shapes.Row ⊕ (StRow (List Nat) Unit ⊕ Unit)) where
  routes := [⟨[1], 0, 0, ()⟩]
  trips := Result.exTables.trips
  fares := []
  rules := []
  freqs := []

/-- The rows of a trip are not together, nor in order. -/
def exRows : List (StRow (List Nat) Unit) :=
  [⟨[65], 5, [99], ()⟩, ⟨[67], 1, [7], ()⟩, ⟨[65], 1, [99], ()⟩, ⟨[66], 1, [99], ()⟩, ⟨[66], 2, [99], ()⟩, ⟨[68], 1, [99], ()⟩, ⟨[68], 2, [99], ()⟩,
    ⟨[65], 3, [99], ()⟩, ⟨[67], 2, [8], ()⟩]

def exEncD (x : Rat) : List Nat := [x.floor.toNat]

def exEnc (q : Line.ShpPt Rat) : Shapes.Point := ⟨exEncD q.p, exEncD q.p, exEncD q.d⟩

def exShp : Line.Shp Rat := ⟨[⟨5, 0, 0⟩, ⟨10, 5, 1⟩, ⟨10, 5, 2⟩, ⟨18, 13, 3⟩, ⟨30, 25, 4⟩, ⟨30, 25, 5⟩, ⟨31, 26, 6⟩, ⟨31, 26, 7⟩, ⟨32, 27, 8⟩],
  [0, 26, 27], some 7⟩

/-- The line of the first trip is that of the example of C46. -/
def exRun1 : MRun (List Nat) :=
  ⟨⟨[[⟨3, [0], exShp.pts.map exEnc⟩], [⟨3, [1], [Shapes.Workers.pt 3]⟩]], 2, [0, 0, 0, 1, 1, 1, 0, 1, 0, 1, 0, 1, 0, 1], fun _ => false,
    [[(0, [0])], [(0, [1])]]⟩, fun k => if k = 0 then exShp.dists.map exEncD else [[0], [4]]⟩

def exRun2 : MRun (List Nat) := ⟨⟨[[⟨3, [3], [Shapes.Workers.pt 4]⟩]], 1, List.replicate 6 0, fun _ => false, [[(0, [3])]]⟩, fun _ => [[0], [9]]⟩

def exRuns : List (MRun (List Nat)) := [exRun1, exRun2]

def exEnv : Env Unit Unit Unit (Shapes.Row ⊕ (StRow (List Nat) Unit ⊕ Unit)) where
  keepShape := fun _ _ => true
  newShapes := []
  stopTime := fun _ r => some r
  hasPublisher := false
  feedInfo := []
  orderR := id
  orderT := List.reverse

theorem exDone (a : Bool) : Done 100 a 4 (exRuns.map (·.run)) (start exTables.trips Result.exSrc) := by
  refine ⟨⟨by decide, by decide, ?_⟩, ⟨by decide, by decide, ?_⟩, trivial⟩
  · intro w hw
    match w, hw, a with
    | 0, _, true => decide +kernel
    | 1, _, true => decide +kernel
    | 0, _, false => decide +kernel
    | 1, _, false => decide +kernel
  · intro w hw
    match w, hw, a with
    | 0, _, true => decide +kernel
    | 0, _, false => decide +kernel

theorem exLens : LensOk exRuns exTables.trips exRows := by
  intro k t ds ht ⟨r, hr, ⟨j, hj, l, hl, hk⟩, hds⟩
  subst hds
  have : ∀ r ∈ exRuns, ∀ j ∈ r.run.jobs, ∀ l ∈ j, ∀ k ∈ l.trips, ∀ t ∈ exTables.trips[k]?,
    (r.dists k).length = (exRows.filter fun r => r.trip = t.id).length := by decide +kernel
  exact this r hr j hj l hl k hk t ht

theorem exValid : Content.Valid exTables where
  routes := by decide
  named := by decide
  trips := by decide
  tripRoute := by decide
  fares := by decide
  ruleFare := by decide
  ruleRoute := by decide
  freqTrip := by decide

def exRead : List (List (StopTime (List Nat))) :=
  [[⟨1, [99]⟩, ⟨3, [99]⟩, ⟨5, [99]⟩], [⟨1, [99]⟩, ⟨2, [99]⟩], [⟨1, [7]⟩, ⟨2, [8]⟩], [⟨1, [99]⟩, ⟨2, [99]⟩]]

/-- The hypotheses of `C86_distances_partial` hold for two mode configurations, the first with two workers. -/
example : (∀ a, Done 100 a 4 (exRuns.map (·.run)) (start exTables.trips Result.exSrc)) ∧ Content.Valid exTables ∧
    (∀ t ∈ exTables.trips, t.id ≠ []) ∧ ColorsOk (exRuns.map (·.run)) 4 ∧ RefsOk exTables.trips Result.exSrc ∧
    NewIds ((exRuns.map (·.run)).flatMap (·.jobs)) exTables.trips ∧ LeafsOk ((exRuns.map (·.run)).flatMap (·.jobs)) 4 ∧
    PtsOk Shapes.w1 ((exRuns.map (·.run)).flatMap (·.jobs)) ∧ EnvOk exEnv ∧ SmallSeqs exRows ∧
    readTimes exTables.trips exRows = some exRead ∧ LensOk exRuns exTables.trips exRows :=
  ⟨exDone, exValid, by decide, by unfold ColorsOk; decide, ⟨by decide, by decide⟩, Result.exNew _, ⟨by decide, by decide⟩,
    by unfold PtsOk; decide +kernel, ⟨fun _ => .refl _, fun l => List.reverse_perm l⟩, by unfold SmallSeqs; decide, by decide +kernel, exLens⟩

/-- The rows that are written. -/
example : ((allTimes 100 true 4 exRuns (start exTables.trips Result.exSrc) exRead).bind fun ts =>
      Out.writeStopTimes (lookup exTables.trips ts) exRows) =
    some [⟨[65], 5, [27], ()⟩, ⟨[67], 1, [7], ()⟩, ⟨[65], 1, [0], ()⟩, ⟨[66], 1, [0], ()⟩, ⟨[66], 2, [4], ()⟩, ⟨[68], 1, [0], ()⟩,
      ⟨[68], 2, [9], ()⟩, ⟨[65], 3, [26], ()⟩, ⟨[67], 2, [8], ()⟩] := by decide +kernel

/-- The hypotheses of `C86_along_partial` about the line of the first trip hold. -/
example : Line.GeoOk Line.exGeo Line.exPt ∧ Line.GeomOk Line.exG ∧ (∀ h ∈ [Line.exHop2, Line.exHop1], Line.HopOk Line.exG h) ∧
    Line.getGtfsShape Line.exGeo Line.exG [Line.exHop2, Line.exHop1] = some exShp ∧ (∀ q, (exEnc q).dist = exEncD q.d) ∧ exRun1 ∈ exRuns ∧
    (∃ j ∈ exRun1.run.jobs, ∃ l ∈ j, l.pts = exShp.pts.map exEnc ∧ 0 ∈ l.trips) ∧ exRun1.dists 0 = exShp.dists.map exEncD :=
  ⟨Line.exGeo_ok, Line.exG_ok, Line.exHops_ok, by decide +kernel, fun _ => rfl, List.mem_cons_self ..,
    ⟨_, List.mem_cons_self .., _, List.mem_cons_self .., rfl, by decide⟩, rfl⟩

/-- A run without `--drop-shapes` for the other theorem: only the last trip has no shape. -/
example : Done 100 false 4 [exRun2.run] (start exTables.trips Result.exSrc) ∧ NoDrop 100 false 4 [exRun2.run] (start exTables.trips Result.exSrc) ∧
    LensOk [exRun2] exTables.trips exRows := by
  refine ⟨⟨⟨by decide, by decide, ?_⟩, trivial⟩, ⟨by decide, ⟨by decide, by decide⟩, trivial⟩, ?_⟩
  · intro w hw
    match w, hw with
    | 0, _ => decide +kernel
  · intro k t ds ht ⟨r, hr, hj, hds⟩
    exact exLens k t ds ht ⟨r, List.mem_cons_of_mem _ hr, hj, hds⟩

end Verif.Dists
