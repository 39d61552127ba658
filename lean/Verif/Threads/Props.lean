import Verif.Threads.Lemmas

/-!
# The result does not depend on threads and schedules (property C99)
-/

namespace Verif.Threads
open Verif.Shapes (Widths)
open Verif.Trie (needsShape)
open Verif.Line (Geo GeoOk ShpPt)
open Verif.Content (Tables TripRow Matching EnvOk)
open Verif.Result (Done allRuns start shapeRow)
open Verif.Dists (MRun DRow SmallSeqs allTimes readTimes write stRow)
open Verif.Out (Cfg FS Act Paths NoTmpZip HasInput HasOutput StRow StopTime)
open Verif.Build (Mode ModeOk mruns Spread EncOk Apart StopsOk Follows)

variable {E C Pt D S P A X S' Y A' B' : Type}

/-- The rows of trips.txt, shapes.txt and stop_times.txt in the output. -/
structure Files (c : Cfg) (fs : FS (DRow A' B' (List Nat) S' X Y)) (trips : List (TripRow X)) (out : List Shapes.Row) (rows : List (StRow (List Nat) S')) :
    Prop where
  trips : HasOutput c fs .trips (.header .trips :: trips.map .trip)
  shapes : HasOutput c fs .shapes (.header .shapes :: out.map shapeRow)
  times : HasOutput c fs .stopTimes (.header .stopTimes :: rows.map stRow)

theorem known {i : List (TripRow X)} {rows : List (StRow (List Nat) S')} {ts0 : List (List (StopTime (List Nat)))} (hr : readTimes i rows = some ts0) :
    ∀ r ∈ rows, ∃ (k : Nat) (t : TripRow X), i[k]? = some t ∧ t.id = r.trip := by
  intro r hm
  obtain ⟨k, hk⟩ := (Dists.readTimes_ok hr).1 r hm
  have := Content.pos_some hk
  rw [List.getElem?_map] at this
  obtain ⟨t, h1, h2⟩ := Option.map_eq_some_iff.mp this
  exact ⟨k, t, h1, h2⟩

theorem needs_iff [DecidableEq E] {geo : Geo Pt} {pt : List Pt → Rat → Pt} (gok : GeoOk geo pt) {enc : ShpPt Pt → Shapes.Point} {encD : Rat → List Nat}
    {ms : List (Mode E C Pt D S P A)} {rs : List (MRun (List Nat))} {n : Nat} (ok : ∀ m ∈ ms, ModeOk m n) (h : mruns geo enc encD n ms = some rs) (k : Nat)
    (hk : k < n) : (∃ m ∈ ms, needsShape m.c k) ↔ ∃ j ∈ (rs.map (·.run)).flatMap (·.jobs), ∃ l ∈ j, k ∈ l.trips := by
  have R := Build.runs_ok h
  constructor
  · rintro ⟨m, hm, e2⟩
    obtain ⟨its, hi, hr⟩ := R.to m hm
    obtain ⟨f, hf, it, hit, hk⟩ := (Build.trips_iff gok (ok m hm) hi).mpr ⟨hk, e2⟩
    obtain ⟨j, hj, hl⟩ := (Build.leaf_iff (enc := enc) (encD := encD) (m := m)).mpr ⟨f, hf, it, hit, rfl⟩
    exact ⟨j, List.mem_flatMap.mpr ⟨_, List.mem_map.mpr ⟨_, hr, rfl⟩, hj⟩, _, hl, hk⟩
  · rintro ⟨j, hj, l, hl, hk⟩
    obtain ⟨r', hr', hj⟩ := List.mem_flatMap.mp hj
    obtain ⟨r, hr, rfl⟩ := List.mem_map.mp hr'
    obtain ⟨m, hm, its, hi, rfl⟩ := R.of r hr
    obtain ⟨f, hf, it, hit, rfl⟩ := Build.leaf_iff.mp ⟨j, hj, hl⟩
    exact ⟨m, hm, ((Build.trips_iff gok (ok m hm) hi).mp ⟨f, hf, it, hit, hk⟩).2⟩

/-- **C99 (with `--drop-shapes`).** Two runs for the same feed, map and configuration, with any numbers of threads, any schedules, any distribution of
the work and any runs of the writer that end without a write error: trips have the same lines, share shapes in the same way, and stop_times.txt is the
same. -/
theorem C99_drop_partial [DecidableEq E] {geo : Geo Pt} {pt : List Pt → Rat → Pt} (gok : GeoOk geo pt) (w : Widths) (hw : 0 < w.lat + w.lng + w.dist)
    (mt : Matching) (e : Content.Env A' B' X (Shapes.Row ⊕ (StRow (List Nat) S' ⊕ Y))) (he : EnvOk e)
    (i : Tables A' B' X (Shapes.Row ⊕ (StRow (List Nat) S' ⊕ Y))) (v : Content.Valid i) (hne : ∀ t ∈ i.trips, t.id ≠ []) (src : List Shapes.Row)
    (hi : Result.RefsOk i.trips src) (enc : ShpPt Pt → Shapes.Point) (encD : Rat → List Nat) (ms ms' : List (Mode E C Pt D S P A)) (hl : LikeAll ms ms')
    (ok : ∀ m ∈ ms, ModeOk m i.trips.length) (hret : ∀ m ∈ ms', Returns m i.trips.length) (henc : EncOk geo enc encD w i.trips.length ms)
    (hsp : Spread geo mt.noColor i.trips.length ms) (hsp' : Spread geo mt.noColor i.trips.length ms')
    (hap : Apart ms) (hnew : ∀ m ∈ ms, ∀ (k : Nat) t, i.trips[k]? = some t → needsShape m.c k → ∀ ty x, t.shape ≠ Shapes.shapeId ty x)
    (rows : List (StRow (List Nat) S')) (hs : SmallSeqs rows) (ts0 : List (List (StopTime (List Nat)))) (hr : readTimes i.trips rows = some ts0)
    (hst : StopsOk ms i.trips rows) (limit : Nat) (a a' : Bool) :
    ∃ rs rs', mruns geo enc encD i.trips.length ms = some rs ∧ mruns geo enc encD i.trips.length ms' = some rs' ∧
      (Done limit a i.trips.length (rs.map (·.run)) (start i.trips src) → Done limit a' i.trips.length (rs'.map (·.run)) (start i.trips src) →
      ∃ ts f ts' f', allTimes limit a i.trips.length rs (start i.trips src) ts0 = some ts ∧
      write mt e w limit i rs (allRuns limit a i.trips.length (rs.map (·.run)) (start i.trips src)) ts = some f ∧
      allTimes limit a' i.trips.length rs' (start i.trips src) ts0 = some ts' ∧
      write mt e w limit i rs' (allRuns limit a' i.trips.length (rs'.map (·.run)) (start i.trips src)) ts' = some f' ∧
      ∀ (c c' : Cfg) (fs fs' : FS (DRow A' B' (List Nat) S' X Y)), Paths c → NoTmpZip c fs → Out.Input c fs .shapes (src.map shapeRow) →
      HasInput c fs .stopTimes (rows.map stRow) → Paths c' → NoTmpZip c' fs' → Out.Input c' fs' .shapes (src.map shapeRow) →
      HasInput c' fs' .stopTimes (rows.map stRow) →
      ∀ as as' : List Act, .wrErr ∉ as → (Out.run c (Out.init fs (Out.jobs f)) as).phase = .done →
        .wrErr ∉ as' → (Out.run c' (Out.init fs' (Out.jobs f')) as').phase = .done →
        ∃ trips1 out1 trips2 out2 rows', Files c (Out.run c (Out.init fs (Out.jobs f)) as).fs trips1 out1 rows' ∧
          Files c' (Out.run c' (Out.init fs' (Out.jobs f')) as').fs trips2 out2 rows' ∧ Agree ms i.trips trips1 trips2 out1 out2) := by
  have ok' := ok_all hl ok hret
  have hnew' : ∀ m ∈ ms', ∀ (k : Nat) t, i.trips[k]? = some t → needsShape m.c k → ∀ ty x, t.shape ≠ Shapes.shapeId ty x := by
    intro m hm
    obtain ⟨y, hy, e⟩ := hl.mem m hm
    rw [e.c]
    exact hnew y hy
  obtain ⟨rs, hrs, h⟩ := Build.C87_drop_partial gok w hw mt e he i v hne src hi enc encD ms ok henc hsp hap hnew rows hs ts0 hr hst limit a
  obtain ⟨rs', hrs', h'⟩ := Build.C87_drop_partial gok w hw mt e he i v hne src hi enc encD ms' ok' (enc_like hl ok ok' henc) hsp' (apart_like hl hap) hnew'
    rows hs ts0 hr (stops_like hl hst) limit a'
  refine ⟨rs, rs', hrs, hrs', fun hd hd' => ?_⟩
  obtain ⟨ts, f, h1, h2, h3⟩ := h hd
  obtain ⟨ts', f', h1', h2', h3'⟩ := h' hd'
  refine ⟨ts, f, ts', f', h1, h2, h1', h2', fun c c' fs fs' p1 p2 p3 p4 q1 q2 q3 q4 as as' p5 p6 q5 q6 => ?_⟩
  obtain ⟨trips1, out1, rows1, O, _⟩ := h3 c fs p1 p2 p3 p4 as p5 p6
  obtain ⟨trips2, out2, rows2, O', _⟩ := h3' c' fs' q1 q2 q3 q4 as' q5 q6
  have hc := mruns_like hl ok ok' rs rs' hrs hrs'
  have er := rows_eq hc (known hr) O.measured O'.measured
  subst er
  have hO := O'.lines
  rw [jobs_core, hc, ← jobs_core] at hO
  refine ⟨trips1, out1, trips2, out2, rows1, ⟨O.trips, O.shapes, O.times⟩, ⟨O'.trips, O'.shapes, O'.times⟩,
    agree_of (needs_iff gok ok hrs) O.lines hO⟩

/-- **C99 (without `--drop-shapes`).** -/
theorem C99_no_drop_partial [DecidableEq E] {geo : Geo Pt} {pt : List Pt → Rat → Pt} (gok : GeoOk geo pt) (w : Widths)
    (hw : 0 < w.lat + w.lng + w.dist) (mt : Matching) (e : Content.Env A' B' X (Shapes.Row ⊕ (StRow (List Nat) S' ⊕ Y))) (he : EnvOk e)
    (i : Tables A' B' X (Shapes.Row ⊕ (StRow (List Nat) S' ⊕ Y))) (v : Content.Valid i) (hne : ∀ t ∈ i.trips, t.id ≠ []) (src : List Shapes.Row)
    (hi : Result.RefsOk i.trips src) (enc : ShpPt Pt → Shapes.Point) (encD : Rat → List Nat) (ms ms' : List (Mode E C Pt D S P A)) (hl : LikeAll ms ms')
    (ok : ∀ m ∈ ms, ModeOk m i.trips.length) (hret : ∀ m ∈ ms', Returns m i.trips.length) (henc : EncOk geo enc encD w i.trips.length ms)
    (hsp : Spread geo mt.noColor i.trips.length ms) (hsp' : Spread geo mt.noColor i.trips.length ms') (hdrop : ∀ m ∈ ms, m.c.dropShapes = false)
    (rows : List (StRow (List Nat) S')) (hs : SmallSeqs rows) (ts0 : List (List (StopTime (List Nat)))) (hr : readTimes i.trips rows = some ts0)
    (hst : StopsOk ms i.trips rows) (limit : Nat) (a a' : Bool) :
    ∃ rs rs', mruns geo enc encD i.trips.length ms = some rs ∧ mruns geo enc encD i.trips.length ms' = some rs' ∧
      (Done limit a i.trips.length (rs.map (·.run)) (start i.trips src) → Done limit a' i.trips.length (rs'.map (·.run)) (start i.trips src) →
      Follows limit a i.trips.length ms rs (start i.trips src) → Follows limit a' i.trips.length ms' rs' (start i.trips src) →
      ∃ ts f ts' f', allTimes limit a i.trips.length rs (start i.trips src) ts0 = some ts ∧
      write mt e w limit i rs (allRuns limit a i.trips.length (rs.map (·.run)) (start i.trips src)) ts = some f ∧
      allTimes limit a' i.trips.length rs' (start i.trips src) ts0 = some ts' ∧
      write mt e w limit i rs' (allRuns limit a' i.trips.length (rs'.map (·.run)) (start i.trips src)) ts' = some f' ∧
      ∀ (c c' : Cfg) (fs fs' : FS (DRow A' B' (List Nat) S' X Y)), Paths c → NoTmpZip c fs → Out.Input c fs .shapes (src.map shapeRow) →
      HasInput c fs .stopTimes (rows.map stRow) → Paths c' → NoTmpZip c' fs' → Out.Input c' fs' .shapes (src.map shapeRow) →
      HasInput c' fs' .stopTimes (rows.map stRow) →
      ∀ as as' : List Act, .wrErr ∉ as → (Out.run c (Out.init fs (Out.jobs f)) as).phase = .done →
        .wrErr ∉ as' → (Out.run c' (Out.init fs' (Out.jobs f')) as').phase = .done →
        ∃ trips1 out1 trips2 out2 rows', Files c (Out.run c (Out.init fs (Out.jobs f)) as).fs trips1 out1 rows' ∧
          Files c' (Out.run c' (Out.init fs' (Out.jobs f')) as').fs trips2 out2 rows' ∧ Agree ms i.trips trips1 trips2 out1 out2) := by
  have ok' := ok_all hl ok hret
  have hdrop' : ∀ m ∈ ms', m.c.dropShapes = false := by
    intro m hm
    obtain ⟨y, hy, e⟩ := hl.mem m hm
    rw [e.c]
    exact hdrop y hy
  obtain ⟨rs, hrs, h⟩ := Build.C87_no_drop_partial gok w hw mt e he i v hne src hi enc encD ms ok henc hsp hdrop rows hs ts0 hr hst limit a
  obtain ⟨rs', hrs', h'⟩ := Build.C87_no_drop_partial gok w hw mt e he i v hne src hi enc encD ms' ok' (enc_like hl ok ok' henc) hsp' hdrop'
    rows hs ts0 hr (stops_like hl hst) limit a'
  refine ⟨rs, rs', hrs, hrs', fun hd hd' hf hf' => ?_⟩
  obtain ⟨ts, f, h1, h2, h3⟩ := h hd hf
  obtain ⟨ts', f', h1', h2', h3'⟩ := h' hd' hf'
  refine ⟨ts, f, ts', f', h1, h2, h1', h2', fun c c' fs fs' p1 p2 p3 p4 q1 q2 q3 q4 as as' p5 p6 q5 q6 => ?_⟩
  obtain ⟨trips1, out1, rows1, O, _⟩ := h3 c fs p1 p2 p3 p4 as p5 p6
  obtain ⟨trips2, out2, rows2, O', _⟩ := h3' c' fs' q1 q2 q3 q4 as' q5 q6
  have hc := mruns_like hl ok ok' rs rs' hrs hrs'
  have er := rows_eq hc (known hr) O.measured O'.measured
  subst er
  have hO := O'.lines
  rw [jobs_core, hc, ← jobs_core] at hO
  refine ⟨trips1, out1, trips2, out2, rows1, ⟨O.trips, O.shapes, O.times⟩, ⟨O'.trips, O'.shapes, O'.times⟩,
    agree_of (needs_iff gok ok hrs) O.lines hO⟩

end Verif.Threads
