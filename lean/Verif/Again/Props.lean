import Verif.Again.First

/-!
# Running the program again (property C95)
-/

namespace Verif.Again
open Verif.Shapes (Str Widths)
open Verif.Out (Cfg FS HasOutput HasInput Paths NoTmpZip Act StRow StopTime)
open Verif.Content (Tables TripRow Matching EnvOk SameService)
open Verif.Color (Route)
open Verif.Trie (CEnv needsShape)
open Verif.Line (Geo GeoOk ShpPt)
open Verif.Build (Mode ModeOk EncOk Spread Apart StopsOk Follows items mrun mruns)
open Verif.Intake (Fields StopRow Wanted RowsOk rowsAt intake)
open Verif.Dists (DRow stRow MRun SmallSeqs readTimes allTimes)
open Verif.Result (shapeRow Done RefsOk Found allRuns start)

variable {A B X Y S P K E C Pt D S' Z Di : Type}

/-! ## A feed in which nothing is left to be done -/

/-- What a configuration is for, by the rows of the feed. -/
theorem for_iff {f : Fields A X S} {i : Tables A B X Z} (v : Content.Valid i) {stops : List (StopRow P)} {rows : List (StRow Di S)} {c' : CEnv Nat P K}
    (h : ∃ c, intake f i stops rows c = some c') {k : Nat} {t : TripRow X} (ht : i.trips[k]? = some t) :
    (2 ≤ (c'.stops k).length ∧ c'.mot k ∈ c'.mots ∧ c'.mot k ∈ c'.cfgMots) ↔ Wanted f c' i.routes rows t := by
  obtain ⟨c, h⟩ := h
  have hl := Intake.stops_length h ht
  obtain ⟨F, sts, h1, h2, rfl⟩ := Intake.intake_some h
  obtain ⟨R, hR, e, h3⟩ := Intake.routeOf_ok h1 ht
  unfold Wanted
  rw [hl, Intake.fill_mot h3]
  refine and_congr .rfl ?_
  constructor
  · intro h
    exact ⟨R, hR, e, h⟩
  · rintro ⟨R', hR', e', h⟩
    have : R' = R := Content.ids_unique v.routes hR' hR (e'.trans e.symm)
    exact this ▸ h

/-- **C95 (nothing to do).** If all trips that the configurations are for have shapes, and their routes have the text colours that belong to their colours, then
a run without `--drop-shapes` leaves the feed as it is, whatever the schedules of the threads: no trip is matched, and routes, trips, shapes, stop times and
all copied files are those of the input. -/
theorem C95_complete_partial [DecidableEq E] (geo : Geo Pt) (w : Widths) (hw : 0 < w.lat + w.lng + w.dist) (mt : Matching)
    (e : Content.Env A B X (Shapes.Row ⊕ (StRow (List Nat) S ⊕ Y))) (he : EnvOk e) (i : Tables A B X (Shapes.Row ⊕ (StRow (List Nat) S ⊕ Y)))
    (v : Content.Valid i) (hne : ∀ t ∈ i.trips, t.id ≠ []) (src : List Shapes.Row) (hi : RefsOk i.trips src)
    (enc : ShpPt Pt → Shapes.Point) (encD : Rat → List Nat) (ms : List (Mode E C Pt D S' P K)) (hsp : Spread geo mt.noColor i.trips.length ms)
    (f : Fields A X S) (stops : List (StopRow P)) (rows : List (StRow (List Nat) S)) (hs : SmallSeqs rows) (hrows : RowsOk f stops i.trips rows)
    (hg : ∀ m ∈ ms, Gentle f i stops rows m) (hc : ∀ m ∈ ms, Complete f mt.noColor mt.textColor m.c i.routes i.trips rows) (limit : Nat) (atomicDec : Bool) :
    Leaves geo enc encD w mt e limit atomicDec i src rows ms := by
  have hno : ∀ m ∈ ms, ∀ k, k < i.trips.length → ¬ needsShape m.c k := by
    rintro m hm k hk ⟨h1, h2⟩
    have ht := List.getElem?_eq_getElem hk
    have g := hg m hm
    have hn := (hc m hm).shape _ (List.getElem_mem hk) ((for_iff v g.reads ht).mp h2)
    rw [g.drop, g.shapes k _ ht hn] at h1
    rcases h1 with h1 | h1 <;> cases h1
  obtain ⟨sts, hsts⟩ := Intake.readStops_some hs hrows
  obtain ⟨ts0, hr⟩ := Intake.readTimes_of hsts
  obtain ⟨rs, hrs⟩ : ∃ rs, mruns geo enc encD i.trips.length ms = some rs := Content.collect_all fun m hm => by
    exact ⟨mrun enc encD m [], by rw [items_idle geo (hno m hm)]; rfl⟩
  have R := Build.runs_ok hrs
  have hof : ∀ r ∈ rs, ∃ m ∈ ms, r = mrun enc encD m [] := by
    intro r hr
    obtain ⟨m, hm, its, h1, h2⟩ := R.of r hr
    rw [items_idle geo (hno m hm)] at h1
    cases h1
    exact ⟨m, hm, h2⟩
  obtain ⟨fd, h1, h2, h3⟩ := idle_core w hw mt e he i v hne src hi.named rs
    (fun r hr => by obtain ⟨m, hm, rfl⟩ := hof r hr; rfl)
    (fun r hr => by
      obtain ⟨m, hm, rfl⟩ := hof r hr
      exact (hsp m hm [] (items_idle geo (hno m hm))).eq_nil)
    (fun r hr k t ht hk R hR hid hcol => by
      obtain ⟨m, hm, rfl⟩ := hof r hr
      have g := hg m hm
      have := ((g.keep k (Content.lt_of_some ht)).mp hk).2.2
      exact (hc m hm).text t (List.mem_of_getElem? ht) ((for_iff v g.reads ht).mp this) R hR hid hcol)
    rows hs ts0 hr limit atomicDec
  exact ⟨ts0, rs, ts0, fd, hr, hrs, h1, h2, h3⟩

/-! ## After a run -/

section
variable [DecidableEq E] {geo : Geo Pt} {pt : List Pt → Rat → Pt} {enc : ShpPt Pt → Shapes.Point} {encD : Rat → List Nat} {n : Nat}
  {ms : List (Mode E C Pt D S' P K)} {rs : List (MRun (List Nat))}

/-- A line is found for each trip that needs a shape, and the colour of its route is looked at. -/
theorem needs_found (gok : GeoOk geo pt) (ok : ∀ m ∈ ms, ModeOk m n) (h : mruns geo enc encD n ms = some rs) {noColor : Nat} (hsp : Spread geo noColor n ms)
    {m : Mode E C Pt D S' P K} (hm : m ∈ ms) {k : Nat} (hk : k < n) (hn : needsShape m.c k) :
    (∃ pts, Found ((rs.map (·.run)).flatMap (·.jobs)) k pts) ∧ ∃ r ∈ rs, Touched r.run.keep r.run.threads.flatten k := by
  obtain ⟨its, hi, hmem⟩ := (Build.runs_ok h).to m hm
  obtain ⟨f, hf, it, hit, hkt⟩ := (Build.trips_iff gok (ok m hm) hi).mpr ⟨hk, hn⟩
  obtain ⟨j, hj, hl⟩ := (Build.leaf_iff (enc := enc) (encD := encD) (m := m)).mpr ⟨f, hf, it, hit, rfl⟩
  refine ⟨⟨_, j, List.mem_flatMap.mpr ⟨_, List.mem_map.mpr ⟨_, hmem, rfl⟩, hj⟩, _, hl, hkt, rfl⟩, _, hmem, .inr ?_⟩
  have hp := hsp m hm its hi
  exact ⟨(it.shp.color.getD noColor, it.trips), hp.mem_iff.mpr (List.mem_map.mpr ⟨it, List.mem_flatten.mpr ⟨f, hf, hit⟩, rfl⟩), hkt⟩

end

/-- The second run: whatever the configurations are, if they are for no other types than those of the first run. -/
theorem second [DecidableEq E] (geo : Geo Pt) (w : Widths) (hw : 0 < w.lat + w.lng + w.dist) (mt : Matching)
    {i : Tables A B X (Shapes.Row ⊕ (StRow (List Nat) S ⊕ Y))} (v : Content.Valid i) (hne : ∀ t ∈ i.trips, t.id ≠ []) {src : List Shapes.Row} (hi : RefsOk i.trips src)
    (enc : ShpPt Pt → Shapes.Point) (encD : Rat → List Nat) {ms : List (Mode E C Pt D S' P K)} {rs : List (MRun (List Nat))}
    (hp : Result.PtsOk w ((rs.map (·.run)).flatMap (·.jobs))) {f : Fields A X S} {stops : List (StopRow P)} {rows : List (StRow (List Nat) S)} (hs : SmallSeqs rows)
    (hrows : RowsOk f stops i.trips rows)
    (hall : ∀ m ∈ ms, ∀ (k : Nat) t, i.trips[k]? = some t → Wanted f m.c i.routes rows t →
      (t.shape ≠ [] ∨ ∃ pts, Found ((rs.map (·.run)).flatMap (·.jobs)) k pts) ∧ ∃ r ∈ rs, Touched r.run.keep r.run.threads.flatten k)
    {exact : Prop} {routes' : List (Route A)} {trips' : List (TripRow X)} {out : List Shapes.Row} {rows' : List (StRow (List Nat) S)}
    (h : Sound mt i rs exact src rows routes' trips' out rows') {ms' : List (Mode E C Pt D S' P K)} (hsp : Spread geo mt.noColor trips'.length ms')
    (hg : ∀ m' ∈ ms', Gentle f { i with routes := routes', trips := trips' } stops rows' m') (hin : ∀ m' ∈ ms', ∃ m ∈ ms, Within m'.c m.c)
    (e : Content.Env A B X (Shapes.Row ⊕ (StRow (List Nat) S ⊕ Y))) (he : EnvOk e) (limit : Nat) (atomicDec : Bool) :
    Leaves geo enc encD w mt e limit atomicDec { i with routes := routes', trips := trips' } out rows' ms' :=
  C95_complete_partial geo w hw mt e he { i with routes := routes', trips := trips' } (valid_again v h) (by
      intro t' ht'
      obtain ⟨k, t, hk, hid⟩ := trip_of h ht'
      rw [hid]
      exact hne t (List.mem_of_getElem? hk)) out (refs_again hp hi h) enc encD ms' hsp f stops rows' (small_again hs h) (rows_again hrows h) hg (by
      intro m' hm'
      obtain ⟨m, hm, hc⟩ := hin m' hm'
      exact complete_again hp hc h (hall m hm)) limit atomicDec

/-- **C95 (twice).** The output of a run without `--drop-shapes` is complete: if the program is run on it again without `--drop-shapes`, for no other vehicle types,
then the feed is left as it is. -/
theorem C95_twice_partial [DecidableEq E] {geo : Geo Pt} {pt : List Pt → Rat → Pt} (gok : GeoOk geo pt) (w : Widths) (hw : 0 < w.lat + w.lng + w.dist) (mt : Matching)
    (e : Content.Env A B X (Shapes.Row ⊕ (StRow (List Nat) S ⊕ Y))) (he : EnvOk e) (i : Tables A B X (Shapes.Row ⊕ (StRow (List Nat) S ⊕ Y)))
    (v : Content.Valid i) (hne : ∀ t ∈ i.trips, t.id ≠ []) (src : List Shapes.Row) (hi : RefsOk i.trips src)
    (enc : ShpPt Pt → Shapes.Point) (encD : Rat → List Nat) (ms : List (Mode E C Pt D S' P K)) (ok : ∀ m ∈ ms, ModeOk m i.trips.length)
    (henc : EncOk geo enc encD w i.trips.length ms) (hsp : Spread geo mt.noColor i.trips.length ms)
    (f : Fields A X S) (stops : List (StopRow P)) (rows : List (StRow (List Nat) S)) (hs : SmallSeqs rows) (hrows : RowsOk f stops i.trips rows)
    (hc : ∀ m ∈ ms, ∃ c, intake f i stops rows c = some m.c) (hdrop : ∀ m ∈ ms, m.c.dropShapes = false) (hkeep : ∀ m ∈ ms, KeepOk m i.trips.length)
    (limit : Nat) (atomicDec : Bool) :
    ∃ ts0 rs, readTimes i.trips rows = some ts0 ∧ mruns geo enc encD i.trips.length ms = some rs ∧
      (Done limit atomicDec i.trips.length (rs.map (·.run)) (start i.trips src) → Follows limit atomicDec i.trips.length ms rs (start i.trips src) →
      ∃ ts fd, allTimes limit atomicDec i.trips.length rs (start i.trips src) ts0 = some ts ∧
      Dists.write mt e w limit i rs (allRuns limit atomicDec i.trips.length (rs.map (·.run)) (start i.trips src)) ts = some fd ∧
      ∀ (c : Cfg) (fs : FS (DRow A B (List Nat) S X Y)), Paths c → NoTmpZip c fs → Out.Input c fs .shapes (src.map shapeRow) →
      HasInput c fs .stopTimes (rows.map stRow) →
      ∀ as : List Act, .wrErr ∉ as → (Out.run c (Out.init fs (Out.jobs fd)) as).phase = .done →
        ∃ routes' trips' out rows', Written c (Out.run c (Out.init fs (Out.jobs fd)) as).fs routes' trips' out rows' ∧
          Content.Valid { i with routes := routes', trips := trips' } ∧ RefsOk trips' out ∧ RowsOk f stops trips' rows' ∧
          ∀ ms' : List (Mode E C Pt D S' P K), Spread geo mt.noColor trips'.length ms' →
          (∀ m' ∈ ms', Gentle f { i with routes := routes', trips := trips' } stops rows' m') → (∀ m' ∈ ms', ∃ m ∈ ms, Within m'.c m.c) →
          ∀ (e' : Content.Env A B X (Shapes.Row ⊕ (StRow (List Nat) S ⊕ Y))), EnvOk e' → ∀ (limit' : Nat) (atomicDec' : Bool),
            Leaves geo enc encD w mt e' limit' atomicDec' { i with routes := routes', trips := trips' } out rows' ms') := by
  obtain ⟨sts, hsts⟩ := Intake.readStops_some hs hrows
  obtain ⟨ts0, hr⟩ := Intake.readTimes_of hsts
  obtain ⟨rs, hrs⟩ := Build.mruns_some gok enc encD ok
  refine ⟨ts0, rs, hr, hrs, fun hd hfo => ?_⟩
  have R := Build.runs_ok hrs
  have hst : StopsOk ms i.trips rows := by
    intro m hm k t ht
    obtain ⟨c, h⟩ := hc m hm
    exact Intake.stops_length h ht
  have hlens := Build.lensOk_of gok ok R hst
  have hp := Build.ptsOk_of gok ok R henc
  have hn := Build.noDrop_of gok ms rs _ ok hdrop hrs hfo
  have h0 := Result.mid_start (exact := atomicDec = true) (w := w) (src := src) i.trips
  obtain ⟨n1, n2, n3⟩ := Result.noDrop_ok (limit := limit) (a := atomicDec) (fun h => h) hi.named _ [] _ h0 (by simp) (Result.ptsOk_run hp) hd hn
  have hmid := Result.mid_all (limit := limit) (a := atomicDec) (exact := atomicDec = true) (fun h => h) hi.named _ [] _ h0 n1 n2
    (fun l hl k hk ty m => by rw [n3 l hl k hk]; exact (Shapes.shapeId_ne_nil ty m).symm) (Result.ptsOk_run hp) hd
  rw [List.nil_append] at n1 hmid
  rw [Result.nodup_allLeafs] at n1
  obtain ⟨ts, fd, h1, h2, h3⟩ := written_of w hw mt e he i v hne src hi rs (Build.colorsOk_of gok ok R hsp) limit atomicDec (atomicDec = true) hd hmid n1
    (fun j hj l hl k hk => n2 l (Result.mem_allLeafs.mpr ⟨j, hj, hl⟩) k hk) rows hs ts0 hr hlens
  refine ⟨ts, fd, h1, h2, fun c fs p1 p2 p3 p4 as p5 p6 => ?_⟩
  obtain ⟨routes', trips', out, rows', hW, hS⟩ := h3 c fs p1 p2 p3 p4 as p5 p6
  refine ⟨routes', trips', out, rows', hW, valid_again v hS, refs_again hp hi hS, rows_again hrows hS, ?_⟩
  intro ms' hsp' hg hin e' he' limit' a'
  refine second geo w hw mt v hne hi enc encD hp hs hrows ?_ hS hsp' hg hin e' he' limit' a'
  intro m hm k t ht hwant
  have hk := Content.lt_of_some ht
  have hfor := (for_iff v (hc m hm) ht).mpr hwant
  have hsh : (start i.trips src).shape k = t.shape := by
    show (i.trips[k]?.map (·.shape)).getD [] = _
    rw [ht]; rfl
  obtain ⟨q1, q2⟩ := Intake.follows_needs gok hk ms rs (start i.trips src) ok hdrop hrs hfo hd
  by_cases ht0 : t.shape = []
  · obtain ⟨m', hm', hn'⟩ := q2 (hsh.trans ht0) m hm hfor.1 hfor.2.1 hfor.2.2
    obtain ⟨g1, g2⟩ := needs_found gok ok hrs hsp hm' hk hn'
    exact ⟨.inr g1, g2⟩
  · have hnn := q1 (by rw [hsh]; exact ht0) m hm
    have hem : m.c.shapeEmpty k = false := by
      cases hb : m.c.shapeEmpty k with
      | false => rfl
      | true => exact absurd ⟨.inr hb, hfor⟩ hnn
    obtain ⟨its, _, hmem⟩ := R.to m hm
    exact ⟨.inl ht0, _, hmem, .inl ((hkeep m hm k hk).mpr ⟨hdrop m hm, hem, hfor⟩)⟩

/-- **C95 (with `--drop-shapes` first).** The same holds if the first run is with `--drop-shapes`. -/
theorem C95_drop_partial [DecidableEq E] {geo : Geo Pt} {pt : List Pt → Rat → Pt} (gok : GeoOk geo pt) (w : Widths) (hw : 0 < w.lat + w.lng + w.dist) (mt : Matching)
    (e : Content.Env A B X (Shapes.Row ⊕ (StRow (List Nat) S ⊕ Y))) (he : EnvOk e) (i : Tables A B X (Shapes.Row ⊕ (StRow (List Nat) S ⊕ Y)))
    (v : Content.Valid i) (hne : ∀ t ∈ i.trips, t.id ≠ []) (src : List Shapes.Row) (hi : RefsOk i.trips src)
    (enc : ShpPt Pt → Shapes.Point) (encD : Rat → List Nat) (ms : List (Mode E C Pt D S' P K)) (ok : ∀ m ∈ ms, ModeOk m i.trips.length)
    (henc : EncOk geo enc encD w i.trips.length ms) (hsp : Spread geo mt.noColor i.trips.length ms) (hap : Apart ms)
    (f : Fields A X S) (stops : List (StopRow P)) (rows : List (StRow (List Nat) S)) (hs : SmallSeqs rows) (hrows : RowsOk f stops i.trips rows)
    (hc : ∀ m ∈ ms, ∃ c, intake f i stops rows c = some m.c) (hdrop : ∀ m ∈ ms, m.c.dropShapes = true)
    (hnew : ∀ m ∈ ms, ∀ t ∈ i.trips, Wanted f m.c i.routes rows t → ∀ ty x, t.shape ≠ Shapes.shapeId ty x)
    (limit : Nat) (atomicDec : Bool) :
    ∃ ts0 rs, readTimes i.trips rows = some ts0 ∧ mruns geo enc encD i.trips.length ms = some rs ∧
      (Done limit atomicDec i.trips.length (rs.map (·.run)) (start i.trips src) →
      ∃ ts fd, allTimes limit atomicDec i.trips.length rs (start i.trips src) ts0 = some ts ∧
      Dists.write mt e w limit i rs (allRuns limit atomicDec i.trips.length (rs.map (·.run)) (start i.trips src)) ts = some fd ∧
      ∀ (c : Cfg) (fs : FS (DRow A B (List Nat) S X Y)), Paths c → NoTmpZip c fs → Out.Input c fs .shapes (src.map shapeRow) →
      HasInput c fs .stopTimes (rows.map stRow) →
      ∀ as : List Act, .wrErr ∉ as → (Out.run c (Out.init fs (Out.jobs fd)) as).phase = .done →
        ∃ routes' trips' out rows', Written c (Out.run c (Out.init fs (Out.jobs fd)) as).fs routes' trips' out rows' ∧
          Content.Valid { i with routes := routes', trips := trips' } ∧ RefsOk trips' out ∧ RowsOk f stops trips' rows' ∧
          ∀ ms' : List (Mode E C Pt D S' P K), Spread geo mt.noColor trips'.length ms' →
          (∀ m' ∈ ms', Gentle f { i with routes := routes', trips := trips' } stops rows' m') → (∀ m' ∈ ms', ∃ m ∈ ms, Within m'.c m.c) →
          ∀ (e' : Content.Env A B X (Shapes.Row ⊕ (StRow (List Nat) S ⊕ Y))), EnvOk e' → ∀ (limit' : Nat) (atomicDec' : Bool),
            Leaves geo enc encD w mt e' limit' atomicDec' { i with routes := routes', trips := trips' } out rows' ms') := by
  obtain ⟨sts, hsts⟩ := Intake.readStops_some hs hrows
  obtain ⟨ts0, hr⟩ := Intake.readTimes_of hsts
  obtain ⟨rs, hrs⟩ := Build.mruns_some gok enc encD ok
  refine ⟨ts0, rs, hr, hrs, fun hd => ?_⟩
  have R := Build.runs_ok hrs
  have hst : StopsOk ms i.trips rows := by
    intro m hm k t ht
    obtain ⟨c, h⟩ := hc m hm
    exact Intake.stops_length h ht
  have hlens := Build.lensOk_of gok ok R hst
  have hp := Build.ptsOk_of gok ok R henc
  have hl := Build.leafsOk_of gok ok hrs hap
  have hmid := Result.mid_all (limit := limit) (a := atomicDec) (exact := atomicDec = true) (fun h => h) hi.named (rs.map (·.run)) [] (start i.trips src)
    (Result.mid_start (w := w) i.trips) (by rw [List.nil_append, Result.nodup_allLeafs]; exact hl.once) (by
      intro l hl'
      obtain ⟨j, hj, hl'⟩ := Result.mem_allLeafs.mp hl'
      exact hl.trips j hj l hl') (by
      intro l hl' k hk ty x e1
      obtain ⟨j, hj, hl'⟩ := Result.mem_allLeafs.mp hl'
      have hlt := hl.trips j hj l hl' k hk
      have e1 : (i.trips[k]?.map (·.shape)).getD [] = Shapes.shapeId ty x := e1
      rw [List.getElem?_eq_getElem hlt] at e1
      obtain ⟨r', hr', hj⟩ := List.mem_flatMap.mp hj
      obtain ⟨r, hr, rfl⟩ := List.mem_map.mp hr'
      obtain ⟨m, hm, its, hit, rfl⟩ := R.of r hr
      obtain ⟨g, hg, it, hin, rfl⟩ := Build.leaf_iff.mp ⟨j, hj, hl'⟩
      have hn := ((Build.trips_iff gok (ok m hm) hit).mp ⟨g, hg, it, hin, hk⟩).2
      exact hnew m hm _ (List.getElem_mem hlt) ((for_iff v (hc m hm) (List.getElem?_eq_getElem hlt)).mp hn.2) ty x e1) (Result.ptsOk_run hp) hd
  rw [List.nil_append] at hmid
  obtain ⟨ts, fd, h1, h2, h3⟩ := written_of w hw mt e he i v hne src hi rs (Build.colorsOk_of gok ok R hsp) limit atomicDec (atomicDec = true) hd hmid hl.once
    hl.trips rows hs ts0 hr hlens
  refine ⟨ts, fd, h1, h2, fun c fs p1 p2 p3 p4 as p5 p6 => ?_⟩
  obtain ⟨routes', trips', out, rows', hW, hS⟩ := h3 c fs p1 p2 p3 p4 as p5 p6
  refine ⟨routes', trips', out, rows', hW, valid_again v hS, refs_again hp hi hS, rows_again hrows hS, ?_⟩
  intro ms' hsp' hg hin e' he' limit' a'
  refine second geo w hw mt v hne hi enc encD hp hs hrows ?_ hS hsp' hg hin e' he' limit' a'
  intro m hm k t ht hwant
  have hfor := (for_iff v (hc m hm) ht).mpr hwant
  obtain ⟨g1, g2⟩ := needs_found gok ok hrs hsp hm (Content.lt_of_some ht) ⟨.inl (hdrop m hm), hfor⟩
  exact ⟨.inr g1, g2⟩

end Verif.Again
