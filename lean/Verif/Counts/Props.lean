import Verif.Counts.Lemmas
import Verif.Share.Example

/-!
# The numbers that are reported after matching (property C98)
-/

namespace Verif.Counts
open Verif.Shapes (Widths)
open Verif.Trie (CEnv needsShape)
open Verif.Line (Geo GeoOk ShpPt)
open Verif.Content (Tables TripRow Matching EnvOk)
open Verif.Result (Done allRuns start shapeRow Lines)
open Verif.Dists (MRun DRow SmallSeqs allTimes readTimes write stRow)
open Verif.Out (Cfg FS Act Paths NoTmpZip HasInput StRow StopTime)
open Verif.Build (Mode ModeOk Runs mruns mrun Item trips_iff leaf_iff runs_ok Spread EncOk Apart StopsOk Follows)

variable {E C Pt D S P A X S' Y A' B' : Type}

/-- From what was found to what is in the output. -/
theorem counted_of [DecidableEq E] {geo : Geo Pt} {pt : List Pt → Rat → Pt} (gok : GeoOk geo pt) {enc : ShpPt Pt → Shapes.Point} {encD : Rat → List Nat}
    {ms : List (Mode E C Pt D S P A)} {rs : List (MRun (List Nat))} {n : Nat} (ok : ∀ m ∈ ms, ModeOk m n) (h : mruns geo enc encD n ms = some rs)
    (hnd : ((((rs.map (·.run)).flatMap (·.jobs)).flatten).flatMap (·.trips)).Nodup)
    {exact : Prop} {trips trips' : List (TripRow X)} (hn : n = trips.length) {src out : List Shapes.Row}
    (hL : Lines ((rs.map (·.run)).flatMap (·.jobs)) exact trips trips' src out) :
    ∃ s, total n ms ⟨0, 0, 0⟩ = some s ∧ Counted ms trips trips' s := by
  have R := runs_ok h
  obtain ⟨s, h1, h2, h3, h4, h5⟩ := total_eq ms rs ⟨0, 0, 0⟩ (fun m hm => (ok m hm).near) h
  simp only [Nat.zero_add, Nat.add_zero] at h2 h3 h4
  have hk : ∀ k, k ∈ (((rs.map (·.run)).flatMap (·.jobs)).flatten.map (·.trips)).flatten ↔ k < n ∧ ∃ m ∈ ms, needsShape m.c k := by
    intro k
    constructor
    · intro hk
      obtain ⟨g, hg, hk⟩ := List.mem_flatten.mp hk
      obtain ⟨l, hl, rfl⟩ := List.mem_map.mp hg
      obtain ⟨j, hj, hl⟩ := List.mem_flatten.mp hl
      obtain ⟨r', hr', hj⟩ := List.mem_flatMap.mp hj
      obtain ⟨r, hr, rfl⟩ := List.mem_map.mp hr'
      obtain ⟨m, hm, its, hi, rfl⟩ := R.of r hr
      obtain ⟨f, hf, it, hit, rfl⟩ := leaf_iff.mp ⟨j, hj, hl⟩
      obtain ⟨e1, e2⟩ := (trips_iff gok (ok m hm) hi).mp ⟨f, hf, it, hit, hk⟩
      exact ⟨e1, m, hm, e2⟩
    · rintro ⟨e1, m, hm, e2⟩
      obtain ⟨its, hi, hr⟩ := R.to m hm
      obtain ⟨f, hf, it, hit, hk⟩ := (trips_iff gok (ok m hm) hi).mpr ⟨e1, e2⟩
      obtain ⟨j, hj, hl⟩ := (leaf_iff (enc := enc) (encD := encD) (m := m)).mpr ⟨f, hf, it, hit, rfl⟩
      exact List.mem_flatten.mpr ⟨it.trips, List.mem_map.mpr ⟨it.leaf enc, List.mem_flatten.mpr
        ⟨j, List.mem_flatMap.mpr ⟨_, List.mem_map.mpr ⟨_, hr, rfl⟩, hj⟩, hl⟩, rfl⟩, hk⟩
  rw [List.flatMap_def] at hnd
  have isLeaf : ∀ g ∈ ((rs.map (·.run)).flatMap (·.jobs)).flatten.map (·.trips),
      ∃ l, (∃ j ∈ (rs.map (·.run)).flatMap (·.jobs), l ∈ j) ∧ l.trips = g := by
    intro g hg
    obtain ⟨l, hl, e⟩ := List.mem_map.mp hg
    exact ⟨l, List.mem_flatten.mp hl, e⟩
  refine ⟨s, h1, ⟨_, hnd, h2.symm, fun k => by rw [hk k, hn]⟩, ?_, h4⟩
  have key := many_ids (H := HasShape trips trips') h5 hnd ?has ?one ?apart
  case has =>
    intro g hg k hkg
    have hlt : k < trips.length := hn ▸ ((hk k).mp (List.mem_flatten.mpr ⟨g, hg, hkg⟩)).1
    have hid : trips[k].id ∈ trips'.map (·.id) := hL.same.mem_iff.mpr (List.mem_map.mpr ⟨_, List.getElem_mem hlt, rfl⟩)
    obtain ⟨u, hu, e⟩ := List.mem_map.mp hid
    exact ⟨u.shape, _, List.getElem?_eq_getElem hlt, u, hu, e, rfl⟩
  case one =>
    rintro g hg k hk1 k' hk2 x x' ⟨t, ht, u, hu, e1, e2⟩ ⟨t', ht', u', hu', e1', e2'⟩
    obtain ⟨l, hl, rfl⟩ := isLeaf g hg
    rw [← e2, ← e2']
    exact hL.together l hl k k' hk1 hk2 t t' ht ht' u hu u' hu' e1 e1'
  case apart =>
    rintro g hg g' hg' k hk1 k' hk2 x ⟨t, ht, u, hu, e1, e2⟩ ⟨t', ht', u', hu', e1', e2'⟩
    obtain ⟨l, hl, rfl⟩ := isLeaf g hg
    obtain ⟨l', hl', rfl⟩ := isLeaf g' hg'
    exact hL.apart l l' hl hl' k k' hk1 hk2 t t' ht ht' u hu u' hu' e1 e1' (e2.trans e2'.symm)
  obtain ⟨ids, i1, i2, i3⟩ := key
  refine ⟨ids, i1, i2.trans h3.symm, fun x => (i3 x).trans ⟨?_, ?_⟩⟩
  · rintro ⟨k, h1, h2⟩
    exact ⟨k, ((hk k).mp h1).2, h2⟩
  · rintro ⟨k, h1, h2⟩
    obtain ⟨t, ht, _⟩ := id h2
    exact ⟨k, (hk k).mpr ⟨by rw [hn]; exact (List.getElem?_eq_some_iff.mp ht).1, h1⟩, h2⟩

/-- **C98 (with `--drop-shapes`).** Under the conditions of C87, whatever the schedules: the number of matched trips is that of the trips that needed a
shape, the number of leafs is that of the shapes these trips have in the output, and there are not more tries than leafs. -/
theorem C98_drop_partial [DecidableEq E] {geo : Geo Pt} {pt : List Pt → Rat → Pt} (gok : GeoOk geo pt) (w : Widths) (hw : 0 < w.lat + w.lng + w.dist)
    (mt : Matching) (e : Content.Env A' B' X (Shapes.Row ⊕ (StRow (List Nat) S' ⊕ Y))) (he : EnvOk e)
    (i : Tables A' B' X (Shapes.Row ⊕ (StRow (List Nat) S' ⊕ Y))) (v : Content.Valid i) (hne : ∀ t ∈ i.trips, t.id ≠ []) (src : List Shapes.Row)
    (hi : Result.RefsOk i.trips src) (enc : ShpPt Pt → Shapes.Point) (encD : Rat → List Nat) (ms : List (Mode E C Pt D S P A))
    (ok : ∀ m ∈ ms, ModeOk m i.trips.length) (henc : EncOk geo enc encD w i.trips.length ms)
    (hsp : Spread geo mt.noColor i.trips.length ms)
    (hap : Apart ms) (hnew : ∀ m ∈ ms, ∀ (k : Nat) t, i.trips[k]? = some t → needsShape m.c k → ∀ ty x, t.shape ≠ Shapes.shapeId ty x)
    (rows : List (StRow (List Nat) S')) (hs : SmallSeqs rows) (ts0 : List (List (StopTime (List Nat)))) (hr : readTimes i.trips rows = some ts0)
    (hst : StopsOk ms i.trips rows) (limit : Nat) (atomicDec : Bool) :
    ∃ rs, mruns geo enc encD i.trips.length ms = some rs ∧ (Done limit atomicDec i.trips.length (rs.map (·.run)) (start i.trips src) →
      ∃ ts f, allTimes limit atomicDec i.trips.length rs (start i.trips src) ts0 = some ts ∧
      write mt e w limit i rs (allRuns limit atomicDec i.trips.length (rs.map (·.run)) (start i.trips src)) ts = some f ∧
      ∀ (c : Cfg) (fs : FS (DRow A' B' (List Nat) S' X Y)), Paths c → NoTmpZip c fs → Out.Input c fs .shapes (src.map shapeRow) →
      HasInput c fs .stopTimes (rows.map stRow) →
      ∀ as : List Act, .wrErr ∉ as → (Out.run c (Out.init fs (Out.jobs f)) as).phase = .done →
        ∃ trips', Out.HasOutput c (Out.run c (Out.init fs (Out.jobs f)) as).fs .trips (.header .trips :: trips'.map .trip) ∧
          ∃ s, total i.trips.length ms ⟨0, 0, 0⟩ = some s ∧ Counted ms i.trips trips' s) := by
  obtain ⟨rs, hrs, h⟩ := Build.C87_drop_partial gok w hw mt e he i v hne src hi enc encD ms ok henc hsp hap hnew rows hs ts0 hr hst limit atomicDec
  refine ⟨rs, hrs, fun hd => ?_⟩
  obtain ⟨ts, f, h1, h2, h3⟩ := h hd
  refine ⟨ts, f, h1, h2, fun c fs p1 p2 p3 p4 as p5 p6 => ?_⟩
  obtain ⟨trips', out, rows', O, _⟩ := h3 c fs p1 p2 p3 p4 as p5 p6
  refine ⟨trips', O.trips, counted_of gok ok hrs ?_ rfl O.lines⟩
  have := (Build.leafsOk_of gok ok hrs hap).once
  rw [List.flatten_eq_flatMap, List.flatMap_assoc]
  exact this

/-- **C98 (without `--drop-shapes`).** Modes need not be apart, and shapes of the input may have any id. -/
theorem C98_no_drop_partial [DecidableEq E] {geo : Geo Pt} {pt : List Pt → Rat → Pt} (gok : GeoOk geo pt) (w : Widths)
    (hw : 0 < w.lat + w.lng + w.dist) (mt : Matching) (e : Content.Env A' B' X (Shapes.Row ⊕ (StRow (List Nat) S' ⊕ Y))) (he : EnvOk e)
    (i : Tables A' B' X (Shapes.Row ⊕ (StRow (List Nat) S' ⊕ Y))) (v : Content.Valid i) (hne : ∀ t ∈ i.trips, t.id ≠ []) (src : List Shapes.Row)
    (hi : Result.RefsOk i.trips src) (enc : ShpPt Pt → Shapes.Point) (encD : Rat → List Nat) (ms : List (Mode E C Pt D S P A))
    (ok : ∀ m ∈ ms, ModeOk m i.trips.length) (henc : EncOk geo enc encD w i.trips.length ms)
    (hsp : Spread geo mt.noColor i.trips.length ms) (hdrop : ∀ m ∈ ms, m.c.dropShapes = false)
    (rows : List (StRow (List Nat) S')) (hs : SmallSeqs rows) (ts0 : List (List (StopTime (List Nat)))) (hr : readTimes i.trips rows = some ts0)
    (hst : StopsOk ms i.trips rows) (limit : Nat) (atomicDec : Bool) :
    ∃ rs, mruns geo enc encD i.trips.length ms = some rs ∧ (Done limit atomicDec i.trips.length (rs.map (·.run)) (start i.trips src) →
      Follows limit atomicDec i.trips.length ms rs (start i.trips src) →
      ∃ ts f, allTimes limit atomicDec i.trips.length rs (start i.trips src) ts0 = some ts ∧
      write mt e w limit i rs (allRuns limit atomicDec i.trips.length (rs.map (·.run)) (start i.trips src)) ts = some f ∧
      ∀ (c : Cfg) (fs : FS (DRow A' B' (List Nat) S' X Y)), Paths c → NoTmpZip c fs → Out.Input c fs .shapes (src.map shapeRow) →
      HasInput c fs .stopTimes (rows.map stRow) →
      ∀ as : List Act, .wrErr ∉ as → (Out.run c (Out.init fs (Out.jobs f)) as).phase = .done →
        ∃ trips', Out.HasOutput c (Out.run c (Out.init fs (Out.jobs f)) as).fs .trips (.header .trips :: trips'.map .trip) ∧
          ∃ s, total i.trips.length ms ⟨0, 0, 0⟩ = some s ∧ Counted ms i.trips trips' s) := by
  obtain ⟨rs, hrs, h⟩ := Build.C87_no_drop_partial gok w hw mt e he i v hne src hi enc encD ms ok henc hsp hdrop rows hs ts0 hr hst limit atomicDec
  refine ⟨rs, hrs, fun hd hf => ?_⟩
  obtain ⟨ts, f, h1, h2, h3⟩ := h hd hf
  refine ⟨ts, f, h1, h2, fun c fs p1 p2 p3 p4 as p5 p6 => ?_⟩
  obtain ⟨trips', out, rows', O, _⟩ := h3 c fs p1 p2 p3 p4 as p5 p6
  refine ⟨trips', O.trips, counted_of gok ok hrs ?_ rfl O.lines⟩
  have hp := Build.ptsOk_of gok ok (runs_ok hrs) henc
  have h0 := Result.mid_start (exact := atomicDec = true) (w := w) (src := src) i.trips
  obtain ⟨h1, _⟩ := Result.noDrop_ok (limit := limit) (a := atomicDec) (fun h => h) hi.named (rs.map (·.run)) [] _ h0 (by simp) (Result.ptsOk_run hp) hd
    (Build.noDrop_of gok ms rs _ ok hdrop hrs hf)
  have ea : Result.allLeafs (rs.map (·.run)) = ((rs.map (·.run)).flatMap (·.jobs)).flatten := by
    rw [Result.allLeafs, List.flatten_eq_flatMap, List.flatMap_assoc]
    congr 1
    funext r
    rw [List.flatten_eq_flatMap]
  rw [List.nil_append, ea] at h1
  exact h1

/-! ## Example -/

open Verif.Share (exShareMode exShare_holds)

/-- The hypotheses of `C98_drop_partial` hold for the example of C97: three trips are matched, and get two shapes. -/
example : (∀ m ∈ [exShareMode], ModeOk m Dists.exTables.trips.length) ∧ EncOk Line.exGeo Dists.exEnc Dists.exEncD Shapes.w1 4 [exShareMode] ∧
    Spread Line.exGeo 0 4 [exShareMode] ∧ Apart [exShareMode] ∧ StopsOk [exShareMode] Dists.exTables.trips Dists.exRows ∧
    (∃ rs, mruns Line.exGeo Dists.exEnc Dists.exEncD 4 [exShareMode] = some rs ∧
      ∀ a, Done 100 a 4 (rs.map (·.run)) (start Dists.exTables.trips Result.exSrc)) ∧
    total 4 [exShareMode] ⟨0, 0, 0⟩ = some ⟨3, 1, 2⟩ := by
  obtain ⟨h1, _, h2, h3, h4, h5, h6, _⟩ := exShare_holds
  exact ⟨h1, h2, h3, h4, h5, h6, by decide +kernel⟩

/-- **C98 (negation for modes that are not apart).** With `--drop-shapes`, a trip that is matched for two mode configurations is counted twice. -/
theorem C98_negation_again : ∃ s, total 4 [exShareMode, exShareMode] ⟨0, 0, 0⟩ = some s ∧ exShareMode.c.dropShapes = true ∧
    ¬ Many s.totNumTrips fun k => k < 4 ∧ ∃ m ∈ [exShareMode, exShareMode], needsShape m.c k := by
  refine ⟨⟨6, 2, 4⟩, by decide +kernel, rfl, ?_⟩
  rintro ⟨l, h1, h2, h3⟩
  have := h1.length_le_of_subset (l₂ := List.range 4) fun k hk => List.mem_range.mpr ((h3 k).mp hk).1
  rw [h2] at this
  exact absurd this (by decide)

end Verif.Counts
