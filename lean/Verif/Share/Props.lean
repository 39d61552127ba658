import Verif.Share.Lemmas
import Verif.Build.Props

/-!
# Which trips share a shape (property C97)
-/

namespace Verif.Share
open Verif.Shapes (Widths)
open Verif.Trie (CEnv needsShape)
open Verif.Line (Geo GeoOk ShpPt)
open Verif.Content (Tables TripRow Matching EnvOk)
open Verif.Result (Done allRuns start shapeRow Lines)
open Verif.Dists (MRun DRow SmallSeqs allTimes readTimes write stRow)
open Verif.Out (Cfg FS Act Paths NoTmpZip HasInput StRow StopTime)
open Verif.Build (Mode ModeOk Runs mruns mrun Item trips_iff leaf_iff runs_ok Spread EncOk Apart StopsOk Follows)

variable {E C Pt D S P A X S' Y A' B' : Type}

/-- From what was found to what is in the output. -/
theorem shared_of [DecidableEq E] {geo : Geo Pt} {pt : List Pt → Rat → Pt} (gok : GeoOk geo pt) {enc : ShpPt Pt → Shapes.Point} {encD : Rat → List Nat}
    {ms : List (Mode E C Pt D S P A)} {rs : List (MRun (List Nat))} {n : Nat} (ok : ∀ m ∈ ms, ModeOk m n) (hst : ∀ m ∈ ms, Starts m.c n)
    (R : Runs geo enc encD n ms rs) {exact : Prop} {trips trips' : List (TripRow X)} (hn : n = trips.length) {src out : List Shapes.Row}
    (hL : Lines ((rs.map (·.run)).flatMap (·.jobs)) exact trips trips' src out) : Shared ms trips trips' := by
  have leafOf : ∀ m ∈ ms, ∀ its, Build.items geo m n = some its → mrun enc encD m its ∈ rs → ∀ f ∈ its, ∀ it ∈ f,
      ∃ j ∈ (rs.map (·.run)).flatMap (·.jobs), it.leaf enc ∈ j := by
    intro m _ its _ hr f hf it hit
    obtain ⟨j, hj, hl⟩ := (leaf_iff (enc := enc) (encD := encD) (m := m)).mpr ⟨f, hf, it, hit, rfl⟩
    exact ⟨j, List.mem_flatMap.mpr ⟨_, List.mem_map.mpr ⟨_, hr, rfl⟩, hj⟩, hl⟩
  have lt : ∀ (k : Nat) t, trips[k]? = some t → k < n := fun k t h => by rw [hn]; exact (List.getElem?_eq_some_iff.mp h).1
  constructor
  · intro m hm k k' t t' ht ht' n1 n2 hs u hu u' hu' e1 e2
    obtain ⟨fs, hfs, _, h1, _⟩ := nodes_ok (ok m hm) (hst m hm)
    obtain ⟨its, hi, hr⟩ := R.to m hm
    obtain ⟨g, hg, tr, htr, j, hj, hk, hk'⟩ := h1 k k' (lt k t ht) (lt k' t' ht') n1 n2 hs
    obtain ⟨f, hf, it, hit, e⟩ := (items_nodes hfs hi).2 g hg tr htr j hj
    exact hL.together (it.leaf enc) (leafOf m hm its hi hr f hf it hit) k k' (by show k ∈ it.trips; rw [e]; exact hk)
      (by show k' ∈ it.trips; rw [e]; exact hk') t t' ht ht' u hu u' hu' e1 e2
  · intro m hm m' hm' k k' t t' ht ht' n1 n2 u hu u' hu' e1 e2 e3
    obtain ⟨its, hi, hr⟩ := R.to m hm
    obtain ⟨its', hi', hr'⟩ := R.to m' hm'
    obtain ⟨f, hf, it, hit, hk⟩ := (trips_iff gok (ok m hm) hi).mpr ⟨lt k t ht, n1⟩
    obtain ⟨f', hf', it', hit', hk'⟩ := (trips_iff gok (ok m' hm') hi').mpr ⟨lt k' t' ht', n2⟩
    have hk2 : k' ∈ it.trips := hL.apart (it.leaf enc) (it'.leaf enc) (leafOf m hm its hi hr f hf it hit) (leafOf m' hm' its' hi' hr' f' hf' it' hit')
      k k' hk hk' t t' ht ht' u hu u' hu' e1 e2 e3
    have n3 := ((trips_iff gok (ok m hm) hi).mp ⟨f, hf, it, hit, hk2⟩).2
    obtain ⟨fs, hfs, hgood, _, h2⟩ := nodes_ok (ok m hm) (hst m hm)
    obtain ⟨g, hg, tr, htr, j, e⟩ := (items_nodes hfs hi).1 f hf it hit
    rw [e] at hk hk2
    have hgd := hgood g hg tr htr
    have hj : j < tr.nds.length := by
      obtain ⟨ops, log, h⟩ := hgd
      obtain ⟨I, _⟩ := Router.history_facts m.c.toEnv (ok m hm).near ops h
      have hk := hk
      rw [I.ndTrips j] at hk
      obtain ⟨x, hx, _⟩ := List.mem_map.mp hk
      obtain ⟨hx1, hx2⟩ := List.mem_filter.mp hx
      have e : x.2 = j := by simpa using hx2
      rw [← e]
      exact I.lt _ hx1
    have inF : ∀ x ∈ tr.ndTrips j, x ∈ Trie.filings tr := fun x hx => List.mem_flatMap.mpr ⟨j, List.mem_range.mpr hj, hx⟩
    exact ⟨m, hm, n1, n3, h2 g hg tr htr k (inF k hk) k' (inF k' hk2), node_names (ok m hm).near hgd hk hk2 n1.2.1 n3.2.1⟩

/-- **C97 (with `--drop-shapes`).** Under the conditions of C87, whatever the schedules: in the output, trips that ask for the same line have the same
shape, and trips with a new shape share it only if they were matched together and have the same stops. -/
theorem C97_drop_partial [DecidableEq E] {geo : Geo Pt} {pt : List Pt → Rat → Pt} (gok : GeoOk geo pt) (w : Widths) (hw : 0 < w.lat + w.lng + w.dist)
    (mt : Matching) (e : Content.Env A' B' X (Shapes.Row ⊕ (StRow (List Nat) S' ⊕ Y))) (he : EnvOk e)
    (i : Tables A' B' X (Shapes.Row ⊕ (StRow (List Nat) S' ⊕ Y))) (v : Content.Valid i) (hne : ∀ t ∈ i.trips, t.id ≠ []) (src : List Shapes.Row)
    (hi : Result.RefsOk i.trips src) (enc : ShpPt Pt → Shapes.Point) (encD : Rat → List Nat) (ms : List (Mode E C Pt D S P A))
    (ok : ∀ m ∈ ms, ModeOk m i.trips.length) (hstart : ∀ m ∈ ms, Starts m.c i.trips.length) (henc : EncOk geo enc encD w i.trips.length ms)
    (hsp : Spread geo mt.noColor i.trips.length ms)
    (hap : Apart ms) (hnew : ∀ m ∈ ms, ∀ (k : Nat) t, i.trips[k]? = some t → needsShape m.c k → ∀ ty x, t.shape ≠ Shapes.shapeId ty x)
    (rows : List (StRow (List Nat) S')) (hs : SmallSeqs rows) (ts0 : List (List (StopTime (List Nat)))) (hr : readTimes i.trips rows = some ts0)
    (hst : StopsOk ms i.trips rows) (limit : Nat) (atomicDec : Bool) :
    ∃ rs, mruns geo enc encD i.trips.length ms = some rs ∧ (Done limit atomicDec i.trips.length (rs.map (·.run)) (start i.trips src) →
      ∃ ts f, allTimes limit atomicDec i.trips.length rs (start i.trips src) ts0 = some ts ∧
      write mt e w limit i rs (allRuns limit atomicDec i.trips.length (rs.map (·.run)) (start i.trips src)) ts = some f ∧
      ∀ (c : Cfg) (fs : FS (DRow A' B' (List Nat) S' X Y)), Paths c → NoTmpZip c fs → Out.Input c fs .shapes (src.map shapeRow) →
      HasInput c fs .stopTimes (rows.map stRow) →
      ∀ as : List Act, .wrErr ∉ as → (Out.run c (Out.init fs (Out.jobs f)) as).phase = .done →
        ∃ trips', Out.HasOutput c (Out.run c (Out.init fs (Out.jobs f)) as).fs .trips (.header .trips :: trips'.map .trip) ∧
          Shared ms i.trips trips') := by
  obtain ⟨rs, hrs, h⟩ := Build.C87_drop_partial gok w hw mt e he i v hne src hi enc encD ms ok henc hsp hap hnew rows hs ts0 hr hst limit atomicDec
  refine ⟨rs, hrs, fun hd => ?_⟩
  obtain ⟨ts, f, h1, h2, h3⟩ := h hd
  refine ⟨ts, f, h1, h2, fun c fs p1 p2 p3 p4 as p5 p6 => ?_⟩
  obtain ⟨trips', out, rows', O, _⟩ := h3 c fs p1 p2 p3 p4 as p5 p6
  exact ⟨trips', O.trips, shared_of gok ok hstart (runs_ok hrs) rfl O.lines⟩

/-- **C97 (without `--drop-shapes`).** Modes need not be apart, and shapes of the input may have any id. -/
theorem C97_no_drop_partial [DecidableEq E] {geo : Geo Pt} {pt : List Pt → Rat → Pt} (gok : GeoOk geo pt) (w : Widths)
    (hw : 0 < w.lat + w.lng + w.dist) (mt : Matching) (e : Content.Env A' B' X (Shapes.Row ⊕ (StRow (List Nat) S' ⊕ Y))) (he : EnvOk e)
    (i : Tables A' B' X (Shapes.Row ⊕ (StRow (List Nat) S' ⊕ Y))) (v : Content.Valid i) (hne : ∀ t ∈ i.trips, t.id ≠ []) (src : List Shapes.Row)
    (hi : Result.RefsOk i.trips src) (enc : ShpPt Pt → Shapes.Point) (encD : Rat → List Nat) (ms : List (Mode E C Pt D S P A))
    (ok : ∀ m ∈ ms, ModeOk m i.trips.length) (hstart : ∀ m ∈ ms, Starts m.c i.trips.length) (henc : EncOk geo enc encD w i.trips.length ms)
    (hsp : Spread geo mt.noColor i.trips.length ms) (hdrop : ∀ m ∈ ms, m.c.dropShapes = false)
    (rows : List (StRow (List Nat) S')) (hs : SmallSeqs rows) (ts0 : List (List (StopTime (List Nat)))) (hr : readTimes i.trips rows = some ts0)
    (hst : StopsOk ms i.trips rows) (limit : Nat) (atomicDec : Bool) :
    ∃ rs, mruns geo enc encD i.trips.length ms = some rs ∧ (Done limit atomicDec i.trips.length (rs.map (·.run)) (start i.trips src) →
      Follows limit atomicDec i.trips.length ms rs (start i.trips src) →
      ∃ ts f, allTimes limit atomicDec i.trips.length rs (start i.trips src) ts0 = some ts ∧
      write mt e w limit i rs (allRuns limit atomicDec i.trips.length (rs.map (·.run)) (start i.trips src)) ts = some f ∧
      ∀ (c : Cfg) (fs : FS (DRow A' B' (List Nat) S' X Y)), Paths c → NoTmpZip c fs → Out.Input c fs .shapes (src.map shapeRow) →
      HasInput c fs .stopTimes (rows.map stRow) →
      ∀ as : List Act, .wrErr ∉ as → (Out.run c (Out.init fs (Out.jobs f)) as).phase = .done →
        ∃ trips', Out.HasOutput c (Out.run c (Out.init fs (Out.jobs f)) as).fs .trips (.header .trips :: trips'.map .trip) ∧
          Shared ms i.trips trips') := by
  obtain ⟨rs, hrs, h⟩ := Build.C87_no_drop_partial gok w hw mt e he i v hne src hi enc encD ms ok henc hsp hdrop rows hs ts0 hr hst limit atomicDec
  refine ⟨rs, hrs, fun hd hf => ?_⟩
  obtain ⟨ts, f, h1, h2, h3⟩ := h hd hf
  refine ⟨ts, f, h1, h2, fun c fs p1 p2 p3 p4 as p5 p6 => ?_⟩
  obtain ⟨trips', out, rows', O, _⟩ := h3 c fs p1 p2 p3 p4 as p5 p6
  exact ⟨trips', O.trips, shared_of gok ok hstart (runs_ok hrs) rfl O.lines⟩

end Verif.Share
