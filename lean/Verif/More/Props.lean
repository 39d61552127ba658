import Verif.More.Lemmas

/-!
# Further trips do not change the shapes of the others (property C100)
-/

namespace Verif.More
open Verif.Shapes (Widths)
open Verif.Trie (needsShape)
open Verif.Line (Geo GeoOk ShpPt)
open Verif.Content (Tables TripRow Matching EnvOk)
open Verif.Result (Done allRuns start shapeRow)
open Verif.Dists (MRun DRow SmallSeqs allTimes readTimes write stRow)
open Verif.Out (Cfg FS Act Paths NoTmpZip HasInput HasOutput StRow StopTime)
open Verif.Build (Mode ModeOk mruns Spread EncOk Apart StopsOk Follows)
open Verif.Threads (LikeAll Files)

variable {E C Pt D S P A X S' Y A' B' : Type}

/-- **C100 (with `--drop-shapes`).** The feed `i'` has the trips of `i` and then further ones, with other routing attributes. For the same map and
configuration, any threads and schedules and any runs of the writer that end without a write error: the trips of `i` that need a shape get the same line
in both outputs, share their shapes in the same way, and have the same distances at their stops; those that
need none keep theirs in both. -/
theorem C100_drop_partial [DecidableEq E] {geo : Geo Pt} {pt : List Pt → Rat → Pt} (gok : GeoOk geo pt) (w : Widths) (hw : 0 < w.lat + w.lng + w.dist)
    (mt : Matching) (e e' : Content.Env A' B' X (Shapes.Row ⊕ (StRow (List Nat) S' ⊕ Y))) (he : EnvOk e) (he' : EnvOk e')
    (i i' : Tables A' B' X (Shapes.Row ⊕ (StRow (List Nat) S' ⊕ Y))) (v : Content.Valid i) (v' : Content.Valid i') (more : List (TripRow X))
    (hmore : i'.trips = i.trips ++ more) (hne : ∀ t ∈ i'.trips, t.id ≠ []) (src src' : List Shapes.Row)
    (hi : Result.RefsOk i.trips src) (hi' : Result.RefsOk i'.trips src') (enc : ShpPt Pt → Shapes.Point) (encD : Rat → List Nat)
    (ms ms' : List (Mode E C Pt D S P A)) (hl : LikeAll ms ms') (ho : Others i.trips.length i'.trips.length ms)
    (ok : ∀ m ∈ ms, ModeOk m i.trips.length) (ok' : ∀ m ∈ ms', ModeOk m i'.trips.length) (henc : EncOk geo enc encD w i.trips.length ms)
    (henc' : EncOk geo enc encD w i'.trips.length ms') (hsp : Spread geo mt.noColor i.trips.length ms) (hsp' : Spread geo mt.noColor i'.trips.length ms')
    (hap : Apart ms) (hnew : ∀ m ∈ ms, ∀ (k : Nat) t, i'.trips[k]? = some t → needsShape m.c k → ∀ ty x, t.shape ≠ Shapes.shapeId ty x)
    (rows rows' : List (StRow (List Nat) S')) (hs : SmallSeqs rows) (hs' : SmallSeqs rows') (ts0 ts0' : List (List (StopTime (List Nat))))
    (hr : readTimes i.trips rows = some ts0) (hr' : readTimes i'.trips rows' = some ts0') (hst : StopsOk ms i.trips rows)
    (hst' : StopsOk ms' i'.trips rows') (limit : Nat) (a a' : Bool) :
    ∃ rs rs', mruns geo enc encD i.trips.length ms = some rs ∧ mruns geo enc encD i'.trips.length ms' = some rs' ∧
      (Done limit a i.trips.length (rs.map (·.run)) (start i.trips src) → Done limit a' i'.trips.length (rs'.map (·.run)) (start i'.trips src') →
      ∃ ts f ts' f', allTimes limit a i.trips.length rs (start i.trips src) ts0 = some ts ∧
      write mt e w limit i rs (allRuns limit a i.trips.length (rs.map (·.run)) (start i.trips src)) ts = some f ∧
      allTimes limit a' i'.trips.length rs' (start i'.trips src') ts0' = some ts' ∧
      write mt e' w limit i' rs' (allRuns limit a' i'.trips.length (rs'.map (·.run)) (start i'.trips src')) ts' = some f' ∧
      ∀ (c c' : Cfg) (fs fs' : FS (DRow A' B' (List Nat) S' X Y)), Paths c → NoTmpZip c fs → Out.Input c fs .shapes (src.map shapeRow) →
      HasInput c fs .stopTimes (rows.map stRow) → Paths c' → NoTmpZip c' fs' → Out.Input c' fs' .shapes (src'.map shapeRow) →
      HasInput c' fs' .stopTimes (rows'.map stRow) →
      ∀ as as' : List Act, .wrErr ∉ as → (Out.run c (Out.init fs (Out.jobs f)) as).phase = .done →
        .wrErr ∉ as' → (Out.run c' (Out.init fs' (Out.jobs f')) as').phase = .done →
        ∃ trips1 out1 rows1 trips2 out2 rows2, Files c (Out.run c (Out.init fs (Out.jobs f)) as).fs trips1 out1 rows1 ∧
          Files c' (Out.run c' (Out.init fs' (Out.jobs f')) as').fs trips2 out2 rows2 ∧ Keeps ms i.trips trips1 trips2 src src' out1 out2 rows rows' rows1 rows2) := by
  have hlen : i.trips.length ≤ i'.trips.length := by rw [hmore, List.length_append]; omega
  have hg : ∀ (k : Nat) t, i.trips[k]? = some t → i'.trips[k]? = some t := by
    intro k t h
    rw [hmore, List.getElem?_append_left (List.getElem?_eq_some_iff.mp h).1]
    exact h
  have hne1 : ∀ t ∈ i.trips, t.id ≠ [] := fun t ht => hne t (by rw [hmore]; exact List.mem_append_left _ ht)
  have hnew' : ∀ m ∈ ms', ∀ (k : Nat) t, i'.trips[k]? = some t → needsShape m.c k → ∀ ty x, t.shape ≠ Shapes.shapeId ty x := by
    intro m hm
    obtain ⟨y, hy, e⟩ := hl.mem m hm
    rw [e.c]
    exact hnew y hy
  obtain ⟨rs, hrs, h⟩ := Build.C87_drop_partial gok w hw mt e he i v hne1 src hi enc encD ms ok henc hsp hap (fun m hm k t ht => hnew m hm k t (hg k t ht)) rows hs ts0 hr hst limit a
  obtain ⟨rs', hrs', h'⟩ := Build.C87_drop_partial gok w hw mt e' he' i' v' hne src' hi' enc encD ms' ok' henc' hsp' (Threads.apart_like hl hap) hnew'
    rows' hs' ts0' hr' hst' limit a'
  refine ⟨rs, rs', hrs, hrs', fun hd hd' => ?_⟩
  obtain ⟨ts, f, h1, h2, h3⟩ := h hd
  obtain ⟨ts', f', h1', h2', h3'⟩ := h' hd'
  refine ⟨ts, f, ts', f', h1, h2, h1', h2', fun c c' fs fs' p1 p2 p3 p4 q1 q2 q3 q4 as as' p5 p6 q5 q6 => ?_⟩
  obtain ⟨trips1, out1, rows1, O, _⟩ := h3 c fs p1 p2 p3 p4 as p5 p6
  obtain ⟨trips2, out2, rows2, O', _⟩ := h3' c' fs' q1 q2 q3 q4 as' q5 q6
  have hk' : ∀ k, k < i.trips.length → (∃ j ∈ (rs'.map (·.run)).flatMap (·.jobs), ∃ l ∈ j, k ∈ l.trips) → ∃ m ∈ ms, needsShape m.c k := by
    intro k hk hx
    obtain ⟨m', hm', h⟩ := (Threads.needs_iff gok ok' hrs' k (by omega)).mpr hx
    obtain ⟨m, hm, e⟩ := hl.mem m' hm'
    exact ⟨m, hm, by rw [← e.c]; exact h⟩
  exact ⟨trips1, out1, rows1, trips2, out2, rows2, ⟨O.trips, O.shapes, O.times⟩, ⟨O'.trips, O'.shapes, O'.times⟩,
    keeps_of (Threads.needs_iff gok ok hrs) hk' (fun _ => leafs_more hlen hl ok ok' ho hrs hrs') hg
      (fun _ => given_more gok hlen hl ok ok' ho hrs hrs') O.measured O'.measured O.lines O'.lines⟩

/-- **C100 (without `--drop-shapes`).** -/
theorem C100_no_drop_partial [DecidableEq E] {geo : Geo Pt} {pt : List Pt → Rat → Pt} (gok : GeoOk geo pt) (w : Widths) (hw : 0 < w.lat + w.lng + w.dist)
    (mt : Matching) (e e' : Content.Env A' B' X (Shapes.Row ⊕ (StRow (List Nat) S' ⊕ Y))) (he : EnvOk e) (he' : EnvOk e')
    (i i' : Tables A' B' X (Shapes.Row ⊕ (StRow (List Nat) S' ⊕ Y))) (v : Content.Valid i) (v' : Content.Valid i') (more : List (TripRow X))
    (hmore : i'.trips = i.trips ++ more) (hne : ∀ t ∈ i'.trips, t.id ≠ []) (src src' : List Shapes.Row)
    (hi : Result.RefsOk i.trips src) (hi' : Result.RefsOk i'.trips src') (enc : ShpPt Pt → Shapes.Point) (encD : Rat → List Nat)
    (ms ms' : List (Mode E C Pt D S P A)) (hl : LikeAll ms ms') (ho : Others i.trips.length i'.trips.length ms)
    (ok : ∀ m ∈ ms, ModeOk m i.trips.length) (ok' : ∀ m ∈ ms', ModeOk m i'.trips.length) (henc : EncOk geo enc encD w i.trips.length ms)
    (henc' : EncOk geo enc encD w i'.trips.length ms') (hsp : Spread geo mt.noColor i.trips.length ms) (hsp' : Spread geo mt.noColor i'.trips.length ms')
    (hdrop : ∀ m ∈ ms, m.c.dropShapes = false)
    (rows rows' : List (StRow (List Nat) S')) (hs : SmallSeqs rows) (hs' : SmallSeqs rows') (ts0 ts0' : List (List (StopTime (List Nat))))
    (hr : readTimes i.trips rows = some ts0) (hr' : readTimes i'.trips rows' = some ts0') (hst : StopsOk ms i.trips rows)
    (hst' : StopsOk ms' i'.trips rows') (limit : Nat) (a a' : Bool) :
    ∃ rs rs', mruns geo enc encD i.trips.length ms = some rs ∧ mruns geo enc encD i'.trips.length ms' = some rs' ∧
      (Done limit a i.trips.length (rs.map (·.run)) (start i.trips src) → Done limit a' i'.trips.length (rs'.map (·.run)) (start i'.trips src') →
      Follows limit a i.trips.length ms rs (start i.trips src) → Follows limit a' i'.trips.length ms' rs' (start i'.trips src') →
      ∃ ts f ts' f', allTimes limit a i.trips.length rs (start i.trips src) ts0 = some ts ∧
      write mt e w limit i rs (allRuns limit a i.trips.length (rs.map (·.run)) (start i.trips src)) ts = some f ∧
      allTimes limit a' i'.trips.length rs' (start i'.trips src') ts0' = some ts' ∧
      write mt e' w limit i' rs' (allRuns limit a' i'.trips.length (rs'.map (·.run)) (start i'.trips src')) ts' = some f' ∧
      ∀ (c c' : Cfg) (fs fs' : FS (DRow A' B' (List Nat) S' X Y)), Paths c → NoTmpZip c fs → Out.Input c fs .shapes (src.map shapeRow) →
      HasInput c fs .stopTimes (rows.map stRow) → Paths c' → NoTmpZip c' fs' → Out.Input c' fs' .shapes (src'.map shapeRow) →
      HasInput c' fs' .stopTimes (rows'.map stRow) →
      ∀ as as' : List Act, .wrErr ∉ as → (Out.run c (Out.init fs (Out.jobs f)) as).phase = .done →
        .wrErr ∉ as' → (Out.run c' (Out.init fs' (Out.jobs f')) as').phase = .done →
        ∃ trips1 out1 rows1 trips2 out2 rows2, Files c (Out.run c (Out.init fs (Out.jobs f)) as).fs trips1 out1 rows1 ∧
          Files c' (Out.run c' (Out.init fs' (Out.jobs f')) as').fs trips2 out2 rows2 ∧ Keeps ms i.trips trips1 trips2 src src' out1 out2 rows rows' rows1 rows2) := by
  have hlen : i.trips.length ≤ i'.trips.length := by rw [hmore, List.length_append]; omega
  have hg : ∀ (k : Nat) t, i.trips[k]? = some t → i'.trips[k]? = some t := by
    intro k t h
    rw [hmore, List.getElem?_append_left (List.getElem?_eq_some_iff.mp h).1]
    exact h
  have hne1 : ∀ t ∈ i.trips, t.id ≠ [] := fun t ht => hne t (by rw [hmore]; exact List.mem_append_left _ ht)
  have hdrop' : ∀ m ∈ ms', m.c.dropShapes = false := by
    intro m hm
    obtain ⟨y, hy, e⟩ := hl.mem m hm
    rw [e.c]
    exact hdrop y hy
  obtain ⟨rs, hrs, h⟩ := Build.C87_no_drop_partial gok w hw mt e he i v hne1 src hi enc encD ms ok henc hsp hdrop rows hs ts0 hr hst limit a
  obtain ⟨rs', hrs', h'⟩ := Build.C87_no_drop_partial gok w hw mt e' he' i' v' hne src' hi' enc encD ms' ok' henc' hsp' hdrop'
    rows' hs' ts0' hr' hst' limit a'
  refine ⟨rs, rs', hrs, hrs', fun hd hd' hf hf' => ?_⟩
  obtain ⟨ts, f, h1, h2, h3⟩ := h hd hf
  obtain ⟨ts', f', h1', h2', h3'⟩ := h' hd' hf'
  refine ⟨ts, f, ts', f', h1, h2, h1', h2', fun c c' fs fs' p1 p2 p3 p4 q1 q2 q3 q4 as as' p5 p6 q5 q6 => ?_⟩
  obtain ⟨trips1, out1, rows1, O, _⟩ := h3 c fs p1 p2 p3 p4 as p5 p6
  obtain ⟨trips2, out2, rows2, O', _⟩ := h3' c' fs' q1 q2 q3 q4 as' q5 q6
  have hk' : ∀ k, k < i.trips.length → (∃ j ∈ (rs'.map (·.run)).flatMap (·.jobs), ∃ l ∈ j, k ∈ l.trips) → ∃ m ∈ ms, needsShape m.c k := by
    intro k hk hx
    obtain ⟨m', hm', h⟩ := (Threads.needs_iff gok ok' hrs' k (by omega)).mpr hx
    obtain ⟨m, hm, e⟩ := hl.mem m' hm'
    exact ⟨m, hm, by rw [← e.c]; exact h⟩
  exact ⟨trips1, out1, rows1, trips2, out2, rows2, ⟨O.trips, O.shapes, O.times⟩, ⟨O'.trips, O'.shapes, O'.times⟩,
    keeps_of (Threads.needs_iff gok ok hrs) hk' (fun _ => leafs_more hlen hl ok ok' ho hrs hrs') hg
      (fun _ => given_more gok hlen hl ok ok' ho hrs hrs') O.measured O'.measured O.lines O'.lines⟩

end Verif.More
