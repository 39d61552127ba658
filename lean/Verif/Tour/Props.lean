import Verif.Tour.Lemmas

/-!
# Matching all trips of a feed on the map of an OSM file (property C88)
-/

namespace Verif.Tour
open Verif.Trie (Trie needsShape filings)
open Verif.Router (Ecm)
open Verif.Line (Pos LHop Geo GeoOk ShpPt)
open Verif.Shapes (Widths)
open Verif.Content (Tables TripRow Matching EnvOk)
open Verif.Result (Done allRuns start shapeRow)
open Verif.Dists (DRow SmallSeqs allTimes readTimes write stRow)
open Verif.Out (Cfg FS Act Paths NoTmpZip HasInput StRow StopTime)
open Verif.Build
open Verif.Full (Net)
open Verif.HopCache (Cache)

variable {C Pt P A S T D P' X S' Y A' B' : Type}

/-- **C88 (attributes).** All nodes of all tries that share a hop cache have the routing attributes of one trip, and all trips in them have equivalent
ones. -/
theorem C88_attributes {m : Mode Nat C Pt Unit (Option Cache) P A} {net : Trie Nat P A → Ecm Nat C (Pos Pt) → Net C (Pos Pt × Int)}
    {turn : A → Nat → Nat → Option Nat} {n : Nat} (ok : RunOk m net turn n) (fs : List (List (Trie Nat P A))) (hfs : cluster m n = some fs)
    (f : List (Trie Nat P A)) (hf : f ∈ fs) :
    ∃ j, j < n ∧ (∀ tr ∈ f, ∀ (i : Nat) nd, i ≠ 0 → tr.nds[i]? = some nd → nd.attrs = m.c.rAttrs j) ∧
      ∀ tr ∈ f, ∀ t ∈ filings tr, m.c.lt (m.c.rAttrs j) (m.c.rAttrs t) = false ∧ m.c.lt (m.c.rAttrs t) (m.c.rAttrs j) = false :=
  group_of ok hfs hf

/-- **C88 (cache).** Whenever a trie is routed, the records in the hop cache of its forest are true for the attributes of the forest. -/
theorem C88_cache_partial {m : Mode Nat C Pt Unit (Option Cache) P A} {net : Trie Nat P A → Ecm Nat C (Pos Pt) → Net C (Pos Pt × Int)}
    {turn : A → Nat → Nat → Option Nat} {n : Nat} (ok : NetOk m net turn n) (fs : List (List (Trie Nat P A))) (hfs : cluster m n = some fs)
    (pre post : List (Trie Nat P A)) (hf : pre ++ post ∈ fs) (a : A)
    (ha : ∀ tr ∈ pre ++ post, ∀ (i : Nat) nd, i ≠ 0 → tr.nds[i]? = some nd → nd.attrs = a) (x : Cache)
    (h : After (onNet m net) pre (some x)) : Hops.CacheOk (turn a) x :=
  after_ok ok hfs hf ha h (fun _ ht => List.mem_append_left _ ht) x rfl

/-- **C88 (network).** On any network the conditions of C87 hold, and what C87 finds for a trip is a cheapest journey in the network. -/
theorem C88_rides_partial {m : Mode Nat C Pt Unit (Option Cache) P A} {net : Trie Nat P A → Ecm Nat C (Pos Pt) → Net C (Pos Pt × Int)}
    {turn : A → Nat → Nat → Option Nat} {n : Nat} (ok : NetOk m net turn n) : ModeOk (onNet m net) n ∧
      ∀ k hops, needsShape m.c k → Serves (onNet m net) n k hops → Rides m net turn (fun _ _ _ => True) n k hops :=
  ⟨modeOk_of ok, fun _ _ hk h => rides_of ok h hk.2.1⟩

/-- **C88 (map).** On the graph of an OSM file the conditions of C87 hold, and what C87 finds for a trip is a cheapest journey on the map of the
file. -/
theorem C88_map_partial [DecidableEq P] {q : Town P S T D C P' A} {n : Nat} (ok : TownOk q n) : ModeOk q.mode n ∧
    ∀ k hops, needsShape q.m.c k → Serves q.mode n k hops → Tours q n k hops :=
  ⟨modeOk_of (netOk_of ok), fun _ _ hk h => tours_of ok (rides_of (netOk_of ok) h hk.2.1)⟩

theorem modes_ok [DecidableEq P] {qs : List (Town P S T D C P' A)} {n : Nat} (ok : ∀ q ∈ qs, TownOk q n) : ∀ m ∈ qs.map Town.mode, ModeOk m n := by
  intro m hm
  obtain ⟨q, hq, rfl⟩ := List.mem_map.mp hm
  exact (C88_map_partial (ok q hq)).1

theorem way_of [DecidableEq P] {qs : List (Town P S T D C P' A)} {n : Nat} (ok : ∀ q ∈ qs, TownOk q n) : ∀ m ∈ qs.map Town.mode, ∀ k, needsShape m.c k →
    ∀ hops, Serves m n k hops → ∃ q ∈ qs, q.mode = m ∧ Tours q n k hops := by
  intro m hm k hk hops h
  obtain ⟨q, hq, rfl⟩ := List.mem_map.mp hm
  exact ⟨q, hq, rfl, (C88_map_partial (ok q hq)).2 k hops hk h⟩

/-- **C88 (with `--drop-shapes`).** From the feed and the OSM file to the output, for any number of mode configurations, any schedules of the
threads, any distribution of the work, and any run of the writer that ends without a write error: each trip that needs a shape has one along a
cheapest journey through its stops on the map of the file, and each of its stops has the distance of a point of this shape; all other trips are
unchanged. -/
theorem C88_drop_partial [DecidableEq P] {geo : Geo P} {pt : List P → Rat → P} (gok : GeoOk geo pt) (w : Widths) (hw : 0 < w.lat + w.lng + w.dist)
    (mt : Matching) (e : Content.Env A' B' X (Shapes.Row ⊕ (StRow (List Nat) S' ⊕ Y))) (he : EnvOk e)
    (i : Tables A' B' X (Shapes.Row ⊕ (StRow (List Nat) S' ⊕ Y))) (v : Content.Valid i) (hne : ∀ t ∈ i.trips, t.id ≠ []) (src : List Shapes.Row)
    (hi : Result.RefsOk i.trips src) (enc : ShpPt P → Shapes.Point) (encD : Rat → List Nat) (qs : List (Town P S T D C P' A))
    (ok : ∀ q ∈ qs, TownOk q i.trips.length) (henc : EncOk geo enc encD w i.trips.length (qs.map Town.mode)) (hsp : Spread geo mt.noColor i.trips.length (qs.map Town.mode))
    (hap : Apart (qs.map Town.mode)) (hnew : ∀ q ∈ qs, ∀ (k : Nat) t, i.trips[k]? = some t → needsShape q.m.c k → ∀ ty x, t.shape ≠ Shapes.shapeId ty x)
    (rows : List (StRow (List Nat) S')) (hs : SmallSeqs rows) (ts0 : List (List (StopTime (List Nat)))) (hr : readTimes i.trips rows = some ts0)
    (hst : StopsOk (qs.map Town.mode) i.trips rows) (limit : Nat) (atomicDec : Bool) :
    ∃ rs, mruns geo enc encD i.trips.length (qs.map Town.mode) = some rs ∧ (Done limit atomicDec i.trips.length (rs.map (·.run)) (start i.trips src) →
      ∃ ts f, allTimes limit atomicDec i.trips.length rs (start i.trips src) ts0 = some ts ∧
      write mt e w limit i rs (allRuns limit atomicDec i.trips.length (rs.map (·.run)) (start i.trips src)) ts = some f ∧
      ∀ (c : Cfg) (fs : FS (DRow A' B' (List Nat) S' X Y)), Paths c → NoTmpZip c fs → Out.Input c fs .shapes (src.map shapeRow) →
      HasInput c fs .stopTimes (rows.map stRow) →
      ∀ as : List Act, .wrErr ∉ as → (Out.run c (Out.init fs (Out.jobs f)) as).phase = .done →
        ∃ trips' out rows', Dists.Output c (Out.run c (Out.init fs (Out.jobs f)) as).fs (atomicDec = true) i rs src rows trips' out rows' ∧
          Matched pt encD (fun s x => ∃ q : ShpPt P, s.pt = enc q ∧ q.p = x) (fun m k hops => ∃ q ∈ qs, q.mode = m ∧ Tours q i.trips.length k hops)
            (qs.map Town.mode) i.trips src rows trips' out rows') := by
  obtain ⟨rs, h1, h2⟩ := C87_drop_partial gok w hw mt e he i v hne src hi enc encD (qs.map Town.mode) (modes_ok ok) henc hsp hap
    (fun m hm => by obtain ⟨q, hq, rfl⟩ := List.mem_map.mp hm; exact hnew q hq) rows hs ts0 hr hst limit atomicDec
  refine ⟨rs, h1, fun hd => ?_⟩
  obtain ⟨ts, f, k1, k2, k3⟩ := h2 hd
  refine ⟨ts, f, k1, k2, fun c fs p1 p2 p3 p4 as p5 p6 => ?_⟩
  obtain ⟨trips', out, rows', O, M⟩ := k3 c fs p1 p2 p3 p4 as p5 p6
  exact ⟨trips', out, rows', O, matched_mono M (way_of ok)⟩

/-- **C88 (without `--drop-shapes`).** Modes need not be apart, and shapes of the input may have any id. -/
theorem C88_no_drop_partial [DecidableEq P] {geo : Geo P} {pt : List P → Rat → P} (gok : GeoOk geo pt) (w : Widths)
    (hw : 0 < w.lat + w.lng + w.dist) (mt : Matching) (e : Content.Env A' B' X (Shapes.Row ⊕ (StRow (List Nat) S' ⊕ Y))) (he : EnvOk e)
    (i : Tables A' B' X (Shapes.Row ⊕ (StRow (List Nat) S' ⊕ Y))) (v : Content.Valid i) (hne : ∀ t ∈ i.trips, t.id ≠ []) (src : List Shapes.Row)
    (hi : Result.RefsOk i.trips src) (enc : ShpPt P → Shapes.Point) (encD : Rat → List Nat) (qs : List (Town P S T D C P' A))
    (ok : ∀ q ∈ qs, TownOk q i.trips.length) (henc : EncOk geo enc encD w i.trips.length (qs.map Town.mode)) (hsp : Spread geo mt.noColor i.trips.length (qs.map Town.mode))
    (hdrop : ∀ q ∈ qs, q.m.c.dropShapes = false)
    (rows : List (StRow (List Nat) S')) (hs : SmallSeqs rows) (ts0 : List (List (StopTime (List Nat)))) (hr : readTimes i.trips rows = some ts0)
    (hst : StopsOk (qs.map Town.mode) i.trips rows) (limit : Nat) (atomicDec : Bool) :
    ∃ rs, mruns geo enc encD i.trips.length (qs.map Town.mode) = some rs ∧ (Done limit atomicDec i.trips.length (rs.map (·.run)) (start i.trips src) →
      Follows limit atomicDec i.trips.length (qs.map Town.mode) rs (start i.trips src) →
      ∃ ts f, allTimes limit atomicDec i.trips.length rs (start i.trips src) ts0 = some ts ∧
      write mt e w limit i rs (allRuns limit atomicDec i.trips.length (rs.map (·.run)) (start i.trips src)) ts = some f ∧
      ∀ (c : Cfg) (fs : FS (DRow A' B' (List Nat) S' X Y)), Paths c → NoTmpZip c fs → Out.Input c fs .shapes (src.map shapeRow) →
      HasInput c fs .stopTimes (rows.map stRow) →
      ∀ as : List Act, .wrErr ∉ as → (Out.run c (Out.init fs (Out.jobs f)) as).phase = .done →
        ∃ trips' out rows', Dists.Output c (Out.run c (Out.init fs (Out.jobs f)) as).fs (atomicDec = true) i rs src rows trips' out rows' ∧
          Matched pt encD (fun s x => ∃ q : ShpPt P, s.pt = enc q ∧ q.p = x) (fun m k hops => ∃ q ∈ qs, q.mode = m ∧ Tours q i.trips.length k hops)
            (qs.map Town.mode) i.trips src rows trips' out rows') := by
  obtain ⟨rs, h1, h2⟩ := C87_no_drop_partial gok w hw mt e he i v hne src hi enc encD (qs.map Town.mode) (modes_ok ok) henc hsp
    (fun m hm => by obtain ⟨q, hq, rfl⟩ := List.mem_map.mp hm; exact hdrop q hq) rows hs ts0 hr hst limit atomicDec
  refine ⟨rs, h1, fun hd hfo => ?_⟩
  obtain ⟨ts, f, k1, k2, k3⟩ := h2 hd hfo
  refine ⟨ts, f, k1, k2, fun c fs p1 p2 p3 p4 as p5 p6 => ?_⟩
  obtain ⟨trips', out, rows', O, M⟩ := k3 c fs p1 p2 p3 p4 as p5 p6
  exact ⟨trips', out, rows', O, matched_mono M (way_of ok)⟩

end Verif.Tour
