import Verif.Visit.Lemmas
import Verif.Single.Props

/-!
# Candidates of stops on the map of an OSM file (property C90)
-/

namespace Verif.Visit
open Verif.Trie (Trie needsShape)
open Verif.Router (Ecm HopEnd)
open Verif.Line (Pos LHop Geo GeoOk ShpPt At)
open Verif.Shapes (Widths)
open Verif.Content (Tables TripRow Matching EnvOk)
open Verif.Result (Done allRuns start shapeRow rowsOf)
open Verif.Dists (DRow SmallSeqs allTimes readTimes write stRow)
open Verif.Out (Cfg FS Act Paths NoTmpZip HasInput StRow StopTime)
open Verif.Build (EncOk Spread Apart StopsOk mruns Follows Matched Serves)
open Verif.Tour (Town FileOk DriveOk TownOk Tours)

variable {C P P' S T D A X S' Y A' B' : Type}

/-- **C90 (candidates).** On the graph of an OSM file the candidates of a stop are never undefined. The first one is the stop itself; the others are on
edges of the graph, and all are places for the stop. -/
theorem C90_candidates_partial [DecidableEq P] {x : Site P S T D C P' A} (ok : FileOk x.town) (lk : LookOk x) (name platform : String) (pos : P') :
    ∃ l c cs, Cand.getEdgCands x.look.graph x.look.o (x.look.ask name platform pos) = some l ∧ l.map x.look.conv = c :: cs ∧
      (c.e = none ∧ c.x.point = (x.look.ask name platform pos).pos) ∧ (∀ d ∈ cs, ∃ e, d.e = some e ∧ e < x.town.graph.es.length) ∧
      (∀ d ∈ c :: cs, 0 ≤ d.x.progr ∧ d.x.progr ≤ 1) ∧
      ∀ d ∈ cs, ∀ e, d.e = some e → ∀ t, Place x name platform pos (.onEdge e (d.x, t)) := by
  obtain ⟨⟨l, h1, h2⟩, ⟨cs, h3, h4⟩, h5, h6, h7⟩ := cands_ok ok lk name platform pos
  refine ⟨l, _, cs, h1, h2 ▸ h3, ⟨rfl, rfl⟩, fun d hd => ?_, fun d hd => h5 d (h3 ▸ hd), fun d hd e he t => ?_⟩
  · cases he : d.e with
    | none => exact absurd he (h4 d hd)
    | some e => exact ⟨e, rfl, h6 d (h3 ▸ List.mem_cons_of_mem _ hd) e he⟩
  · have := h7 d (h3 ▸ List.mem_cons_of_mem _ hd) t
    unfold endAt at this
    rw [he] at this
    exact this

/-- **C90 (conditions).** With these candidates the conditions of C88 on candidates hold. -/
theorem C90_town_partial [DecidableEq P] {x : Site P S T D C P' A} {n : Nat} (ok : SiteOk x n) : TownOk x.seen n := townOk_of ok

/-- **C90 (stops).** What C88 finds for a trip goes, hop by hop, from a place for each stop to a place for the next one. -/
theorem C90_visits_partial [DecidableEq P] {x : Site P S T D C P' A} {n : Nat} (ok : SiteOk x n) (k : Nat) (hops : List (LHop Nat P))
    (h : Tours x.seen n k hops) : Visits x k hops := visits_tours ok h

/-- **C90 (distance).** The point of a place for a stop is the position of the stop, or not further away from it than is permitted. -/
theorem C90_close_partial [DecidableEq P] {geo : Geo P} {pt : List P → Rat → P} (gok : GeoOk geo pt) {far : P' → P → Rat} {x : Site P S T D C P' A}
    (ok : FileOk x.town) (lk : LookOk x) (fk : FarOk pt far x) (s : Trie.StopTime P') (h : HopEnd Nat (Pos P × Int)) (p : P) (hs : PlaceFor x s h)
    (hp : At pt (Tour.mapOf x.town.graph) h p) : Close far x s p := close_of gok ok lk fk hs hp

theorem allPass_of [DecidableEq P] {geo : Geo P} {pt : List P → Rat → P} (gok : GeoOk geo pt) {far : P' → P → Rat} {xs : List (Site P S T D C P' A)}
    {n : Nat} (ok : ∀ x ∈ xs, SiteOk x n) (fk : ∀ x ∈ xs, FarOk pt far x) {encD : Rat → List Nat} {isAt : Shapes.Row → P → Prop}
    {trips trips' : List (TripRow X)} {src out : List Shapes.Row} {rows rows' : List (StRow (List Nat) S')}
    (h : Matched pt encD isAt (fun m k hops => Serves m n k hops) ((xs.map Site.seen).map Town.mode) trips src rows trips' out rows') :
    AllPass far isAt xs trips trips' out rows' := by
  intro x hx k t ht hk t' ht' e
  obtain ⟨hops, h1, h2⟩ := h.new x.seen.mode (List.mem_map_of_mem (List.mem_map_of_mem hx)) k t ht hk
  have ht := (Tour.C88_map_partial (townOk_of (ok x hx))).2 k hops hk h1
  exact passes_of gok (ok x hx).toFileOk (ok x hx).toLookOk (fk x hx) hk.2.1 (visits_tours (ok x hx) ht) (h2 t' ht' e)

theorem seen_ok [DecidableEq P] {xs : List (Site P S T D C P' A)} {n : Nat} (ok : ∀ x ∈ xs, SiteOk x n) : ∀ q ∈ xs.map Site.seen, TownOk q n := by
  intro q hq
  obtain ⟨x, hx, rfl⟩ := List.mem_map.mp hq
  exact townOk_of (ok x hx)

theorem way_of [DecidableEq P] {xs : List (Site P S T D C P' A)} {n : Nat} (ok : ∀ x ∈ xs, SiteOk x n) : ∀ m ∈ (xs.map Site.seen).map Town.mode, ∀ k,
    needsShape m.c k → ∀ hops, Serves m n k hops → ∃ x ∈ xs, x.seen.mode = m ∧ Tours x.seen n k hops ∧ Visits x k hops := by
  intro m hm k hk hops h
  obtain ⟨q, hq, rfl⟩ := List.mem_map.mp hm
  obtain ⟨x, hx, rfl⟩ := List.mem_map.mp hq
  have ht := (Tour.C88_map_partial (townOk_of (ok x hx))).2 k hops hk h
  exact ⟨x, hx, rfl, ht, visits_tours (ok x hx) ht⟩

/-- **C90 (with `--drop-shapes`).** From the feed and the OSM file to the output, with the candidates that the program computes: the claims of C88 hold, the
journeys go from a place for each stop to a place for the next one, and each stop has the distance of a point of the shape that is close to it. -/
theorem C90_drop_partial [DecidableEq P] {geo : Geo P} {pt : List P → Rat → P} (gok : GeoOk geo pt) (w : Widths) (hw : 0 < w.lat + w.lng + w.dist)
    (mt : Matching) (e : Content.Env A' B' X (Shapes.Row ⊕ (StRow (List Nat) S' ⊕ Y))) (he : EnvOk e)
    (i : Tables A' B' X (Shapes.Row ⊕ (StRow (List Nat) S' ⊕ Y))) (v : Content.Valid i) (hne : ∀ t ∈ i.trips, t.id ≠ []) (src : List Shapes.Row)
    (hi : Result.RefsOk i.trips src) (enc : ShpPt P → Shapes.Point) (encD : Rat → List Nat) (xs : List (Site P S T D C P' A))
    {far : P' → P → Rat} (fk : ∀ x ∈ xs, FarOk pt far x)
    (ok : ∀ x ∈ xs, SiteOk x i.trips.length) (henc : EncOk geo enc encD w i.trips.length ((xs.map Site.seen).map Town.mode)) (hsp : Spread geo mt.noColor i.trips.length ((xs.map Site.seen).map Town.mode))
    (hap : Apart ((xs.map Site.seen).map Town.mode)) (hnew : ∀ x ∈ xs, ∀ (k : Nat) t, i.trips[k]? = some t → needsShape x.town.m.c k → ∀ ty y, t.shape ≠ Shapes.shapeId ty y)
    (rows : List (StRow (List Nat) S')) (hs : SmallSeqs rows) (ts0 : List (List (StopTime (List Nat)))) (hr : readTimes i.trips rows = some ts0)
    (hst : StopsOk ((xs.map Site.seen).map Town.mode) i.trips rows) (limit : Nat) (atomicDec : Bool) :
    ∃ rs, mruns geo enc encD i.trips.length ((xs.map Site.seen).map Town.mode) = some rs ∧ (Done limit atomicDec i.trips.length (rs.map (·.run)) (start i.trips src) →
      ∃ ts f, allTimes limit atomicDec i.trips.length rs (start i.trips src) ts0 = some ts ∧
      write mt e w limit i rs (allRuns limit atomicDec i.trips.length (rs.map (·.run)) (start i.trips src)) ts = some f ∧
      ∀ (c : Cfg) (fs : FS (DRow A' B' (List Nat) S' X Y)), Paths c → NoTmpZip c fs → Out.Input c fs .shapes (src.map shapeRow) →
      HasInput c fs .stopTimes (rows.map stRow) →
      ∀ as : List Act, .wrErr ∉ as → (Out.run c (Out.init fs (Out.jobs f)) as).phase = .done →
        ∃ trips' out rows', Dists.Output c (Out.run c (Out.init fs (Out.jobs f)) as).fs (atomicDec = true) i rs src rows trips' out rows' ∧
          Matched pt encD (fun s p => ∃ q : ShpPt P, s.pt = enc q ∧ q.p = p) (fun m k hops => ∃ x ∈ xs, x.seen.mode = m ∧ Tours x.seen i.trips.length k hops ∧ Visits x k hops)
            ((xs.map Site.seen).map Town.mode) i.trips src rows trips' out rows' ∧
          AllPass far (fun s p => ∃ q : ShpPt P, s.pt = enc q ∧ q.p = p) xs i.trips trips' out rows') := by
  obtain ⟨rs, h1, h2⟩ := Build.C87_drop_partial gok w hw mt e he i v hne src hi enc encD ((xs.map Site.seen).map Town.mode) (Tour.modes_ok (seen_ok ok)) henc hsp hap
    (fun m hm => by
      obtain ⟨q, hq, rfl⟩ := List.mem_map.mp hm
      obtain ⟨x, hx, rfl⟩ := List.mem_map.mp hq
      exact hnew x hx) rows hs ts0 hr hst limit atomicDec
  refine ⟨rs, h1, fun hd => ?_⟩
  obtain ⟨ts, f, k1, k2, k3⟩ := h2 hd
  refine ⟨ts, f, k1, k2, fun c fs p1 p2 p3 p4 as p5 p6 => ?_⟩
  obtain ⟨trips', out, rows', O, M⟩ := k3 c fs p1 p2 p3 p4 as p5 p6
  exact ⟨trips', out, rows', O, Tour.matched_mono M (way_of ok), allPass_of gok ok fk M⟩

/-- **C90 (without `--drop-shapes`).** Modes need not be apart, and shapes of the input may have any id. -/
theorem C90_no_drop_partial [DecidableEq P] {geo : Geo P} {pt : List P → Rat → P} (gok : GeoOk geo pt) (w : Widths)
    (hw : 0 < w.lat + w.lng + w.dist) (mt : Matching) (e : Content.Env A' B' X (Shapes.Row ⊕ (StRow (List Nat) S' ⊕ Y))) (he : EnvOk e)
    (i : Tables A' B' X (Shapes.Row ⊕ (StRow (List Nat) S' ⊕ Y))) (v : Content.Valid i) (hne : ∀ t ∈ i.trips, t.id ≠ []) (src : List Shapes.Row)
    (hi : Result.RefsOk i.trips src) (enc : ShpPt P → Shapes.Point) (encD : Rat → List Nat) (xs : List (Site P S T D C P' A))
    {far : P' → P → Rat} (fk : ∀ x ∈ xs, FarOk pt far x)
    (ok : ∀ x ∈ xs, SiteOk x i.trips.length) (henc : EncOk geo enc encD w i.trips.length ((xs.map Site.seen).map Town.mode)) (hsp : Spread geo mt.noColor i.trips.length ((xs.map Site.seen).map Town.mode))
    (hdrop : ∀ x ∈ xs, x.town.m.c.dropShapes = false)
    (rows : List (StRow (List Nat) S')) (hs : SmallSeqs rows) (ts0 : List (List (StopTime (List Nat)))) (hr : readTimes i.trips rows = some ts0)
    (hst : StopsOk ((xs.map Site.seen).map Town.mode) i.trips rows) (limit : Nat) (atomicDec : Bool) :
    ∃ rs, mruns geo enc encD i.trips.length ((xs.map Site.seen).map Town.mode) = some rs ∧ (Done limit atomicDec i.trips.length (rs.map (·.run)) (start i.trips src) →
      Follows limit atomicDec i.trips.length ((xs.map Site.seen).map Town.mode) rs (start i.trips src) →
      ∃ ts f, allTimes limit atomicDec i.trips.length rs (start i.trips src) ts0 = some ts ∧
      write mt e w limit i rs (allRuns limit atomicDec i.trips.length (rs.map (·.run)) (start i.trips src)) ts = some f ∧
      ∀ (c : Cfg) (fs : FS (DRow A' B' (List Nat) S' X Y)), Paths c → NoTmpZip c fs → Out.Input c fs .shapes (src.map shapeRow) →
      HasInput c fs .stopTimes (rows.map stRow) →
      ∀ as : List Act, .wrErr ∉ as → (Out.run c (Out.init fs (Out.jobs f)) as).phase = .done →
        ∃ trips' out rows', Dists.Output c (Out.run c (Out.init fs (Out.jobs f)) as).fs (atomicDec = true) i rs src rows trips' out rows' ∧
          Matched pt encD (fun s p => ∃ q : ShpPt P, s.pt = enc q ∧ q.p = p) (fun m k hops => ∃ x ∈ xs, x.seen.mode = m ∧ Tours x.seen i.trips.length k hops ∧ Visits x k hops)
            ((xs.map Site.seen).map Town.mode) i.trips src rows trips' out rows' ∧
          AllPass far (fun s p => ∃ q : ShpPt P, s.pt = enc q ∧ q.p = p) xs i.trips trips' out rows') := by
  obtain ⟨rs, h1, h2⟩ := Build.C87_no_drop_partial gok w hw mt e he i v hne src hi enc encD ((xs.map Site.seen).map Town.mode) (Tour.modes_ok (seen_ok ok)) henc hsp
    (fun m hm => by
      obtain ⟨q, hq, rfl⟩ := List.mem_map.mp hm
      obtain ⟨x, hx, rfl⟩ := List.mem_map.mp hq
      exact hdrop x hx) rows hs ts0 hr hst limit atomicDec
  refine ⟨rs, h1, fun hd hfo => ?_⟩
  obtain ⟨ts, f, k1, k2, k3⟩ := h2 hd hfo
  refine ⟨ts, f, k1, k2, fun c fs p1 p2 p3 p4 as p5 p6 => ?_⟩
  obtain ⟨trips', out, rows', O, M⟩ := k3 c fs p1 p2 p3 p4 as p5 p6
  exact ⟨trips', out, rows', O, Tour.matched_mono M (way_of ok), allPass_of gok ok fk M⟩

/-- **C90 (single trip).** The same for a trip that is matched alone (C89). -/
theorem C90_single_partial [DecidableEq P] {geo : Geo P} {pt : List P → Rat → P} (gok : GeoOk geo pt) {far : P' → P → Rat} {x : Site P S T D C P' A}
    (ok : FileOk x.town) (lk : LookOk x) (fk : FarOk pt far x) (dr : DriveOk x.seen.mode0 x.seen.net (fun a => Journey.turn x.town.graph (x.town.fare a))) {k : Nat}
    (tk : Single.TripOk x.seen.mode0 x.seen.net k) :
    ∃ hops lines, Single.shapeL geo x.seen.mode none k = some lines ∧ Single.Tour x.seen k hops ∧ Visits x k hops ∧
      Single.Drawn pt x.seen.mode.map hops lines ∧
      ∀ (p : Nat) l s s', lines[p]? = some l → (x.town.m.c.stops k)[p]? = some s → (x.town.m.c.stops k)[p + 1]? = some s' →
        (∃ a, l.head? = some a ∧ Close far x s a) ∧ ∃ b, l.getLast? = some b ∧ Close far x s' b := by
  have one : Single.OneOk x.seen k := { toMapOk := mapOk_of ok lk, find := findOk_of ok lk dr, trip := tk }
  obtain ⟨hops, lines, h1, h2, h3⟩ := Single.C89_single_partial gok one
  have hv : Visits x k hops := by
    obtain ⟨_, _, _, _, _, a1, _, tr, nid, ecm, a3, a4, a5, _, top, lost, ids, cost, _, _, b3, _, _⟩ := id h2
    obtain ⟨I, _⟩ := Router.history_facts x.town.m.c.toEnv dr.near _ a3
    exact visits_of ok lk dr a3 a4 a5 b3 (I.lt _ (List.mem_singleton.mpr rfl)) a1
  refine ⟨hops, lines, h1, h2, hv, h3, fun p l s s' hl hs hs' => ?_⟩
  have hp : p < hops.reverse.length := by
    have := (List.getElem?_eq_some_iff.mp hl).1
    rw [h3.1] at this
    rwa [List.length_reverse]
  have hh : hops.reverse[p]? = some hops.reverse[p] := List.getElem?_eq_getElem hp
  obtain ⟨v1, v2⟩ := hv.2 p _ s s' hh hs hs'
  obtain ⟨⟨a, b, q1, q2, q3, q4, _⟩, _⟩ := h3.2 p _ l hh hl
  exact ⟨⟨a, q3, close_of gok ok lk fk v1 q1⟩, b, q4, close_of gok ok lk fk v2 q2⟩

end Verif.Visit
