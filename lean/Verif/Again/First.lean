import Verif.Again.Lemmas
import Verif.Result.Service

/-!
# Running the program again: what the first run has written (lemmas)
-/

namespace Verif.Again
open Verif.Shapes (Str Widths)
open Verif.Out (Cfg FS HasOutput HasInput Paths NoTmpZip Act StRow StopTime)
open Verif.Content (Tables TripRow Matching EnvOk SameService)
open Verif.Color (Route)
open Verif.Trie (CEnv needsShape)
open Verif.Intake (Fields StopRow Wanted RowsOk rowsAt intake)
open Verif.Dists (DRow stRow MRun Measured SmallSeqs LensOk readTimes allTimes)
open Verif.Result (shapeRow Run St Done Lines RefsOk Found allRuns start Mid allLeafs ColorsOk PtsOk)

variable {A B X Y S P K Z Di : Type}

/-- What is known of the output of a run. -/
structure Sound (mt : Matching) (i : Tables A B X Z) (rs : List (MRun Di)) (exact : Prop) (src : List Shapes.Row) (rows : List (StRow Di S))
    (routes' : List (Route A)) (trips' : List (TripRow X)) (out : List Shapes.Row) (rows' : List (StRow Di S)) : Prop where
  service : SameService mt.noColor mt.writeColors i.routes routes' i.trips trips'
  named : ∀ R ∈ routes', R.id ≠ []
  lines : Lines ((rs.map (·.run)).flatMap (·.jobs)) exact i.trips trips' src out
  outNamed : ∀ r ∈ out, r.id ≠ []
  measured : Measured rs i.trips rows rows'
  text : ∀ (k : Nat) t, i.trips[k]? = some t → (∃ r ∈ rs, Touched r.run.keep r.run.threads.flatten k) → ∀ t' ∈ trips', t'.id = t.id →
    ∀ R ∈ routes', R.id = t'.route → R.color ≠ mt.noColor → R.text = mt.textColor R.color

theorem out_named {w : Widths} (hw : 0 < w.lat + w.lng + w.dist) (limit : Nat) {h : List Shapes.Op} (hg : Shapes.AllGood w h) {src : List Shapes.Row}
    (hne : ∀ r ∈ src, r.id ≠ []) : ∀ r ∈ Shapes.writeShapes w src (Shapes.exec limit h), r.id ≠ [] := by
  intro r hr
  rw [Shapes.C07_shapes_file w hw limit h hg src hne] at hr
  rcases List.mem_append.mp hr with hr | hr
  · exact hne r (List.mem_filter.mp hr).1
  · obtain ⟨s, hs, hr⟩ := List.mem_flatMap.mp hr
    have := (hg s (Shapes.accepted_mem (List.mem_filter.mp hs).1)).1.1
    obtain ⟨p, _, rfl⟩ := List.mem_map.mp hr
    exact this

theorem written_of (w : Widths) (hw : 0 < w.lat + w.lng + w.dist) (mt : Matching) (e : Content.Env A B X (Shapes.Row ⊕ (StRow Di S ⊕ Y))) (he : EnvOk e)
    (i : Tables A B X (Shapes.Row ⊕ (StRow Di S ⊕ Y))) (v : Content.Valid i) (hne : ∀ t ∈ i.trips, t.id ≠ []) (src : List Shapes.Row)
    (hi : RefsOk i.trips src) (rs : List (MRun Di)) (hm : ColorsOk (rs.map (·.run)) i.trips.length) (limit : Nat) (a : Bool) (exact : Prop)
    (hd : Done limit a i.trips.length (rs.map (·.run)) (start i.trips src))
    (hmid : Mid exact w i.trips.length (start i.trips src).shape src (allLeafs (rs.map (·.run))) (allRuns limit a i.trips.length (rs.map (·.run)) (start i.trips src)))
    (hl : (((rs.map (·.run)).flatMap (·.jobs)).flatMap fun j => j.flatMap (·.trips)).Nodup)
    (hlt : ∀ j ∈ (rs.map (·.run)).flatMap (·.jobs), ∀ l ∈ j, ∀ k ∈ l.trips, k < i.trips.length)
    (rows : List (StRow Di S)) (hs : SmallSeqs rows) (ts0 : List (List (StopTime Di))) (hr : readTimes i.trips rows = some ts0) (hlens : LensOk rs i.trips rows) :
    ∃ ts f, allTimes limit a i.trips.length rs (start i.trips src) ts0 = some ts ∧
      Dists.write mt e w limit i rs (allRuns limit a i.trips.length (rs.map (·.run)) (start i.trips src)) ts = some f ∧
      ∀ (c : Cfg) (fs : FS (DRow A B Di S X Y)), Paths c → NoTmpZip c fs → Out.Input c fs .shapes (src.map shapeRow) →
      HasInput c fs .stopTimes (rows.map stRow) →
      ∀ as : List Act, .wrErr ∉ as → (Out.run c (Out.init fs (Out.jobs f)) as).phase = .done →
        ∃ routes' trips' out rows', Written c (Out.run c (Out.init fs (Out.jobs f)) as).fs routes' trips' out rows' ∧
          Sound mt i rs exact src rows routes' trips' out rows' := by
  obtain ⟨h1, h2, h3⟩ := Dists.readTimes_ok hr
  obtain ⟨ts, e1, e2, e3, e4⟩ := Dists.allTimes_ok limit a i.trips.length rs (start i.trips src) ts0 hd (by rw [Dists.trips_eq]; exact hl) (by
    intro k ds hg
    obtain ⟨r, hr, ⟨j, hj, l, hl, hk⟩, _⟩ := id hg
    have hlt := hlt j (List.mem_flatMap.mpr ⟨r.run, List.mem_map.mpr ⟨r, hr, rfl⟩, hj⟩) l hl k hk
    obtain ⟨x, hx, _, hp⟩ := h3 k _ (List.getElem?_eq_getElem hlt)
    refine ⟨x, hx, ?_⟩
    rw [hlens k _ ds (List.getElem?_eq_getElem hlt) hg, hp.length_eq, List.length_map]
    exact Nat.le_refl _)
  obtain ⟨F, F', trows, g1, hld, g2, g3, g4⟩ := Result.write_ok (w := w) (m := mt) (e := Dists.stEnv (Dists.lookup i.trips ts) e) v hm limit
    (allRuns limit a i.trips.length (rs.map (·.run)) (start i.trips src))
  refine ⟨ts, _, e1, g1, ?_⟩
  intro c fs hc hz hin hst as ha hdone
  obtain ⟨o1, o2, _⟩ := Out.C42_memory _ c hc fs hz as ha hdone
  have o3 := Result.shapes_written hi.named c fs hc hz hin as ha hdone
  obtain ⟨rows', o4, hM⟩ := Dists.times_of (rs := rs) v hne hs hr e2 e3 e4 g1 c fs hc hz hst as ha hdone
  have pr : (e.orderR F'.routes).Perm F'.routes := he.routes _
  have ptr : (e.orderT trows).Perm trows := he.trips _
  obtain ⟨c1, c2⟩ := colorRuns_text (Result.paints (rs.map (·.run))) F F' (Content.loaded_ok v hld) (by rw [hld.len]; exact Result.paintsOk hm) g2
  refine ⟨e.orderR F'.routes, e.orderT trows, _, rows', ⟨⟨_, .refl _, o1⟩, ⟨_, .refl _, o2⟩, o3, o4⟩, ?_⟩
  have hser := Content.service_of v hld g3 g4 pr ptr
  refine ⟨hser, ?_, Result.lines_pure hw v hi hmid g4 ptr, out_named hw limit hmid.good hi.named, hM, ?_⟩
  · intro R hR
    refine c1 (fun R hR => v.named R ?_) R (pr.mem_iff.mp hR)
    rw [← hld.routes]; exact hR
  · rintro k t ht ⟨r, hr, htouch⟩ t' ht' hid R hR hRid hcol
    obtain ⟨k', hk, hk'⟩ := Content.same_place v g4 (List.mem_of_getElem? ht) (ptr.mem_iff.mp ht') hid
    obtain ⟨x, x', Q, Q', s, p1, p2, p3, p4, p5, p6, _⟩ := Content.trip_at hld g3 g4 hk
    have : k' = k := by
      have q1 : (i.trips.map (·.id))[k']? = some t.id := by rw [List.getElem?_map, hk]; rfl
      have q2 : (i.trips.map (·.id))[k]? = some t.id := by rw [List.getElem?_map, ht]; rfl
      exact (List.getElem?_inj (Content.lt_of_some q1) v.trips).mp (q1.trans q2.symm)
    subst this
    rw [hk'] at p6
    cases p6
    have hQ : R = Q' := Content.ids_unique hser.ids hR (pr.mem_iff.mpr (List.mem_of_getElem? p4)) hRid
    subst hQ
    refine c2 k' (.inr ⟨_, List.mem_map.mpr ⟨r.run, List.mem_map.mpr ⟨r, hr, rfl⟩, rfl⟩, htouch⟩) x' p2 R p4 hcol

/-! ## The output as a feed -/

theorem rowsAt_length {rs : List (MRun Di)} {trips : List (TripRow X)} {rows rows' : List (StRow Di S)} (hM : Measured rs trips rows rows')
    {t t' : TripRow X} (hid : t'.id = t.id) : (rowsAt rows' t').length = (rowsAt rows t).length := by
  have := congrArg List.length (Dists.count_map (fun r : StRow Di S => (r.trip, r.seq)) (fun y => decide (y.1 = t.id)) (Dists.measured_map hM))
  rw [List.length_map, List.length_map] at this
  unfold rowsAt
  rw [hid]
  exact this

section
variable {mt : Matching} {i : Tables A B X Z} {rs : List (MRun Di)} {exact : Prop} {src out : List Shapes.Row} {rows rows' : List (StRow Di S)}
  {routes' : List (Route A)} {trips' : List (TripRow X)}

theorem trip_of (h : Sound mt i rs exact src rows routes' trips' out rows') {t' : TripRow X} (ht' : t' ∈ trips') :
    ∃ (k : Nat) (t : TripRow X), i.trips[k]? = some t ∧ t'.id = t.id := by
  have : t'.id ∈ i.trips.map (·.id) := h.lines.same.mem_iff.mp (List.mem_map_of_mem ht')
  obtain ⟨t, ht, e⟩ := List.mem_map.mp this
  obtain ⟨k, hk⟩ := List.getElem?_of_mem ht
  exact ⟨k, t, hk, e.symm⟩

theorem trip_to (h : Sound mt i rs exact src rows routes' trips' out rows') {t : TripRow X} (ht : t ∈ i.trips) : ∃ t' ∈ trips', t'.id = t.id := by
  have : t.id ∈ trips'.map (·.id) := h.lines.same.mem_iff.mpr (List.mem_map_of_mem ht)
  obtain ⟨t', ht', e⟩ := List.mem_map.mp this
  exact ⟨t', ht', e⟩

theorem valid_again (v : Content.Valid i) (h : Sound mt i rs exact src rows routes' trips' out rows') :
    Content.Valid { i with routes := routes', trips := trips' } where
  routes := h.service.ids
  named := h.named
  trips := h.lines.same.nodup_iff.mpr v.trips
  tripRoute := by
    intro t' ht'
    obtain ⟨k, t, hk, hid⟩ := trip_of h ht'
    obtain ⟨_, _, _, R', hR', e, _⟩ := h.service.route t (List.mem_of_getElem? hk) t' ht' hid
    exact ⟨R', hR', e⟩
  fares := v.fares
  ruleFare := v.ruleFare
  ruleRoute := by
    intro r hr
    rcases v.ruleRoute r hr with e | ⟨R, hR, e⟩
    · exact .inl e
    · obtain ⟨R', hR', e', _⟩ := h.service.kept R hR
      exact .inr ⟨R', hR', e'.trans e⟩
  freqTrip := by
    intro f hf
    obtain ⟨t, ht, e⟩ := v.freqTrip f hf
    obtain ⟨t', ht', e'⟩ := trip_to h ht
    exact ⟨t', ht', e'.trans e⟩

theorem line_shape {w : Widths} (hp : PtsOk w ((rs.map (·.run)).flatMap (·.jobs))) (h : Sound mt i rs exact src rows routes' trips' out rows')
    {k : Nat} {t : TripRow X} (hk : i.trips[k]? = some t) {pts : List Shapes.Point} (hf : Found ((rs.map (·.run)).flatMap (·.jobs)) k pts)
    {t' : TripRow X} (ht' : t' ∈ trips') (hid : t'.id = t.id) : ∃ r ∈ out, r.id = t'.shape := by
  have hL := h.lines.line k t pts hk hf t' ht' hid
  obtain ⟨j, hj, l, hl, _, rfl⟩ := hf
  have hne := (hp j hj l hl).1
  cases hpts : l.pts with
  | nil => exact absurd hpts hne
  | cons p ps =>
    rw [hpts] at hL
    have : (⟨t'.shape, p, 0 + 1⟩ : Shapes.Row) ∈ Result.rowsOf out t'.shape := by
      rw [hL, List.zipIdx_cons, List.map_cons]
      exact List.mem_cons_self ..
    exact ⟨_, (List.mem_filter.mp this).1, rfl⟩

theorem refs_again {w : Widths} (hp : PtsOk w ((rs.map (·.run)).flatMap (·.jobs))) (hi : RefsOk i.trips src)
    (h : Sound mt i rs exact src rows routes' trips' out rows') : RefsOk trips' out where
  named := h.outNamed
  refs := by
    intro t' ht'
    obtain ⟨k, t, hk, hid⟩ := trip_of h ht'
    by_cases hf : ∃ pts, Found ((rs.map (·.run)).flatMap (·.jobs)) k pts
    · obtain ⟨pts, hf⟩ := hf
      exact .inr (line_shape hp h hk hf ht' hid)
    · obtain ⟨e1, e2⟩ := h.lines.old k t hk hf t' ht' hid
      rw [e1]
      rcases hi.refs t (List.mem_of_getElem? hk) with e | ⟨r, hr, e⟩
      · exact .inl e
      · have : r ∈ Result.rowsOf out t.shape := by rw [e2]; exact List.mem_filter.mpr ⟨hr, by simp [e]⟩
        exact .inr ⟨r, (List.mem_filter.mp this).1, e⟩

theorem row_from (h : Sound mt i rs exact src rows routes' trips' out rows') {r' : StRow Di S} (hr' : r' ∈ rows') :
    ∃ r ∈ rows, r'.trip = r.trip ∧ r'.seq = r.seq ∧ r'.rest = r.rest := by
  obtain ⟨p, hp⟩ := List.getElem?_of_mem hr'
  have hlt : p < rows.length := by rw [← h.measured.length]; exact Content.lt_of_some hp
  exact ⟨rows[p], List.getElem_mem hlt, h.measured.row p _ _ (List.getElem?_eq_getElem hlt) hp⟩

theorem rows_again {f : Fields A X S} {stops : List (StopRow P)} (ok : RowsOk f stops i.trips rows) (h : Sound mt i rs exact src rows routes' trips' out rows') :
    RowsOk f stops trips' rows' where
  apart := by
    have := ok.apart
    have e := Dists.measured_map h.measured
    have k1 : (rows.map fun r => (r.trip, r.seq)).Pairwise fun x y => x.1 = y.1 → x.2 ≠ y.2 := by rw [List.pairwise_map]; exact this
    rw [← e, List.pairwise_map] at k1
    exact k1
  trip := by
    intro r' hr'
    obtain ⟨r, hr, e, _⟩ := row_from h hr'
    obtain ⟨t, ht, e2⟩ := ok.trip r hr
    obtain ⟨t', ht', e3⟩ := trip_to h ht
    exact ⟨t', ht', by rw [e3, e2, e]⟩
  stop := by
    intro r' hr'
    obtain ⟨r, hr, _, _, e⟩ := row_from h hr'
    rw [e]
    exact ok.stop r hr

theorem small_again (hs : SmallSeqs rows) (h : Sound mt i rs exact src rows routes' trips' out rows') : SmallSeqs rows' := by
  intro r' hr'
  obtain ⟨r, hr, _, e, _⟩ := row_from h hr'
  rw [e]
  exact hs r hr

theorem wanted_again {f : Fields A X S} {c c' : CEnv Nat P K} (hc : Within c' c)
    (h : Sound mt i rs exact src rows routes' trips' out rows') {t t' : TripRow X} (ht : t ∈ i.trips) (ht' : t' ∈ trips') (hid : t'.id = t.id)
    (hw : Wanted f c' routes' rows' t') : Wanted f c i.routes rows t := by
  obtain ⟨h1, Q, hQ, hQid, h2, h3⟩ := hw
  obtain ⟨R, hR, e, R', hR', e', er, _⟩ := h.service.route t ht t' ht' hid
  have : Q = R' := Content.ids_unique h.service.ids hQ hR' (hQid.trans e'.symm)
  subst this
  rw [er] at h2 h3
  exact ⟨by rw [← rowsAt_length h.measured hid]; exact h1, R, hR, e, hc.1 _ h2, hc.2 _ h3⟩

/-- If all wanted trips have a shape or a line was found for them, and the colours of their routes were looked at, nothing is left to be done. -/
theorem complete_again {w : Widths} (hp : PtsOk w ((rs.map (·.run)).flatMap (·.jobs))) {f : Fields A X S} {c c' : CEnv Nat P K} (hc : Within c' c)
    (h : Sound mt i rs exact src rows routes' trips' out rows')
    (hall : ∀ (k : Nat) t, i.trips[k]? = some t → Wanted f c i.routes rows t → (t.shape ≠ [] ∨ ∃ pts, Found ((rs.map (·.run)).flatMap (·.jobs)) k pts) ∧
      ∃ r ∈ rs, Touched r.run.keep r.run.threads.flatten k) :
    Complete f mt.noColor mt.textColor c' routes' trips' rows' where
  shape := by
    intro t' ht' hw
    obtain ⟨k, t, hk, hid⟩ := trip_of h ht'
    obtain ⟨h1, _⟩ := hall k t hk (wanted_again hc h (List.mem_of_getElem? hk) ht' hid hw)
    by_cases hf : ∃ pts, Found ((rs.map (·.run)).flatMap (·.jobs)) k pts
    · obtain ⟨pts, hf⟩ := hf
      obtain ⟨r, hr, e⟩ := line_shape hp h hk hf ht' hid
      rw [← e]
      exact h.outNamed r hr
    · rw [(h.lines.old k t hk hf t' ht' hid).1]
      exact h1.resolve_right hf
  text := by
    intro t' ht' hw R hR hRid hcol
    obtain ⟨k, t, hk, hid⟩ := trip_of h ht'
    obtain ⟨_, h2⟩ := hall k t hk (wanted_again hc h (List.mem_of_getElem? hk) ht' hid hw)
    exact h.text k t hk h2 t' ht' hid R hR hRid hcol

end

end Verif.Again
