import Verif.Build.Lemmas
import Verif.Dists.Props

/-!
# Matching all trips of a feed (property C87)
-/

namespace Verif.Build
open Verif.Shapes (Str Widths)
open Verif.Shapes.Workers (Leaf)
open Verif.Trie (needsShape)
open Verif.Line (LHop Geo GeoOk Shp ShpPt getGtfsShape)
open Verif.Content (Tables TripRow Matching EnvOk)
open Verif.Result (St Done NewIds NoDrop LeafsOk PtsOk ColorsOk allRuns start rowsOf shapeRow Found Lines)
open Verif.Dists (MRun DRow SmallSeqs LensOk Given Measured Along allTimes readTimes write stRow)
open Verif.Out (Cfg FS Act Paths NoTmpZip HasInput StRow StopTime)

variable {E C Pt D S P A X S' Y A' B' : Type}

/-- **C87 (matching).** For each mode configuration, whatever the schedule of the clustering, lines are found without undefined behaviour for
exactly the trips that need a shape, each of them once. The hops are a cheapest way through the stops of the trip, and there is one distance
for each stop. -/
theorem C87_items [DecidableEq E] {geo : Geo Pt} {pt : List Pt → Rat → Pt} (gok : GeoOk geo pt) (m : Mode E C Pt D S P A) (n : Nat)
    (ok : ModeOk m n) : ∃ its, items geo m n = some its ∧
      (its.flatMap fun f => f.flatMap (·.trips)).Perm ((List.range n).filter fun t => decide (needsShape m.c t)) ∧
      ∀ f ∈ its, ∀ it ∈ f, it.shp.pts ≠ [] ∧ ∀ k ∈ it.trips, Serves m n k it.hops ∧ it.shp.dists.length = (m.c.stops k).length := by
  obtain ⟨its, h1, h2, h3⟩ := items_ok gok ok
  refine ⟨its, h1, h2, fun f hf it hit => ?_⟩
  obtain ⟨a, o1, o2⟩ := (h3 f hf it hit).shape
  obtain ⟨r, _, _, _, e, _, _, ⟨q, hq, _⟩, _, _, hlen, _⟩ := Line.C46_shape_partial gok (geomOk_edges a ok.geom) it.hops o1 (h3 f hf it hit).hops
  rw [o2] at e
  cases e
  refine ⟨fun e => (by rw [e] at hq; cases hq), fun k hk => ?_⟩
  have hs := (h3 f hf it hit).serves k hk
  exact ⟨hs, by rw [hlen, hs.1]⟩

/-! ## All mode configurations -/

/-- What is known of all runs. -/
structure Runs [DecidableEq E] (geo : Geo Pt) (enc : ShpPt Pt → Shapes.Point) (encD : Rat → List Nat) (n : Nat)
    (ms : List (Mode E C Pt D S P A)) (rs : List (MRun (List Nat))) : Prop where
  of : ∀ r ∈ rs, ∃ m ∈ ms, ∃ its, items geo m n = some its ∧ r = mrun enc encD m its
  to : ∀ m ∈ ms, ∃ its, items geo m n = some its ∧ mrun enc encD m its ∈ rs

theorem runs_ok [DecidableEq E] {geo : Geo Pt} {enc : ShpPt Pt → Shapes.Point} {encD : Rat → List Nat} {n : Nat} {ms : List (Mode E C Pt D S P A)}
    {rs : List (MRun (List Nat))} (h : mruns geo enc encD n ms = some rs) : Runs geo enc encD n ms rs := by
  constructor
  · intro r hr
    obtain ⟨m, hm, e⟩ := Content.collect_mem h hr
    obtain ⟨its, e1, e2⟩ := Option.map_eq_some_iff.mp e
    exact ⟨m, hm, its, e1, e2.symm⟩
  · intro m hm
    obtain ⟨k, hk⟩ := List.getElem?_of_mem hm
    obtain ⟨r, h1, h2⟩ := (Content.collect_get h).2 k m hk
    obtain ⟨its, e1, e2⟩ := Option.map_eq_some_iff.mp h2
    exact ⟨its, e1, by rw [e2]; exact List.mem_of_getElem? h1⟩

theorem mruns_some [DecidableEq E] {geo : Geo Pt} {pt : List Pt → Rat → Pt} (gok : GeoOk geo pt) (enc : ShpPt Pt → Shapes.Point)
    (encD : Rat → List Nat) {n : Nat} {ms : List (Mode E C Pt D S P A)} (ok : ∀ m ∈ ms, ModeOk m n) : ∃ rs, mruns geo enc encD n ms = some rs :=
  Content.collect_all fun m hm => by
    obtain ⟨its, h, _⟩ := items_ok gok (ok m hm)
    exact ⟨mrun enc encD m its, by rw [h]; rfl⟩

theorem leaf_iff {enc : ShpPt Pt → Shapes.Point} {encD : Rat → List Nat} {m : Mode E C Pt D S P A} {its : List (List (Item E Pt))} {l : Leaf} :
    (∃ j ∈ (mrun enc encD m its).run.jobs, l ∈ j) ↔ ∃ f ∈ its, ∃ it ∈ f, l = it.leaf enc := by
  constructor
  · rintro ⟨j, hj, hl⟩
    obtain ⟨f, hf, rfl⟩ := List.mem_map.mp hj
    obtain ⟨it, hit, rfl⟩ := List.mem_map.mp hl
    exact ⟨f, hf, it, hit, rfl⟩
  · rintro ⟨f, hf, it, hit, rfl⟩
    exact ⟨_, List.mem_map.mpr ⟨f, hf, rfl⟩, List.mem_map.mpr ⟨it, hit, rfl⟩⟩

theorem dists_of {encD : Rat → List Nat} {its : List (List (Item E Pt))} {k : Nat} (h : ∃ f ∈ its, ∃ it ∈ f, k ∈ it.trips) :
    ∃ f ∈ its, ∃ it ∈ f, k ∈ it.trips ∧ distsOf encD its k = it.shp.dists.map encD := by
  obtain ⟨f, hf, it, hit, hk⟩ := h
  cases hx : its.flatten.find? fun it => k ∈ it.trips with
  | none =>
    have := List.find?_eq_none.mp hx it (List.mem_flatten.mpr ⟨f, hf, hit⟩)
    simp [hk] at this
  | some it' =>
    obtain ⟨f', hf', hit'⟩ := List.mem_flatten.mp (List.mem_of_find?_eq_some hx)
    exact ⟨f', hf', it', hit', by simpa using List.find?_some hx, by simp only [distsOf, hx]⟩

section
variable [DecidableEq E] {geo : Geo Pt} {pt : List Pt → Rat → Pt} {enc : ShpPt Pt → Shapes.Point} {encD : Rat → List Nat} {n : Nat}
  {ms : List (Mode E C Pt D S P A)} {rs : List (MRun (List Nat))}

theorem trips_iff (gok : GeoOk geo pt) {m : Mode E C Pt D S P A} (ok : ModeOk m n) {its : List (List (Item E Pt))} (h : items geo m n = some its)
    {k : Nat} : (∃ f ∈ its, ∃ it ∈ f, k ∈ it.trips) ↔ k < n ∧ needsShape m.c k := by
  obtain ⟨its', h1, h2, _⟩ := items_ok gok ok
  rw [h] at h1; cases h1
  have := h2.mem_iff (a := k)
  simp only [List.mem_flatMap, List.mem_filter, List.mem_range, decide_eq_true_eq] at this
  exact this

theorem made_of (gok : GeoOk geo pt) {m : Mode E C Pt D S P A} (ok : ModeOk m n) {its : List (List (Item E Pt))} (h : items geo m n = some its) :
    ∀ f ∈ its, ∀ it ∈ f, Made geo m n it := by
  obtain ⟨its', h1, _, h3⟩ := items_ok gok ok
  rw [h] at h1; cases h1
  exact h3

theorem nodup_of (gok : GeoOk geo pt) {m : Mode E C Pt D S P A} (ok : ModeOk m n) {its : List (List (Item E Pt))} (h : items geo m n = some its) :
    (its.flatMap fun f => f.flatMap (·.trips)).Nodup := by
  obtain ⟨its', h1, h2, _⟩ := items_ok gok ok
  rw [h] at h1; cases h1
  exact h2.nodup_iff.mpr (List.nodup_range.filter _)

omit [DecidableEq E] in
theorem jobs_trips (m : Mode E C Pt D S P A) (its : List (List (Item E Pt))) :
    ((mrun enc encD m its).run.jobs.flatMap fun j => j.flatMap (·.trips)) = its.flatMap fun f => f.flatMap (·.trips) := by
  simp only [mrun, List.flatMap_map, Item.leaf]

theorem shp_len (gok : GeoOk geo pt) {m : Mode E C Pt D S P A} (ok : ModeOk m n) {it : Item E Pt} (h : Made geo m n it) :
    it.shp.pts ≠ [] ∧ it.shp.dists.length = it.hops.length + 1 := by
  obtain ⟨a, o1, o2⟩ := h.shape
  obtain ⟨r, _, _, _, e, _, _, ⟨q, hq, _⟩, _, _, hlen, _⟩ := Line.C46_shape_partial gok (geomOk_edges a ok.geom) it.hops o1 h.hops
  rw [o2] at e
  cases e
  exact ⟨fun e => (by rw [e] at hq; cases hq), hlen⟩

theorem lensOk_of (gok : GeoOk geo pt) (ok : ∀ m ∈ ms, ModeOk m n) (R : Runs geo enc encD n ms rs) {trips : List (TripRow X)}
    {rows : List (StRow (List Nat) S')} (hs : StopsOk ms trips rows) : LensOk rs trips rows := by
  rintro k t ds ht ⟨r, hr, ⟨j, hj, l, hl, hk⟩, rfl⟩
  obtain ⟨m, hm, its, hi, rfl⟩ := R.of r hr
  obtain ⟨f, hf, it, hit, rfl⟩ := leaf_iff.mp ⟨j, hj, hl⟩
  obtain ⟨f', hf', it', hit', hk', e⟩ := dists_of (encD := encD) ⟨f, hf, it, hit, hk⟩
  have M := made_of gok (ok m hm) hi f' hf' it' hit'
  show (distsOf encD its k).length = _
  rw [e, List.length_map, (shp_len gok (ok m hm) M).2, (M.serves k hk').1, hs m hm k t ht]

theorem ptsOk_of (gok : GeoOk geo pt) (ok : ∀ m ∈ ms, ModeOk m n) (R : Runs geo enc encD n ms rs) {w : Widths} (he : EncOk geo enc encD w n ms) :
    PtsOk w ((rs.map (·.run)).flatMap (·.jobs)) := by
  intro j hj l hl
  obtain ⟨r', hr', hj⟩ := List.mem_flatMap.mp hj
  obtain ⟨r, hr, rfl⟩ := List.mem_map.mp hr'
  obtain ⟨m, hm, its, hi, rfl⟩ := R.of r hr
  obtain ⟨f, hf, it, hit, rfl⟩ := leaf_iff.mp ⟨j, hj, hl⟩
  refine ⟨?_, ?_, ?_⟩
  · intro e
    exact (shp_len gok (ok m hm) (made_of gok (ok m hm) hi f hf it hit)).1 (List.map_eq_nil_iff.mp e)
  · simp only [Item.leaf, List.length_map]
    exact he.small m hm its hi it (List.mem_flatten.mpr ⟨f, hf, hit⟩)
  · intro p hp
    obtain ⟨q, _, rfl⟩ := List.mem_map.mp hp
    exact he.width q

theorem colorsOk_of (gok : GeoOk geo pt) (ok : ∀ m ∈ ms, ModeOk m n) (R : Runs geo enc encD n ms rs) {noColor : Nat}
    (hsp : Spread geo noColor n ms) : ColorsOk (rs.map (·.run)) n := by
  intro r' hr'
  obtain ⟨r, hr, rfl⟩ := List.mem_map.mp hr'
  obtain ⟨m, hm, its, hi, rfl⟩ := R.of r hr
  have hp := hsp m hm its hi
  show (∀ l ∈ m.threads.flatten, ∀ t ∈ l.2, t < n) ∧ (m.threads.flatten.flatMap (·.2)).Nodup
  constructor
  · intro l hl t ht
    obtain ⟨it, hit, rfl⟩ := List.mem_map.mp (hp.mem_iff.mp hl)
    obtain ⟨f, hf, hit⟩ := List.mem_flatten.mp hit
    exact ((trips_iff gok (ok m hm) hi).mp ⟨f, hf, it, hit, ht⟩).1
  · have h1 : (m.threads.flatten.flatMap (·.2)).Perm (its.flatMap fun f => f.flatMap (·.trips)) := by
      have := hp.flatMap_right (fun l : Nat × List Nat => l.2)
      rw [List.flatMap_map] at this
      refine this.trans (List.Perm.of_eq ?_)
      rw [← List.flatMap_id, List.flatMap_assoc]
      rfl
    exact h1.nodup_iff.mpr (nodup_of gok (ok m hm) hi)

omit [DecidableEq E] in
theorem along_map {m : Mode E C Pt D S P A} {a : A} {isAt : Shapes.Row → Pt → Prop} {hops : List (LHop E Pt)} {shape : List Shapes.Row}
    {stops : List (StRow (List Nat) S')} (h : Along pt (m.edges a) encD isAt hops shape stops) : Along pt m.map encD isAt hops shape stops where
  grow := h.grow
  order := h.order
  first := h.first
  start := fun q hq hm x hx => by
    obtain ⟨s, h3, h4, y, h5, h6⟩ := h.start q hq hm x hx
    exact ⟨s, h3, h4, y, h5, at_edges h6⟩
  last := h.last
  place := fun q hq p x h1 h2 => by
    obtain ⟨s, h3, h4, y, h5, h6⟩ := h.place q hq p x h1 h2
    exact ⟨s, h3, h4, y, h5, at_edges h6⟩

/-- From what was found to what is in the output. -/
theorem matched_of (gok : GeoOk geo pt) (ok : ∀ m ∈ ms, ModeOk m n) (R : Runs geo enc encD n ms rs) (henc : ∀ q, (enc q).dist = encD q.d)
    {exact : Prop} {trips trips' : List (TripRow X)} (hn : n = trips.length) {rows rows' : List (StRow (List Nat) S')} {src out : List Shapes.Row}
    {ts0 : List (List (StopTime (List Nat)))} (hr : readTimes trips rows = some ts0) (hlens : LensOk rs trips rows)
    (hL : Lines ((rs.map (·.run)).flatMap (·.jobs)) exact trips trips' src out) (hM : Measured rs trips rows rows') :
    Matched pt encD (fun s x => ∃ q : ShpPt Pt, s.pt = enc q ∧ q.p = x) (fun m k hops => Serves m n k hops) ms trips src rows trips' out rows' := by
  constructor
  · intro m hm k t ht hk
    obtain ⟨its, hi, hmem⟩ := R.to m hm
    have hlt : k < n := by rw [hn]; exact (List.getElem?_eq_some_iff.mp ht).1
    obtain ⟨f, hf, it, hit, hkt, hd⟩ := dists_of (encD := encD) ((trips_iff gok (ok m hm) hi).mpr ⟨hlt, hk⟩)
    have M := made_of gok (ok m hm) hi f hf it hit
    obtain ⟨a, o1, o2⟩ := M.shape
    refine ⟨it.hops, M.serves k hkt, fun t' ht' hid => ?_⟩
    obtain ⟨j, hj, hl⟩ := (leaf_iff (enc := enc) (encD := encD) (m := m)).mpr ⟨f, hf, it, hit, rfl⟩
    exact along_map (Dists.C86_along_partial gok (geomOk_edges a (ok m hm).geom) it.hops o1 M.hops it.shp o2 enc encD henc hr hlens hL hM
      (mrun enc encD m its) hmem j hj (it.leaf enc) hl rfl k hkt hd t ht t' ht' hid)
  · intro k t ht hno
    have none : ∀ r ∈ rs, ∀ j ∈ r.run.jobs, ∀ l ∈ j, k ∉ l.trips := by
      intro r hr j hj l hl hk
      obtain ⟨m, hm, its, hi, rfl⟩ := R.of r hr
      obtain ⟨f, hf, it, hit, rfl⟩ := leaf_iff.mp ⟨j, hj, hl⟩
      exact hno m hm ((trips_iff gok (ok m hm) hi).mp ⟨f, hf, it, hit, hk⟩).2
    refine ⟨hL.old k t ht ?_, ?_⟩
    · rintro ⟨pts, j, hj, l, hl, hk, _⟩
      obtain ⟨r', hr', hj⟩ := List.mem_flatMap.mp hj
      obtain ⟨r, hr, rfl⟩ := List.mem_map.mp hr'
      exact none r hr j hj l hl hk
    · intro i r r' h1 h2 h3
      obtain ⟨e1, e2, e3⟩ := hM.row i r r' h1 h2
      have e4 := hM.old i r r' h1 h2 k t ht h3.symm (by
        rintro ⟨ds, x, hx, ⟨j, hj, l, hl, hk⟩, _⟩
        exact none x hx j hj l hl hk)
      cases r; cases r'
      simp only at e1 e2 e3 e4
      rw [e1, e2, e3, e4]

/-- Modes that are apart never match the same trip. -/
theorem leafsOk_of (gok : GeoOk geo pt) (ok : ∀ m ∈ ms, ModeOk m n) (h : mruns geo enc encD n ms = some rs) (hap : Apart ms) :
    LeafsOk ((rs.map (·.run)).flatMap (·.jobs)) n := by
  have R := runs_ok h
  constructor
  · have : (((rs.map (·.run)).flatMap (·.jobs)).flatMap fun j => j.flatMap (·.trips)) =
        rs.flatMap fun r => r.run.jobs.flatMap fun j => j.flatMap (·.trips) := by rw [List.flatMap_assoc, List.flatMap_map]
    rw [this]
    clear this R
    induction ms generalizing rs with
    | nil => cases h; exact List.nodup_nil
    | cons m ms ih =>
      rw [mruns, Content.collect] at h
      cases hi : items geo m n with
      | none => rw [hi] at h; cases h
      | some its =>
        rw [hi] at h
        cases hc : Content.collect (fun m => (items geo m n).map (mrun enc encD m)) ms with
        | none => simp only [Option.map_some, hc] at h; cases h
        | some rs' =>
          simp only [Option.map_some, hc] at h
          cases h
          have hap := List.pairwise_cons.mp hap
          have ok' : ∀ m ∈ ms, ModeOk m n := fun x hx => ok x (List.mem_cons_of_mem _ hx)
          have okm := ok m (List.mem_cons_self ..)
          rw [List.flatMap_cons, List.nodup_append]
          refine ⟨by rw [jobs_trips]; exact nodup_of gok okm hi, ih ok' hc hap.2, ?_⟩
          rintro k hk k' hk' rfl
          rw [jobs_trips] at hk
          obtain ⟨f, hf, hk⟩ := List.mem_flatMap.mp hk
          obtain ⟨it, hit, hk⟩ := List.mem_flatMap.mp hk
          have n1 := ((trips_iff gok okm hi).mp ⟨f, hf, it, hit, hk⟩).2
          obtain ⟨r, hr, hk'⟩ := List.mem_flatMap.mp hk'
          obtain ⟨m', hm', its', hi', rfl⟩ := (runs_ok hc).of r hr
          rw [jobs_trips] at hk'
          obtain ⟨f', hf', hk'⟩ := List.mem_flatMap.mp hk'
          obtain ⟨it', hit', hk'⟩ := List.mem_flatMap.mp hk'
          have n2 := ((trips_iff gok (ok' m' hm') hi').mp ⟨f', hf', it', hit', hk'⟩).2
          obtain ⟨e, hd⟩ := hap.1 m' hm'
          exact hd _ n1.2.2.2 (by rw [e]; exact n2.2.2.2)
  · intro j hj l hl k hk
    obtain ⟨r', hr', hj⟩ := List.mem_flatMap.mp hj
    obtain ⟨r, hr, rfl⟩ := List.mem_map.mp hr'
    obtain ⟨m, hm, its, hi, rfl⟩ := R.of r hr
    obtain ⟨f, hf, it, hit, rfl⟩ := leaf_iff.mp ⟨j, hj, hl⟩
    exact ((trips_iff gok (ok m hm) hi).mp ⟨f, hf, it, hit, hk⟩).1

theorem noDrop_of (gok : GeoOk geo pt) {limit : Nat} {a : Bool} : ∀ (ms : List (Mode E C Pt D S P A)) (rs : List (MRun (List Nat))) (s : St),
    (∀ m ∈ ms, ModeOk m n) → (∀ m ∈ ms, m.c.dropShapes = false) → mruns geo enc encD n ms = some rs → Follows limit a n ms rs s →
    NoDrop limit a n (rs.map (·.run)) s
  | [], rs, s, _, _, h, _ => by cases h; trivial
  | m :: ms, rs, s, ok, hd, h, hf => by
    rw [mruns, Content.collect] at h
    cases hi : items geo m n with
    | none => rw [hi] at h; cases h
    | some its =>
      rw [hi] at h
      cases hc : Content.collect (fun m => (items geo m n).map (mrun enc encD m)) ms with
      | none => simp only [Option.map_some, hc] at h; cases h
      | some rs' =>
        simp only [Option.map_some, hc] at h
        cases h
        have okm := ok m (List.mem_cons_self ..)
        have key : ∀ j ∈ (mrun enc encD m its).run.jobs, ∀ l ∈ j, ∀ k ∈ l.trips, k < n ∧ needsShape m.c k := by
          intro j hj l hl k hk
          obtain ⟨f, hfi, it, hit, rfl⟩ := leaf_iff.mp ⟨j, hj, hl⟩
          exact (trips_iff gok okm hi).mp ⟨f, hfi, it, hit, hk⟩
        refine ⟨?_, ⟨by rw [jobs_trips]; exact nodup_of gok okm hi, fun j hj l hl k hk => (key j hj l hl k hk).1⟩,
          noDrop_of gok ms rs' _ (fun x hx => ok x (List.mem_cons_of_mem _ hx)) (fun x hx => hd x (List.mem_cons_of_mem _ hx)) hc hf.2⟩
        intro j hj l hl k hk
        obtain ⟨h1, h2, _⟩ := key j hj l hl k hk
        rcases h2 with h2 | h2
        · rw [hd m (List.mem_cons_self ..)] at h2; cases h2
        · exact (hf.1 k h1).mp h2

end

/-- **C87 (with `--drop-shapes`).** From the feed and the map to the output, for any number of mode configurations, any schedules of the threads,
any distribution of the work, and any run of the writer that ends without a write error: each trip that needs a shape has one that follows a
cheapest way through its stops, and each of its stops has the distance of a point of this shape; all other trips are unchanged. -/
theorem C87_drop_partial [DecidableEq E] {geo : Geo Pt} {pt : List Pt → Rat → Pt} (gok : GeoOk geo pt) (w : Widths) (hw : 0 < w.lat + w.lng + w.dist)
    (mt : Matching) (e : Content.Env A' B' X (Shapes.Row ⊕ (StRow (List Nat) S' ⊕ Y))) (he : EnvOk e)
    (i : Tables A' B' X (Shapes.Row ⊕ (StRow (List Nat) S' ⊕ Y))) (v : Content.Valid i) (hne : ∀ t ∈ i.trips, t.id ≠ []) (src : List Shapes.Row)
    (hi : Result.RefsOk i.trips src) (enc : ShpPt Pt → Shapes.Point) (encD : Rat → List Nat) (ms : List (Mode E C Pt D S P A))
    (ok : ∀ m ∈ ms, ModeOk m i.trips.length) (henc : EncOk geo enc encD w i.trips.length ms) (hsp : Spread geo mt.noColor i.trips.length ms)
    (hap : Apart ms) (hnew : ∀ m ∈ ms, ∀ (k : Nat) t, i.trips[k]? = some t → needsShape m.c k → ∀ ty x, t.shape ≠ Shapes.shapeId ty x)
    (rows : List (StRow (List Nat) S')) (hs : SmallSeqs rows) (ts0 : List (List (StopTime (List Nat)))) (hr : readTimes i.trips rows = some ts0)
    (hst : StopsOk ms i.trips rows) (limit : Nat) (atomicDec : Bool) :
    ∃ rs, mruns geo enc encD i.trips.length ms = some rs ∧ (Done limit atomicDec i.trips.length (rs.map (·.run)) (start i.trips src) →
      ∃ ts f, allTimes limit atomicDec i.trips.length rs (start i.trips src) ts0 = some ts ∧
      write mt e w limit i rs (allRuns limit atomicDec i.trips.length (rs.map (·.run)) (start i.trips src)) ts = some f ∧
      ∀ (c : Cfg) (fs : FS (DRow A' B' (List Nat) S' X Y)), Paths c → NoTmpZip c fs → Out.Input c fs .shapes (src.map shapeRow) →
      HasInput c fs .stopTimes (rows.map stRow) →
      ∀ as : List Act, .wrErr ∉ as → (Out.run c (Out.init fs (Out.jobs f)) as).phase = .done →
        ∃ trips' out rows', Dists.Output c (Out.run c (Out.init fs (Out.jobs f)) as).fs (atomicDec = true) i rs src rows trips' out rows' ∧
          Matched pt encD (fun s x => ∃ q : ShpPt Pt, s.pt = enc q ∧ q.p = x) (fun m k hops => Serves m i.trips.length k hops) ms i.trips src rows trips' out rows') := by
  obtain ⟨rs, hrs⟩ := mruns_some gok enc encD ok
  refine ⟨rs, hrs, fun hd => ?_⟩
  have R := runs_ok hrs
  have hlens := lensOk_of gok ok R hst
  have hids : NewIds ((rs.map (·.run)).flatMap (·.jobs)) i.trips := by
    intro j hj l hl k hk t ht
    obtain ⟨r', hr', hj⟩ := List.mem_flatMap.mp hj
    obtain ⟨r, hr, rfl⟩ := List.mem_map.mp hr'
    obtain ⟨m, hm, its, hit, rfl⟩ := R.of r hr
    obtain ⟨f, hf, it, hin, rfl⟩ := leaf_iff.mp ⟨j, hj, hl⟩
    exact hnew m hm k t ht ((trips_iff gok (ok m hm) hit).mp ⟨f, hf, it, hin, hk⟩).2
  obtain ⟨ts, f, h1, h2, h3⟩ := Dists.C86_distances_partial w hw mt e he i v hne src hi rs (colorsOk_of gok ok R hsp) (leafsOk_of gok ok hrs hap) hids
    (ptsOk_of gok ok R henc) limit atomicDec hd rows hs ts0 hr hlens
  refine ⟨ts, f, h1, h2, fun c fs p1 p2 p3 p4 as p5 p6 => ?_⟩
  obtain ⟨trips', out, rows', O⟩ := h3 c fs p1 p2 p3 p4 as p5 p6
  exact ⟨trips', out, rows', O, matched_of gok ok R henc.dist rfl hr hlens O.lines O.measured⟩

/-- **C87 (without `--drop-shapes`).** Modes need not be apart, and shapes of the input may have any id. -/
theorem C87_no_drop_partial [DecidableEq E] {geo : Geo Pt} {pt : List Pt → Rat → Pt} (gok : GeoOk geo pt) (w : Widths)
    (hw : 0 < w.lat + w.lng + w.dist) (mt : Matching) (e : Content.Env A' B' X (Shapes.Row ⊕ (StRow (List Nat) S' ⊕ Y))) (he : EnvOk e)
    (i : Tables A' B' X (Shapes.Row ⊕ (StRow (List Nat) S' ⊕ Y))) (v : Content.Valid i) (hne : ∀ t ∈ i.trips, t.id ≠ []) (src : List Shapes.Row)
    (hi : Result.RefsOk i.trips src) (enc : ShpPt Pt → Shapes.Point) (encD : Rat → List Nat) (ms : List (Mode E C Pt D S P A))
    (ok : ∀ m ∈ ms, ModeOk m i.trips.length) (henc : EncOk geo enc encD w i.trips.length ms) (hsp : Spread geo mt.noColor i.trips.length ms)
    (hdrop : ∀ m ∈ ms, m.c.dropShapes = false)
    (rows : List (StRow (List Nat) S')) (hs : SmallSeqs rows) (ts0 : List (List (StopTime (List Nat)))) (hr : readTimes i.trips rows = some ts0)
    (hst : StopsOk ms i.trips rows) (limit : Nat) (atomicDec : Bool) :
    ∃ rs, mruns geo enc encD i.trips.length ms = some rs ∧ (Done limit atomicDec i.trips.length (rs.map (·.run)) (start i.trips src) →
      Follows limit atomicDec i.trips.length ms rs (start i.trips src) →
      ∃ ts f, allTimes limit atomicDec i.trips.length rs (start i.trips src) ts0 = some ts ∧
      write mt e w limit i rs (allRuns limit atomicDec i.trips.length (rs.map (·.run)) (start i.trips src)) ts = some f ∧
      ∀ (c : Cfg) (fs : FS (DRow A' B' (List Nat) S' X Y)), Paths c → NoTmpZip c fs → Out.Input c fs .shapes (src.map shapeRow) →
      HasInput c fs .stopTimes (rows.map stRow) →
      ∀ as : List Act, .wrErr ∉ as → (Out.run c (Out.init fs (Out.jobs f)) as).phase = .done →
        ∃ trips' out rows', Dists.Output c (Out.run c (Out.init fs (Out.jobs f)) as).fs (atomicDec = true) i rs src rows trips' out rows' ∧
          Matched pt encD (fun s x => ∃ q : ShpPt Pt, s.pt = enc q ∧ q.p = x) (fun m k hops => Serves m i.trips.length k hops) ms i.trips src rows trips' out rows') := by
  obtain ⟨rs, hrs⟩ := mruns_some gok enc encD ok
  refine ⟨rs, hrs, fun hd hfo => ?_⟩
  have R := runs_ok hrs
  have hlens := lensOk_of gok ok R hst
  obtain ⟨ts, f, h1, h2, h3⟩ := Dists.C86_distances_no_drop_partial w hw mt e he i v hne src hi rs (colorsOk_of gok ok R hsp)
    (ptsOk_of gok ok R henc) limit atomicDec hd (noDrop_of gok ms rs _ ok hdrop hrs hfo) rows hs ts0 hr hlens
  refine ⟨ts, f, h1, h2, fun c fs p1 p2 p3 p4 as p5 p6 => ?_⟩
  obtain ⟨trips', out, rows', O⟩ := h3 c fs p1 p2 p3 p4 as p5 p6
  exact ⟨trips', out, rows', O, matched_of gok ok R henc.dist rfl hr hlens O.lines O.measured⟩

end Verif.Build
