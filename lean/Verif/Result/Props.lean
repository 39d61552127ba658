import Verif.Result.Lemmas

/-!
# From the matched trips to the written feed (property C85)
-/

namespace Verif.Result
open Verif.Shapes (Str Widths Point shapeId)
open Verif.Shapes.Workers (Leaf run SchedOk Finished)
open Verif.Content (Tables TripRow Env Matching EnvOk)
open Verif.Out (Cfg FS Name HasOutput Paths NoTmpZip Act jobs)

variable {A B X Y : Type}

/-- Each trip is in at most one trie leaf (C12), and is a trip of the feed. -/
structure LeafsOk (jobs : List (List Leaf)) (n : Nat) : Prop where
  once : (jobs.flatMap fun j => j.flatMap (·.trips)).Nodup
  trips : ∀ j ∈ jobs, ∀ l ∈ j, ∀ k ∈ l.trips, k < n

/-- Trips refer to shapes of the input, and these have ids. -/
structure RefsOk (trips : List (TripRow X)) (src : List Shapes.Row) : Prop where
  refs : ∀ t ∈ trips, t.shape = [] ∨ ∃ r ∈ src, r.id = t.shape
  named : ∀ r ∈ src, r.id ≠ []

/-- No trip for which a line was found has an old shape whose id looks like `shp_<type>_<number>`. -/
def NewIds (jobs : List (List Leaf)) (trips : List (TripRow X)) : Prop :=
  ∀ j ∈ jobs, ∀ l ∈ j, ∀ k ∈ l.trips, ∀ t, trips[k]? = some t → ∀ ty m, t.shape ≠ shapeId ty m

/-- Colours: in each run, a trip is seen once by all threads together (C48). -/
def ColorsOk (rs : List Run) (n : Nat) : Prop :=
  ∀ r ∈ rs, (∀ l ∈ r.threads.flatten, ∀ t ∈ l.2, t < n) ∧ (r.threads.flatten.flatMap (·.2)).Nodup

/-- Without `--drop-shapes` (ShapeBuilder.cpp:867): in each run, only trips without shape are matched. -/
def NoDrop (limit : Nat) (atomicDec : Bool) (n : Nat) : List Run → St → Prop
  | [], _ => True
  | r :: rs, s => (∀ j ∈ r.jobs, ∀ l ∈ j, ∀ k ∈ l.trips, s.shape k = []) ∧ LeafsOk r.jobs n ∧
    NoDrop limit atomicDec n rs (after limit atomicDec n r s)

theorem paintsOk {rs : List Run} {n : Nat} (h : ColorsOk rs n) : Color.PaintsOk (paints rs) n := by
  intro p hp
  obtain ⟨r, hr, rfl⟩ := List.mem_map.mp hp
  exact h r hr

theorem mem_allLeafs {rs : List Run} {l : Leaf} : l ∈ allLeafs rs ↔ ∃ j ∈ rs.flatMap (·.jobs), l ∈ j := by
  simp only [allLeafs, List.mem_flatMap, List.mem_flatten]
  constructor
  · rintro ⟨r, hr, j, hj, hl⟩; exact ⟨j, ⟨r, hr, hj⟩, hl⟩
  · rintro ⟨j, ⟨r, hr, hj⟩, hl⟩; exact ⟨r, hr, j, hj, hl⟩

theorem nodup_leafs {jobs : List (List Leaf)} : (jobs.flatten.flatMap (·.trips)) = jobs.flatMap fun j => j.flatMap (·.trips) := by
  rw [List.flatten_eq_flatMap, List.flatMap_assoc]
  rfl

theorem nodup_allLeafs {rs : List Run} : (allLeafs rs).flatMap (·.trips) = (rs.flatMap (·.jobs)).flatMap fun j => j.flatMap (·.trips) := by
  unfold allLeafs
  rw [List.flatMap_assoc, List.flatMap_assoc]
  simp only [nodup_leafs]

theorem ptsOk_run {w : Widths} {rs : List Run} (hp : PtsOk w (rs.flatMap (·.jobs))) : ∀ r ∈ rs, PtsOk w r.jobs :=
  fun r hr j hj => hp j (List.mem_flatMap.mpr ⟨r, hr, hj⟩)

/-- Without `--drop-shapes`, no trip is matched twice, and no matched trip has an old shape. -/
theorem noDrop_ok {w : Widths} {n : Nat} {sh0 : Nat → Str} {src : List Shapes.Row} {limit : Nat} {a : Bool} {exact : Prop} (hx : exact → a = true)
    (hne : ∀ x ∈ src, x.id ≠ []) : ∀ (rs : List Run) (js : List Leaf) (s : St), Mid exact w n sh0 src js s → (js.flatMap (·.trips)).Nodup →
    (∀ r ∈ rs, PtsOk w r.jobs) → Done limit a n rs s → NoDrop limit a n rs s →
    ((js ++ allLeafs rs).flatMap (·.trips)).Nodup ∧ (∀ l ∈ allLeafs rs, ∀ k ∈ l.trips, k < n) ∧
      ∀ l ∈ allLeafs rs, ∀ k ∈ l.trips, sh0 k = []
  | [], js, s, hm, hn, _, _, _ => ⟨by simpa [allLeafs] using hn, by simp [allLeafs], by simp [allLeafs]⟩
  | r :: rs, js, s, hm, hn, hp, ⟨⟨d1, d2, d3⟩, d4⟩, ⟨c1, c2, c3⟩ => by
    have e : allLeafs (r :: rs) = r.jobs.flatten ++ allLeafs rs := rfl
    have hmt : ∀ l ∈ r.jobs.flatten, ∀ k ∈ l.trips, s.shape k = [] := by
      intro l hl k hk
      obtain ⟨j, hj, hl⟩ := List.mem_flatten.mp hl
      exact c1 j hj l hl k hk
    have hdisj : ∀ l ∈ js, ∀ k ∈ l.trips, ∀ l' ∈ r.jobs.flatten, k ∉ l'.trips := by
      intro l hl k hk l' hl' hk'
      obtain ⟨sp, h1, h2, _⟩ := hm.line l hl k hk
      obtain ⟨_, ty, m, h3⟩ := hm.past.ok sp h1
      rw [h2, hmt l' hl' k hk'] at h3
      exact Shapes.shapeId_ne_nil ty m h3.symm
    have hsh : ∀ l ∈ r.jobs.flatten, ∀ k ∈ l.trips, sh0 k = [] := by
      intro l hl k hk
      rw [← hm.old k (fun l' hl' hk' => hdisj l' hl' k hk' l hl hk)]
      exact hmt l hl k hk
    have hlt : ∀ l ∈ r.jobs.flatten, ∀ k ∈ l.trips, k < n := by
      intro l hl k hk
      obtain ⟨j, hj, hl⟩ := List.mem_flatten.mp hl
      exact c2.trips j hj l hl k hk
    have hn2 : ((js ++ r.jobs.flatten).flatMap (·.trips)).Nodup := by
      rw [List.flatMap_append, List.nodup_append]
      refine ⟨hn, by rw [nodup_leafs]; exact c2.once, ?_⟩
      intro k hk k' hk' ek
      subst ek
      obtain ⟨l, hl, hk⟩ := List.mem_flatMap.mp hk
      obtain ⟨l', hl', hk'⟩ := List.mem_flatMap.mp hk'
      exact hdisj l hl k hk l' hl' hk'
    have hm2 : Mid exact w n sh0 src (js ++ r.jobs.flatten) (after limit a n r s) := by
      refine mid_step hm hx hne ⟨c2.once, List.nodup_range, ?_⟩ hdisj (fun l hl k hk ty m => by
        rw [hsh l hl k hk]; exact (Shapes.shapeId_ne_nil ty m).symm) (hp r (List.mem_cons_self ..)) d1 d2 d3
      intro t ht
      obtain ⟨l, hl, hk⟩ := mem_allTrips.mp ht
      exact List.mem_range.mpr (hlt l hl t hk)
    obtain ⟨r1, r2, r3⟩ := noDrop_ok hx hne rs _ _ hm2 hn2 (fun r hr => hp r (List.mem_cons_of_mem _ hr)) d4 c3
    rw [e]
    refine ⟨by rw [← List.append_assoc]; exact r1, ?_, ?_⟩
    · intro l hl
      rcases List.mem_append.mp hl with hl | hl
      · exact hlt l hl
      · exact r2 l hl
    · intro l hl
      rcases List.mem_append.mp hl with hl | hl
      · exact hsh l hl
      · exact r3 l hl

/-- What the writer writes to shapes.txt. -/
theorem shapes_written {e : Env A B X (Shapes.Row ⊕ Y)} {w : Widths} {i : Tables A B X (Shapes.Row ⊕ Y)}
    {F' : Color.Feed A B} {rows : List (TripRow X)} {con : Shapes.Container} {src : List Shapes.Row} (hne : ∀ r ∈ src, r.id ≠ [])
    (c : Cfg) (fs : FS (FRow A B X Y)) (g : Paths c) (hz : NoTmpZip c fs) (hin : Out.Input c fs .shapes (src.map shapeRow))
    (as : List Act) (ha : .wrErr ∉ as)
    (hd : (Out.run c (Out.init fs (jobs (Content.outFeed (shapesEnv w con e) i F' rows))) as).phase = .done) :
    HasOutput c (Out.run c (Out.init fs (jobs (Content.outFeed (shapesEnv w con e) i F' rows))) as).fs .shapes
      (.header .shapes :: (Shapes.writeShapes w src con).map shapeRow) := by
  generalize hf : Content.outFeed (shapesEnv w con e) i F' rows = f at hd ⊢
  obtain ⟨new, h1, h2⟩ := (Out.C41_done f c g fs hz as ha hd
    { name := .shapes, needsInput := false, cond := true, header := f.header .shapes, copies := true,
      copy := fun pre r => some (if f.keepShape pre r then [f.echo .shapes r] else []), mem := f.newShapes }
    (by simp [jobs])).1 ⟨rfl, fun h => by cases h⟩
  simp only [Out.Complete, if_true] at h1
  obtain ⟨r, parts, hi, hp, rfl⟩ := h1
  have er : r = src.map shapeRow := by rw [Out.input_read hi, Out.input_read hin]
  subst er
  have e2 : parts = src.map fun x => if decide (x.id ∈ con.ids) then [shapeRow x] else [] := by
    refine Out.parts_unique hp ⟨by simp, ?_⟩
    intro k x out hx ho
    rw [List.getElem?_map] at hx ho
    cases hk : src[k]? with
    | none => rw [hk] at hx; cases hx
    | some y =>
      rw [hk] at hx ho
      cases hx
      cases ho
      subst hf
      have hkeep : (Content.outFeed (shapesEnv w con e) i F' rows).keepShape ((src.map shapeRow).take k) (shapeRow y) =
          decide (y.id ∈ con.ids) := keepRow_eq _ _ _ (hne y (List.mem_of_getElem? hk))
      simp only [hkeep]
      rfl
  have e3 : ∀ l : List Shapes.Row, (l.map fun x => if decide (x.id ∈ con.ids) then [(shapeRow x : FRow A B X Y)] else []).flatten =
      (l.filter fun x => decide (x.id ∈ con.ids)).map shapeRow := by
    intro l
    induction l with
    | nil => rfl
    | cons x l ih => by_cases hx : x.id ∈ con.ids <;> simp [hx] <;> simpa using ih
  rw [e2, e3] at h2
  have e4 : f.header .shapes ++ (src.filter fun x => decide (x.id ∈ con.ids)).map shapeRow ++ f.newShapes =
      .header .shapes :: (Shapes.writeShapes w src con).map shapeRow := by
    subst hf
    unfold Shapes.writeShapes
    rw [Shapes.copyRows_eq con.ids src hne [] [] (.inl rfl) (.inl rfl), List.map_append]
    rfl
  rw [e4] at h2
  exact h2

/-- The rows of trips.txt and shapes.txt, from the feed after all runs. -/
theorem lines_pure {w : Widths} (hw : 0 < w.lat + w.lng + w.dist)
    {i : Tables A B X (Shapes.Row ⊕ Y)} (v : Content.Valid i) {rs : List Run} {src : List Shapes.Row}
    (hi : RefsOk i.trips src) {limit : Nat} {exact : Prop} {s : St}
    (hmid : Mid exact w i.trips.length (start i.trips src).shape src (allLeafs rs) s) {F' : Color.Feed A B} {rows trips' : List (TripRow X)}
    (h4 : Content.flatTrips F' i.trips F'.trips ((List.range i.trips.length).map s.shape) = some rows) (hperm : trips'.Perm rows) :
    Lines (rs.flatMap (·.jobs)) exact i.trips trips' src (Shapes.writeShapes w src (Shapes.exec limit s.hist)) := by
  have hsh : ∀ (k : Nat) t, i.trips[k]? = some t → (start i.trips src).shape k = t.shape := by
    intro k t hk; show (i.trips[k]?.map (·.shape)).getD [] = _; rw [hk]; rfl
  obtain ⟨hlen, hget⟩ := Content.flatTrips_get h4
  have hrow : ∀ (k : Nat) t, i.trips[k]? = some t → ∃ t', rows[k]? = some t' ∧ t'.id = t.id ∧ t'.shape = s.shape k := by
    intro k t hk
    obtain ⟨r, x, R, _, hs, _, hr⟩ := hget k t hk
    refine ⟨_, hr, rfl, ?_⟩
    rw [List.getElem?_map, List.getElem?_range (Content.lt_of_some hk)] at hs
    exact (Option.some.inj hs).symm
  have hids : rows.map (·.id) = i.trips.map (·.id) := by
    apply List.ext_getElem?
    intro k
    rw [List.getElem?_map, List.getElem?_map]
    cases hk : i.trips[k]? with
    | none =>
      have : rows[k]? = none := by rw [List.getElem?_eq_none_iff] at hk ⊢; omega
      rw [this]
    | some t =>
      obtain ⟨t', ht', e1, _⟩ := hrow k t hk
      rw [ht']
      simp [e1]
  have huniq : ∀ (k : Nat) t, i.trips[k]? = some t → ∀ t' ∈ trips', t'.id = t.id → t'.shape = s.shape k := by
    intro k t hk t' ht' eid
    obtain ⟨k', hk'⟩ := List.getElem?_of_mem (hperm.mem_iff.mp ht')
    have e1 : (i.trips.map (·.id))[k']? = some t.id := by rw [← hids, List.getElem?_map, hk', ← eid]; rfl
    have e2 : (i.trips.map (·.id))[k]? = some t.id := by rw [List.getElem?_map, hk]; rfl
    have e3 : k' = k := (List.getElem?_inj (Content.lt_of_some e1) v.trips).mp (e1.trans e2.symm)
    subst e3
    obtain ⟨t2, ht2, _, e4⟩ := hrow k' t hk
    rw [hk'] at ht2
    cases ht2
    exact e4
  constructor
  case same =>
    rw [← hids]
    exact hperm.map _
  case line =>
    intro k t pts hk hfd t' ht' eid
    rw [huniq k t hk t' ht' eid]
    obtain ⟨j, hj, l, hl', hkl, rfl⟩ := hfd
    exact line_core hw hmid hi.named (mem_allLeafs.mpr ⟨j, hj, hl'⟩) hkl
  case old =>
    intro k t hk hnf t' ht' eid
    rw [huniq k t hk t' ht' eid, ← hsh k t hk]
    refine kept_core hw hmid hi.named (Content.lt_of_some hk) ?_ ?_
    · intro l hl' hkl
      obtain ⟨j, hj, hl'⟩ := mem_allLeafs.mp hl'
      exact hnf ⟨l.pts, j, hj, l, hl', hkl, rfl⟩
    · rw [hsh k t hk]
      exact hi.refs t (List.mem_of_getElem? hk)
  case apart =>
    intro l l' hl1 hl2 k k' hk hk' t t' ht ht' u hu u' hu' e1 e2 e3
    rw [huniq k t ht u hu e1, huniq k' t' ht' u' hu' e2] at e3
    rw [hmid.apart l (mem_allLeafs.mpr hl1) l' (mem_allLeafs.mpr hl2) k hk k' hk' e3]
    exact hk'
  case together =>
    intro l hl1 k k' hk hk' t t' ht ht' u hu u' hu' e1 e2
    rw [huniq k t ht u hu e1, huniq k' t' ht' u' hu' e2]
    exact hmid.together l (mem_allLeafs.mpr hl1) k hk k' hk'
  case used =>
    intro hx r hr
    rcases used_core hw hmid hx hi.named r hr with ⟨k, hk, e1⟩ | ⟨h5, h6⟩
    · left
      obtain ⟨t', ht', _, e2⟩ := hrow k _ (List.getElem?_eq_getElem hk)
      exact ⟨t', hperm.mem_iff.mpr (List.mem_of_getElem? ht'), by rw [e2, e1]⟩
    · right
      refine ⟨h5, ?_⟩
      intro t ht e1
      obtain ⟨k, hk⟩ := List.getElem?_of_mem ht
      exact h6 k (Content.lt_of_some hk) (by rw [hsh k t hk, e1])

/-- From the feed after all runs to the output. -/
theorem lines_of_mid {w : Widths} (hw : 0 < w.lat + w.lng + w.dist) {m : Matching} {e : Env A B X (Shapes.Row ⊕ Y)} (he : EnvOk e)
    {i : Tables A B X (Shapes.Row ⊕ Y)} (v : Content.Valid i) {rs : List Run} (hm : ColorsOk rs i.trips.length) {src : List Shapes.Row}
    (hi : RefsOk i.trips src) {limit : Nat} {exact : Prop} {s : St}
    (hmid : Mid exact w i.trips.length (start i.trips src).shape src (allLeafs rs) s) :
    ∃ f, write m e w limit i rs s = some f ∧
      ∀ (c : Cfg) (fs : FS (FRow A B X Y)), Paths c → NoTmpZip c fs → Out.Input c fs .shapes (src.map shapeRow) →
      ∀ as : List Act, .wrErr ∉ as → (Out.run c (Out.init fs (jobs f)) as).phase = .done →
        ∃ trips' out, HasOutput c (Out.run c (Out.init fs (jobs f)) as).fs .trips (.header .trips :: trips'.map .trip) ∧
          HasOutput c (Out.run c (Out.init fs (jobs f)) as).fs .shapes (.header .shapes :: out.map shapeRow) ∧
          Lines (rs.flatMap (·.jobs)) exact i.trips trips' src out := by
  obtain ⟨F, hF⟩ := Content.load_valid v
  have hl := Content.loaded_of_load hF
  obtain ⟨F', h1, h2, hg⟩ := Color.colorRuns_grown m.noColor m.textColor m.writeColors (paints rs) F (Content.loaded_ok v hl)
    (by rw [hl.len]; exact paintsOk hm)
  have h3 := hg.trips
  obtain ⟨rows, h4⟩ := Content.flatTrips_all (F := F') (ts := i.trips) (rs := F'.trips) (ss := (List.range i.trips.length).map s.shape)
    (by rw [h3, hl.len]) (by simp) h2.trips
  refine ⟨_, by rw [write, hF]; simp only [h1, h4]; rfl, ?_⟩
  intro c fs hc hz hin as ha hd
  obtain ⟨_, o2, _⟩ := Out.C42_memory _ c hc fs hz as ha hd
  have o3 := shapes_written hi.named c fs hc hz hin as ha hd
  exact ⟨e.orderT rows, _, o2, o3, lines_pure hw v hi hmid h4 (he.trips rows)⟩

/-- **C85.** For every feed without errors, any number of mode configurations, whatever lines were found for whatever trips, and under
every schedule of any number of workers (whether or not the counters are atomic): when the workers have returned, the feed is written;
and after every run of the writer that reached its end, the shape of each trip in the output is the line that was found for it, point by
point, or, if none was found, the shape that it had, unchanged. Trips for which a line was found together share
their shape; trips for which lines were found separately never do. If the
counters are atomic, no other shapes are written, except for those of the input that no trip had. -/
theorem C85_lines (w : Widths) (hw : 0 < w.lat + w.lng + w.dist) (m : Matching) (e : Env A B X (Shapes.Row ⊕ Y)) (he : EnvOk e)
    (i : Tables A B X (Shapes.Row ⊕ Y)) (v : Content.Valid i) (src : List Shapes.Row) (hi : RefsOk i.trips src) (rs : List Run)
    (hm : ColorsOk rs i.trips.length) (hl : LeafsOk (rs.flatMap (·.jobs)) i.trips.length) (hn : NewIds (rs.flatMap (·.jobs)) i.trips)
    (hp : PtsOk w (rs.flatMap (·.jobs))) (limit : Nat) (atomicDec : Bool)
    (hd : Done limit atomicDec i.trips.length rs (start i.trips src)) :
    ∃ f, write m e w limit i rs (allRuns limit atomicDec i.trips.length rs (start i.trips src)) = some f ∧
      ∀ (c : Cfg) (fs : FS (FRow A B X Y)), Paths c → NoTmpZip c fs → Out.Input c fs .shapes (src.map shapeRow) →
      ∀ as : List Act, .wrErr ∉ as → (Out.run c (Out.init fs (jobs f)) as).phase = .done →
        ∃ trips' out, HasOutput c (Out.run c (Out.init fs (jobs f)) as).fs .trips (.header .trips :: trips'.map .trip) ∧
          HasOutput c (Out.run c (Out.init fs (jobs f)) as).fs .shapes (.header .shapes :: out.map shapeRow) ∧
          Lines (rs.flatMap (·.jobs)) (atomicDec = true) i.trips trips' src out := by
  refine lines_of_mid hw he v hm hi ?_
  have := mid_all (limit := limit) (a := atomicDec) (exact := atomicDec = true) (fun h => h) hi.named rs [] (start i.trips src)
    (mid_start (w := w) i.trips) (by rw [List.nil_append, nodup_allLeafs]; exact hl.once) (by
      intro l hl'
      obtain ⟨j, hj, hl'⟩ := mem_allLeafs.mp hl'
      exact hl.trips j hj l hl') (by
      intro l hl' k hk ty m e1
      obtain ⟨j, hj, hl'⟩ := mem_allLeafs.mp hl'
      have hlt := hl.trips j hj l hl' k hk
      have e1 : (i.trips[k]?.map (·.shape)).getD [] = shapeId ty m := e1
      rw [List.getElem?_eq_getElem hlt] at e1
      exact hn j hj l hl' k hk _ (List.getElem?_eq_getElem hlt) ty m e1) (ptsOk_run hp) hd
  simpa using this

/-- **C85 (without `--drop-shapes`).** If only trips without shape are matched, nothing need be known about the ids of the input; and
it need not be known that no trip is matched for two mode configurations. -/
theorem C85_lines_no_drop (w : Widths) (hw : 0 < w.lat + w.lng + w.dist) (m : Matching) (e : Env A B X (Shapes.Row ⊕ Y)) (he : EnvOk e)
    (i : Tables A B X (Shapes.Row ⊕ Y)) (v : Content.Valid i) (src : List Shapes.Row) (hi : RefsOk i.trips src) (rs : List Run)
    (hm : ColorsOk rs i.trips.length) (hp : PtsOk w (rs.flatMap (·.jobs))) (limit : Nat) (atomicDec : Bool)
    (hd : Done limit atomicDec i.trips.length rs (start i.trips src)) (hn : NoDrop limit atomicDec i.trips.length rs (start i.trips src)) :
    ∃ f, write m e w limit i rs (allRuns limit atomicDec i.trips.length rs (start i.trips src)) = some f ∧
      ∀ (c : Cfg) (fs : FS (FRow A B X Y)), Paths c → NoTmpZip c fs → Out.Input c fs .shapes (src.map shapeRow) →
      ∀ as : List Act, .wrErr ∉ as → (Out.run c (Out.init fs (jobs f)) as).phase = .done →
        ∃ trips' out, HasOutput c (Out.run c (Out.init fs (jobs f)) as).fs .trips (.header .trips :: trips'.map .trip) ∧
          HasOutput c (Out.run c (Out.init fs (jobs f)) as).fs .shapes (.header .shapes :: out.map shapeRow) ∧
          Lines (rs.flatMap (·.jobs)) (atomicDec = true) i.trips trips' src out := by
  refine lines_of_mid hw he v hm hi ?_
  have h0 := mid_start (exact := atomicDec = true) (w := w) (src := src) i.trips
  obtain ⟨h1, h2, h3⟩ := noDrop_ok (limit := limit) (a := atomicDec) (fun h => h) hi.named rs [] _ h0 (by simp) (ptsOk_run hp) hd hn
  have := mid_all (limit := limit) (a := atomicDec) (exact := atomicDec = true) (fun h => h) hi.named rs [] _ h0 h1 h2
    (fun l hl k hk ty m => by rw [h3 l hl k hk]; exact (Shapes.shapeId_ne_nil ty m).symm) (ptsOk_run hp) hd
  simpa using this

/-! ## Limits -/

open Verif.Shapes.Workers (gReuse gRace pt)

/-- **C85 (negation for ids that look new).** If a shape of the input has an id like `shp_3_2`, a trip may get this id, and its shape in
the output is then not the line that was found for it: it has the points of the old shape, too. -/
theorem C85_negation_id : ∃ sched, SchedOk 1 sched ∧ Finished 1 (run gReuse sched) ∧ Found gReuse.jobs 2 [pt 2] ∧
    ¬ IsLine (Shapes.writeShapes Shapes.w1 [⟨shapeId 3 2, pt 9, 1⟩] (Shapes.exec gReuse.limit (run gReuse sched).hist))
      ((run gReuse sched).shape 2) [pt 2] := by
  refine ⟨List.replicate 10 0, by decide, ?_, ⟨_, List.mem_cons_self .., _, List.mem_cons_of_mem _ (List.mem_cons_self ..), by decide, rfl⟩, ?_⟩
  · intro w hw
    match w, hw with
    | 0, _ => decide +kernel
  · unfold IsLine
    decide +kernel

/-- **C85 (negation for counters that are not atomic).** In the code as it is, a shape of the input that no trip has any more may be
written. -/
theorem C85_negation_used : ∃ sched, SchedOk 2 sched ∧ Finished 2 (run (gRace false) sched) ∧
    ∃ r ∈ Shapes.writeShapes Shapes.w1 [⟨[120], pt 9, 1⟩] (Shapes.exec 100 (run (gRace false) sched).hist),
      (∃ t ∈ (gRace false).feed, (gRace false).shape0 t = r.id) ∧ ∀ t ∈ (gRace false).feed, (run (gRace false) sched).shape t ≠ r.id := by
  refine ⟨[0, 0, 0, 1, 1, 1, 0, 1, 0, 1, 0, 1, 0, 1], by decide, ?_, ⟨[120], pt 9, 1⟩, by decide +kernel, by decide +kernel, by decide +kernel⟩
  intro w hw
  match w, hw with
  | 0, _ => decide +kernel
  | 1, _ => decide +kernel

/-- One trip without shape, and three mode configurations for its mode: each finds another line for it. -/
def exAgain : List Run := [⟨[[⟨3, [0], [pt 1]⟩]], 1, List.replicate 5 0, fun _ => false, []⟩,
  ⟨[[⟨3, [0], [pt 2]⟩]], 1, List.replicate 7 0, fun _ => false, []⟩, ⟨[[⟨3, [0], [pt 3]⟩]], 1, List.replicate 7 0, fun _ => false, []⟩]

/-- **C85 (negation for modes with several configurations).** With `--drop-shapes`, a trip may be matched for several mode
configurations. The numbers of the ids start again for each: the third configuration hands out the id of the first one again, and the
shape of the trip in the output consists of two lines. -/
theorem C85_negation_again : Done 100 true 1 exAgain (start (X := Unit) [⟨[65], [1], [], ()⟩] []) ∧
    Shapes.writeShapes Shapes.w1 [] (Shapes.exec 100 (allRuns 100 true 1 exAgain (start (X := Unit) [⟨[65], [1], [], ()⟩] [])).hist) =
      [⟨shapeId 3 1, pt 1, 1⟩, ⟨shapeId 3 1, pt 3, 1⟩] := by
  refine ⟨⟨⟨by decide, by decide, ?_⟩, ⟨by decide, by decide, ?_⟩, ⟨by decide, by decide, ?_⟩, trivial⟩, by decide +kernel⟩ <;>
  · intro w hw
    match w, hw with
    | 0, _ => decide +kernel

/-! ## Example -/

/-- One route; trips 0 and 1 have the shape `x`, trip 2 has the shape `y`, trip 3 has none. -/
def exTables : Tables Unit Unit Unit (Shapes.Row ⊕ Unit) where
  routes := [⟨[1], 0, 0, ()⟩]
  trips := [⟨[65], [1], [120], ()⟩, ⟨[66], [1], [120], ()⟩, ⟨[67], [1], [121], ()⟩, ⟨[68], [1], [], ()⟩]
  fares := []
  rules := []
  freqs := []

def exSrc : List Shapes.Row := [⟨[120], pt 7, 1⟩, ⟨[121], pt 8, 1⟩, ⟨[121], pt 9, 2⟩]

/-- Lines were found for trips 0 and 1, and, for another mode configuration, for trip 3. -/
def exRuns : List Run := [⟨[[⟨3, [0], [pt 1, pt 2]⟩], [⟨3, [1], [pt 3]⟩]], 2, [0, 0, 0, 1, 1, 1, 0, 1, 0, 1, 0, 1, 0, 1], fun _ => false,
    [[(0, [0])], [(0, [1])]]⟩,
  ⟨[[⟨3, [3], [pt 4]⟩]], 1, List.replicate 6 0, fun _ => false, [[(0, [3])]]⟩]

def exMatching : Matching := ⟨0, id, false, fun _ => true, [], []⟩

def exEnv : Env Unit Unit Unit (Shapes.Row ⊕ Unit) where
  keepShape := fun _ _ => true
  newShapes := []
  stopTime := fun _ r => some r
  hasPublisher := false
  feedInfo := []
  orderR := id
  orderT := List.reverse

theorem exValid : Content.Valid exTables where
  routes := by decide
  named := by decide
  trips := by decide
  tripRoute := by decide
  fares := by decide
  ruleFare := by decide
  ruleRoute := by decide
  freqTrip := by decide

theorem exNew (jobs : List (List Leaf)) : NewIds jobs exTables.trips := by
  intro j _ l _ k _ t ht ty m e
  have h : ∀ t ∈ exTables.trips, t.shape.length ≤ 1 := by decide
  have := h t (List.mem_of_getElem? ht)
  rw [e] at this
  simp [shapeId] at this

theorem exDone (a : Bool) : Done 100 a 4 exRuns (start exTables.trips exSrc) := by
  refine ⟨⟨by decide, by decide, ?_⟩, ⟨by decide, by decide, ?_⟩, trivial⟩
  · intro w hw
    match w, hw, a with
    | 0, _, true => decide +kernel
    | 1, _, true => decide +kernel
    | 0, _, false => decide +kernel
    | 1, _, false => decide +kernel
  · intro w hw
    match w, hw, a with
    | 0, _, true => decide +kernel
    | 0, _, false => decide +kernel

/-- The hypotheses of `C85_lines` hold for two mode configurations, the first with two workers, with and without atomic counters. -/
example : (∀ a, Done 100 a 4 exRuns (start exTables.trips exSrc)) ∧ Content.Valid exTables ∧ ColorsOk exRuns 4 ∧
    RefsOk exTables.trips exSrc ∧ NewIds (exRuns.flatMap (·.jobs)) exTables.trips ∧ LeafsOk (exRuns.flatMap (·.jobs)) 4 ∧
    PtsOk Shapes.w1 (exRuns.flatMap (·.jobs)) ∧ EnvOk exEnv :=
  ⟨exDone, exValid, by unfold ColorsOk; decide, ⟨by decide, by decide⟩, exNew _, ⟨by decide, by decide⟩, by unfold PtsOk; decide,
    ⟨fun _ => .refl _, fun l => List.reverse_perm l⟩⟩

/-- What is written: with atomic counters the old shape `x` is dropped; otherwise it may stay. -/
example : (Shapes.writeShapes Shapes.w1 exSrc (Shapes.exec 100 (allRuns 100 true 4 exRuns (start exTables.trips exSrc)).hist) =
      [⟨[121], pt 8, 1⟩, ⟨[121], pt 9, 2⟩, ⟨shapeId 3 1, pt 1, 1⟩, ⟨shapeId 3 1, pt 2, 2⟩, ⟨shapeId 3 2, pt 3, 1⟩, ⟨shapeId 3 3, pt 4, 1⟩]) ∧
    (Shapes.writeShapes Shapes.w1 exSrc (Shapes.exec 100 (allRuns 100 false 4 exRuns (start exTables.trips exSrc)).hist)).length = 7 := by
  decide +kernel

/-- A trip without shape whose id will be that of a shape of the input if nothing is done about it. -/
def exKept : List (TripRow Unit) := [⟨[65], [1], shapeId 3 1, ()⟩, ⟨[66], [1], [], ()⟩]

def exKeptRuns : List Run := [⟨[[⟨3, [1], [pt 1]⟩]], 1, List.replicate 6 0, fun _ => false, [[(0, [1])]]⟩,
  ⟨[], 1, [0], fun _ => false, []⟩]

/-- The hypotheses of `C85_lines_no_drop` hold for a feed with a shape that is called `shp_3_1`; the new shape is called `shp_3_2`. -/
example : Done 100 false 2 exKeptRuns (start exKept [⟨shapeId 3 1, pt 7, 1⟩]) ∧
    NoDrop 100 false 2 exKeptRuns (start exKept [⟨shapeId 3 1, pt 7, 1⟩]) ∧ RefsOk exKept [⟨shapeId 3 1, pt 7, 1⟩] ∧
    Shapes.writeShapes Shapes.w1 [⟨shapeId 3 1, pt 7, 1⟩]
      (Shapes.exec 100 (allRuns 100 false 2 exKeptRuns (start exKept [⟨shapeId 3 1, pt 7, 1⟩])).hist) =
      [⟨shapeId 3 1, pt 7, 1⟩, ⟨shapeId 3 2, pt 1, 1⟩] := by
  refine ⟨⟨⟨by decide, by decide, ?_⟩, ⟨by decide, by decide, ?_⟩, trivial⟩,
    ⟨by decide, ⟨by decide, by decide⟩, by decide, ⟨by decide, by decide⟩, trivial⟩, ⟨by decide +kernel, by decide +kernel⟩, by decide +kernel⟩
  · intro w hw
    match w, hw with
    | 0, _ => decide +kernel
  · intro w hw
    match w, hw with
    | 0, _ => decide +kernel

end Verif.Result
