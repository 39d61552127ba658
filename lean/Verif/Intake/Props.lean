import Verif.Intake.Lemmas
import Verif.Visit.Props
import Verif.Names.Props

/-!
# From the rows of the feed to the clustering (property C91)
-/

namespace Verif.Intake
open Verif.Shapes (Str Widths)
open Verif.Out (StRow FS Cfg Act Paths NoTmpZip HasInput)
open Verif.Content (Tables TripRow Matching EnvOk)
open Verif.Trie (CEnv needsShape)
open Verif.Names (RAttrs)
open Verif.Visit (Site SiteOk FarOk AllPass)
open Verif.Tour (Town Tours)
open Verif.Line (Geo GeoOk ShpPt)
open Verif.Build (mruns EncOk Spread Apart StopsOk Follows Matched)
open Verif.Dists (SmallSeqs readTimes allTimes write stRow DRow)
open Verif.Result (Done start allRuns shapeRow)

variable {A B X Z S P D K : Type}

/-! ## Reading -/

theorem sim_insert {D : Type} (s : St P) (s2 : Out.StopTime D) (he : s2.seq = s.1) : ∀ (l l' : List (St P)) (l2 : List (Out.StopTime D)),
    l2.map (·.seq) = l.map (·.1) → insert s l = some l' → ∃ l2', Dists.insertSt s2 l2 = some l2' ∧ l2'.map (·.seq) = l'.map (·.1)
  | [], l', l2, e, h => by
    cases h
    have : l2 = [] := List.map_eq_nil_iff.mp e
    subst this
    exact ⟨[s2], rfl, by simp [he]⟩
  | x :: l, l', [], e, h => by cases e
  | x :: l, l', x2 :: l2, e, h => by
    rw [List.map_cons, List.map_cons, List.cons.injEq] at e
    obtain ⟨e1, e2⟩ := e
    rw [insert] at h
    rw [Dists.insertSt, he, e1]
    by_cases h1 : s.1 < x.1
    · rw [if_pos h1] at h ⊢
      cases h
      exact ⟨_, rfl, by simp [he, e1, e2]⟩
    · rw [if_neg h1] at h ⊢
      by_cases h2 : x.1 < s.1
      · rw [if_pos h2] at h ⊢
        obtain ⟨m, hm, rfl⟩ := Option.map_eq_some_iff.mp h
        obtain ⟨m2, hm2, e3⟩ := sim_insert s s2 he l m l2 e2 hm
        rw [hm2]
        exact ⟨_, rfl, by simp [e1, e3]⟩
      · rw [if_neg h2] at h
        cases h

theorem sim_read {f : Fields A X S} {stops : List (StopRow P)} : ∀ (rows : List (StRow D S)) (l l' : List (St P)) (l2 : List (Out.StopTime D)),
    l2.map (·.seq) = l.map (·.1) → readTrip f stops rows l = some l' → ∃ l2', Dists.readTrip rows l2 = some l2'
  | [], _, _, l2, _, _ => ⟨l2, rfl⟩
  | r :: rows, l, l', l2, e, h => by
    rw [readTrip] at h
    cases h1 : stopTime f stops r with
    | none => rw [h1] at h; cases h
    | some s =>
      rw [h1] at h
      dsimp only at h
      cases h2 : insert (Dists.getSeq r.seq, s) l with
      | none => rw [h2] at h; cases h
      | some m =>
        rw [h2] at h
        obtain ⟨m2, hm2, e2⟩ := sim_insert _ ⟨Dists.getSeq r.seq, r.dist⟩ rfl l m l2 e h2
        obtain ⟨l2', e3⟩ := sim_read rows m l' m2 e2 h
        refine ⟨l2', ?_⟩
        rw [Dists.readTrip, hm2]
        exact e3

/-- If stops and numbers can be read, then so can the numbers. -/
theorem readTimes_of {f : Fields A X S} {stops : List (StopRow P)} {trips : List (TripRow X)} {rows : List (StRow D S)} {sts : List (List (St P))}
    (h : readStops f stops trips rows = some sts) : ∃ ts0, readTimes trips rows = some ts0 := by
  unfold readStops at h
  by_cases ha : rows.all fun r => (Content.pos (trips.map (·.id)) r.trip).isSome
  · rw [if_pos ha] at h
    unfold readTimes
    rw [if_pos ha]
    obtain ⟨_, h2⟩ := Content.collect_get h
    refine Content.collect_all fun t ht => ?_
    obtain ⟨k, hk⟩ := List.mem_iff_getElem?.mp ht
    obtain ⟨l, _, h3⟩ := h2 k t hk
    exact sim_read _ [] l [] rfl h3
  · rw [if_neg ha] at h
    cases h

theorem rows_apart {f : Fields A X S} {stops : List (StopRow P)} {trips : List (TripRow X)} {rows : List (StRow D S)} {sts : List (List (St P))}
    (h : readStops f stops trips rows = some sts) : rows.Pairwise fun r r' => r.trip = r'.trip → r.seq ≠ r'.seq := by
  obtain ⟨h1, h2⟩ := readStops_ok h
  rw [List.pairwise_iff_forall_sublist]
  intro a b hab htrip hseq
  obtain ⟨t, ht, e⟩ := h1 a (hab.subset (List.mem_cons_self ..))
  obtain ⟨k, hk⟩ := List.mem_iff_getElem?.mp ht
  obtain ⟨l, _, hs, hp, hsome⟩ := h2 k t hk
  have sub : [a, b].Sublist (rowsAt rows t) := by
    have := hab.filter (fun r : StRow D S => decide (r.trip = t.id))
    rw [List.filter_cons_of_pos (by simp [e]), List.filter_cons_of_pos (by simp [e, htrip]), List.filter_nil] at this
    exact this
  obtain ⟨s, hsa⟩ := hsome a (sub.subset (List.mem_cons_self ..))
  obtain ⟨s', hsb⟩ := hsome b (sub.subset (List.mem_cons_of_mem _ (List.mem_cons_self ..)))
  have sub2 : [s, s'].Sublist ((rowsAt rows t).filterMap (rd f stops)) := by
    have := sub.filterMap (rd f stops)
    rw [List.filterMap_cons_some (f := rd f stops) hsa, List.filterMap_cons_some (f := rd f stops) hsb] at this
    exact this
  have hn : ((rowsAt rows t).filterMap (rd f stops)).Pairwise fun x y => x.1 ≠ y.1 :=
    hp.pairwise (R := fun x y : St P => x.1 ≠ y.1) (hs.imp fun h => Int.ne_of_lt h) (fun h => h.symm)
  have := List.pairwise_iff_forall_sublist.mp hn sub2
  rw [(rd_some hsa).1, (rd_some hsb).1, hseq] at this
  exact this rfl

theorem readStops_some {f : Fields A X S} {stops : List (StopRow P)} {trips : List (TripRow X)} {rows : List (StRow D S)} (hs : SmallSeqs rows)
    (ok : RowsOk f stops trips rows) : ∃ sts, readStops f stops trips rows = some sts := by
  have ha : (rows.all fun r => (Content.pos (trips.map (·.id)) r.trip).isSome) = true := by
    rw [List.all_eq_true]
    intro r hr
    obtain ⟨t, ht, e⟩ := ok.trip r hr
    obtain ⟨k, hk⟩ := Content.pos_mem (e ▸ List.mem_map_of_mem ht : r.trip ∈ trips.map (·.id))
    rw [hk]; rfl
  unfold readStops
  rw [if_pos ha]
  refine Content.collect_all fun t _ => ?_
  refine readTrip_some _ [] List.Pairwise.nil (fun r hr => rd_of (ok.stop r (List.mem_filter.mp hr).1)) (by simp) ?_
  have hp : (rows.filter fun r => decide (r.trip = t.id)).Pairwise fun r r' => r.trip = r'.trip → r.seq ≠ r'.seq := ok.apart.filter _
  refine hp.imp_of_mem ?_
  intro a b ha hb h
  obtain ⟨ha, ea⟩ := List.mem_filter.mp ha
  obtain ⟨hb, eb⟩ := List.mem_filter.mp hb
  rw [Dists.getSeq_small (hs a ha), Dists.getSeq_small (hs b hb)]
  exact h ((of_decide_eq_true ea).trans (of_decide_eq_true eb).symm)

theorem intake_some {f : Fields A X S} {i : Tables A B X Z} {stops : List (StopRow P)} {rows : List (StRow D S)} {c c' : CEnv Nat P K}
    (h : intake f i stops rows c = some c') : ∃ F sts, Content.load i = some F ∧ readStops f stops i.trips rows = some sts ∧ c' = fill f F sts c := by
  unfold intake at h
  cases hF : Content.load i with
  | none => rw [hF] at h; cases h
  | some F =>
    rw [hF] at h
    cases hs : readStops f stops i.trips rows with
    | none => rw [hs] at h; cases h
    | some sts =>
      rw [hs] at h
      cases h
      exact ⟨F, sts, rfl, rfl, rfl⟩

theorem routeOf_ok {i : Tables A B X Z} {F : Color.Feed A B} (h : Content.load i = some F) {k : Nat} {t : TripRow X} (ht : i.trips[k]? = some t) :
    ∃ R ∈ i.routes, R.id = t.route ∧ routeOf F k = some R.rest := by
  unfold Content.load at h
  cases h1 : Content.collect (fun t : TripRow X => Content.pos (i.routes.map (·.id)) t.route) i.trips with
  | none => rw [h1] at h; cases h
  | some l =>
    rw [h1] at h
    cases h2 : Content.collect (fun g : Str × Z => Content.collect (Content.loadRule (i.routes.map (·.id))) (i.rules.filter fun r => r.fare = g.1)) i.fares with
    | none => rw [h2] at h; cases h
    | some fs =>
      rw [h2] at h
      cases h
      obtain ⟨j, h3, h4⟩ := (Content.collect_get h1).2 k t ht
      have h5 := Content.pos_some h4
      rw [List.getElem?_map] at h5
      obtain ⟨R, h6, e⟩ := Option.map_eq_some_iff.mp h5
      refine ⟨R, List.mem_of_getElem? h6, e, ?_⟩
      simp only [routeOf, h3, Option.bind_some, h6, Option.map_some]

/-- **C91 (reading).** A feed with valid tables is read if and only if every row of stop_times.txt is of a trip and a stop of the feed, and the rows of a
trip have different numbers. -/
theorem C91_reads_partial (f : Fields A X S) (i : Tables A B X Z) (v : Content.Valid i) (stops : List (StopRow P)) (rows : List (StRow D S)) (hs : SmallSeqs rows)
    (c : CEnv Nat P K) : (intake f i stops rows c).isSome ↔ RowsOk f stops i.trips rows := by
  constructor
  · intro h
    obtain ⟨c', h⟩ := Option.isSome_iff_exists.mp h
    obtain ⟨F, sts, _, h2, _⟩ := intake_some h
    obtain ⟨g1, g2⟩ := readStops_ok h2
    refine ⟨rows_apart h2, g1, fun r hr => ?_⟩
    obtain ⟨t, ht, e⟩ := g1 r hr
    obtain ⟨k, hk⟩ := List.mem_iff_getElem?.mp ht
    obtain ⟨_, _, _, _, g3⟩ := g2 k t hk
    obtain ⟨s, hs⟩ := g3 r (List.mem_filter.mpr ⟨hr, by simp [e]⟩)
    obtain ⟨_, x, hx, e', _⟩ := rd_some hs
    exact ⟨x, hx, e'⟩
  · intro ok
    obtain ⟨F, hF⟩ := Content.load_valid v
    obtain ⟨sts, h⟩ := readStops_some hs ok
    simp only [intake, hF, h, Option.isSome_some]

/-! ## Trips -/

theorem fill_stops {f : Fields A X S} {F : Color.Feed A B} {sts : List (List (St P))} {c : CEnv Nat P K} {k : Nat} {l : List (St P)}
    (h : sts[k]? = some l) : (fill f F sts c).stops k = l.map (·.2) := by
  show stopsOf sts c.stops k = _
  unfold stopsOf
  rw [h]

theorem fill_mot {f : Fields A X S} {F : Color.Feed A B} {sts : List (List (St P))} {c : CEnv Nat P K} {k : Nat} {a : A}
    (h : routeOf F k = some a) : (fill f F sts c).mot k = f.type a := by
  show (match routeOf F k with | some a => f.type a | none => 0) = _
  rw [h]

theorem stops_length {f : Fields A X S} {i : Tables A B X Z} {stops : List (StopRow P)} {rows : List (StRow D S)} {c c' : CEnv Nat P K}
    (h : intake f i stops rows c = some c') {k : Nat} {t : TripRow X} (ht : i.trips[k]? = some t) : (c'.stops k).length = (rowsAt rows t).length := by
  obtain ⟨F, sts, _, h2, rfl⟩ := intake_some h
  obtain ⟨l, h3, h4⟩ := readStops_length h2 ht
  rw [fill_stops h3, List.length_map, h4]

/-- **C91 (which trips).** A trip needs a shape if and only if it has none or shapes are dropped, it has at least two rows in stop_times.txt, and the type of
its route in routes.txt is asked for. -/
theorem C91_selected (f : Fields A X S) (i : Tables A B X Z) (v : Content.Valid i) (stops : List (StopRow P)) (rows : List (StRow D S))
    (c c' : CEnv Nat P K) (h : intake f i stops rows c = some c') (k : Nat) (t : TripRow X) (ht : i.trips[k]? = some t) :
    needsShape c' k ↔ (c.dropShapes = true ∨ c.shapeEmpty k = true) ∧ Wanted f c i.routes rows t := by
  have hl := stops_length h ht
  obtain ⟨F, sts, h1, h2, rfl⟩ := intake_some h
  obtain ⟨R, hR, e, h3⟩ := routeOf_ok h1 ht
  unfold needsShape Wanted
  rw [hl, fill_mot h3]
  refine and_congr .rfl (and_congr .rfl ?_)
  constructor
  · intro h
    exact ⟨R, hR, e, h⟩
  · rintro ⟨R', hR', e', h⟩
    have : R' = R := Content.ids_unique v.routes hR' hR (e'.trans e.symm)
    exact this ▸ h

/-- **C91 (stops).** A trip has as many stops as it has rows in stop_times.txt. The stop of a row is at the place that its number gives it, and has name,
platform and position of its row in stops.txt. -/
theorem C91_stops_partial (f : Fields A X S) (i : Tables A B X Z) (stops : List (StopRow P)) (rows : List (StRow D S)) (hs : SmallSeqs rows)
    (c c' : CEnv Nat P K) (h : intake f i stops rows c = some c') (k : Nat) (t : TripRow X) (ht : i.trips[k]? = some t) :
    (c'.stops k).length = (rowsAt rows t).length ∧ ∀ r ∈ rowsAt rows t, ∃ s ∈ stops, s.id = f.stop r.rest ∧
      (c'.stops k)[((rowsAt rows t).filter fun q => q.seq < r.seq).length]? = some ⟨s.name, s.platform, s.pos, f.arr r.rest, f.dep r.rest⟩ := by
  refine ⟨stops_length h ht, fun r hr => ?_⟩
  obtain ⟨F, sts, h1, h2, rfl⟩ := intake_some h
  obtain ⟨l, s, h3, h4, h5⟩ := readStops_get hs h2 ht hr
  obtain ⟨_, x, hx, e, e'⟩ := rd_some h5
  refine ⟨x, hx, e, ?_⟩
  rw [fill_stops h3, List.getElem?_map, h4, ← e']
  rfl

/-! ## Attributes -/

theorem insertTo_self (l : Str) : Names.insertTo l [l] = [l] := by
  have h : ¬ l < l := List.lt_irrefl l
  simp [Names.insertTo, h]

theorem intakeAttrs_some {f : Fields A X S} {nm : Norms} {i : Tables A B X Z} {stops : List (StopRow P)} {rows : List (StRow D S)} {c c' : CEnv Nat P RAttrs}
    (h : intakeAttrs f nm i stops rows c = some c') : ∃ F sts, Content.load i = some F ∧ readStops f stops i.trips rows = some sts ∧
      c'.lt = RAttrs.lt ∧ c'.merge = RAttrs.merge ∧ (∀ k, c'.rAttrs k = (getRAttrs f nm F i.trips sts k).getD ⟨[], [], [], []⟩) := by
  unfold intakeAttrs at h
  cases hF : Content.load i with
  | none => rw [hF] at h; cases h
  | some F =>
    rw [hF] at h
    cases hs : readStops f stops i.trips rows with
    | none => rw [hs] at h; cases h
    | some sts =>
      rw [hs] at h
      cases h
      exact ⟨F, sts, rfl, rfl, rfl, rfl, fun _ => rfl⟩

theorem intakeAttrs_fill {f : Fields A X S} {nm : Norms} {i : Tables A B X Z} {stops : List (StopRow P)} {rows : List (StRow D S)} {c c' : CEnv Nat P RAttrs}
    (h : intakeAttrs f nm i stops rows c = some c') : intake f i stops rows { c with lt := c'.lt, merge := c'.merge, rAttrs := c'.rAttrs } = some c' := by
  unfold intakeAttrs at h
  unfold intake
  cases hF : Content.load i with
  | none => rw [hF] at h; cases h
  | some F =>
    rw [hF] at h
    cases hs : readStops f stops i.trips rows with
    | none => rw [hs] at h; cases h
    | some sts =>
      rw [hs] at h
      cases h
      rfl

theorem lineName_ok (f : Fields A X S) (nm : Norms) {routes : List (Color.Route A)} {t : TripRow X} {R : Color.Route A} (hR : R ∈ routes) (e : R.id = t.route) :
    LineOf f nm routes t (lineName nm (f.shortName R.rest) (f.tripShort t.rest) (f.longName R.rest)) := by
  refine ⟨R, hR, e, ?_, ?_, ?_⟩
  · intro h; simp [lineName, h]
  · intro h h'; simp [lineName, h, h']
  · intro h h'; simp [lineName, h, h']

/-- The row of a stop time. -/
theorem row_of {f : Fields A X S} {stops : List (StopRow P)} {trips : List (TripRow X)} {rows : List (StRow D S)} {sts : List (List (St P))}
    (hs : SmallSeqs rows) (h : readStops f stops trips rows = some sts) {k : Nat} {t : TripRow X} (ht : trips[k]? = some t) {l : List (St P)}
    (hl : sts[k]? = some l) {s : St P} (hm : s ∈ l) : ∃ r ∈ rowsAt rows t, r.seq = s.1 ∧ ∃ x ∈ stops, x.id = f.stop r.rest ∧ s.2.name = x.name := by
  obtain ⟨l', h1, _, h3, _⟩ := (readStops_ok h).2 k t ht
  rw [hl] at h1; cases h1
  obtain ⟨r, hr, e⟩ := List.mem_filterMap.mp (h3.mem_iff.mp hm)
  obtain ⟨e1, x, hx, e2, e3⟩ := rd_some e
  refine ⟨r, hr, ?_, x, hx, e2, by rw [e3]⟩
  rw [e1, Dists.getSeq_small (hs r (List.mem_filter.mp hr).1)]

theorem head_min {l : List (St P)} (hs : Sorted l) {s : St P} (h : l.head? = some s) : ∀ x ∈ l, s.1 ≤ x.1 := by
  cases l with
  | nil => cases h
  | cons a l =>
    cases h
    intro x hx
    rcases List.mem_cons.mp hx with rfl | hx
    · exact Int.le_refl _
    · exact Int.le_of_lt ((List.pairwise_cons.mp hs).1 x hx)

theorem last_max {l : List (St P)} (hs : Sorted l) {s : St P} (h : l.getLast? = some s) : ∀ x ∈ l, x.1 ≤ s.1 := by
  obtain ⟨ys, rfl⟩ := List.getLast?_eq_some_iff.mp h
  intro x hx
  rcases List.mem_append.mp hx with hx | hx
  · exact Int.le_of_lt ((List.pairwise_append.mp hs).2.2 x hx s (List.mem_singleton_self _))
  · rw [List.mem_singleton.mp hx]; exact Int.le_refl _

/-- **C91 (attributes).** The attributes of a trip with stops are the normalised names of its line and of its first and last stop. Their order is strict and
weak, and merging attributes with themselves changes nothing, as C87 to C90 assume. -/
theorem C91_attrs_partial (f : Fields A X S) (nm : Norms) (i : Tables A B X Z) (stops : List (StopRow P)) (rows : List (StRow D S)) (hs : SmallSeqs rows)
    (c c' : CEnv Nat P RAttrs) (h : intakeAttrs f nm i stops rows c = some c') :
    Trie.StrictWeak c'.lt ∧ (∀ k, c'.merge (c'.rAttrs k) (c'.rAttrs k) = c'.rAttrs k) ∧
      ∀ (k : Nat) t, i.trips[k]? = some t → rowsAt rows t ≠ [] →
        LineOf f nm i.routes t (c'.rAttrs k).shortName ∧ FirstOf f nm stops rows t (c'.rAttrs k).lineFrom ∧
        ∃ name, (c'.rAttrs k).lineTo = [name] ∧ LastOf f nm stops rows t name := by
  obtain ⟨F, sts, h1, h2, h3, h4, h5⟩ := intakeAttrs_some h
  refine ⟨h3 ▸ Names.C27_strict_weak, ?_, ?_⟩
  · intro k
    rw [h4, h5]
    cases hg : getRAttrs f nm F i.trips sts k with
    | none => rfl
    | some a =>
      have : ∃ x, a.lineTo = [x] := by
        unfold getRAttrs at hg
        split at hg
        · split at hg
          · cases hg; exact ⟨_, rfl⟩
          · cases hg
        · cases hg
      obtain ⟨x, e⟩ := this
      cases a
      simp only at e
      subst e
      simp [RAttrs.merge, insertTo_self]
  · intro k t ht hne
    obtain ⟨l, g1, g2, g3, g4⟩ := (readStops_ok h2).2 k t ht
    obtain ⟨R, hR, e, g5⟩ := routeOf_ok h1 ht
    have hl : l ≠ [] := by
      intro e
      subst e
      have := g3.length_eq
      rw [rd_length _ g4] at this
      exact hne (List.length_eq_zero_iff.mp this.symm)
    obtain ⟨s, hs1⟩ : ∃ s, l.head? = some s := by
      cases l with
      | nil => exact absurd rfl hl
      | cons a l => exact ⟨a, rfl⟩
    obtain ⟨s', hs2⟩ : ∃ s, l.getLast? = some s := ⟨_, List.getLast?_eq_some_getLast hl⟩
    have m1 : s ∈ l := List.mem_of_mem_head? hs1
    have m2 : s' ∈ l := List.mem_of_getLast? hs2
    have hseq : ∀ q ∈ rowsAt rows t, ∃ x ∈ l, x.1 = q.seq := by
      intro q hq
      obtain ⟨x, hx⟩ := g4 q hq
      exact ⟨x, g3.mem_iff.mpr (List.mem_filterMap.mpr ⟨q, hq, hx⟩), by
        rw [(rd_some hx).1, Dists.getSeq_small (hs q (List.mem_filter.mp hq).1)]⟩
    have e5 : c'.rAttrs k = ⟨nm.stat s.2.name, [nm.stat s'.2.name], lineName nm (f.shortName R.rest) (f.tripShort t.rest) (f.longName R.rest), []⟩ := by
      rw [h5]
      simp only [getRAttrs, g5, ht, g1, hs1, hs2, Option.getD_some]
    rw [e5]
    refine ⟨lineName_ok f nm hR e, ?_, nm.stat s'.2.name, rfl, ?_⟩
    · obtain ⟨r, hr, er, x, hx, ex, en⟩ := row_of hs h2 ht g1 m1
      refine ⟨r, hr, fun q hq => ?_, x, hx, ex, by rw [en]⟩
      obtain ⟨y, hy, ey⟩ := hseq q hq
      rw [er, ← ey]
      exact head_min g2 hs1 y hy
    · obtain ⟨r, hr, er, x, hx, ex, en⟩ := row_of hs h2 ht g1 m2
      refine ⟨r, hr, fun q hq => ?_, x, hx, ex, by rw [en]⟩
      obtain ⟨y, hy, ey⟩ := hseq q hq
      rw [er, ← ey]
      exact last_max g2 hs2 y hy

/-- **C91 (groups).** Two trips with stops fall into the same group if and only if the normalised names of their lines and of their first stops are equal. -/
theorem C91_groups_partial (f : Fields A X S) (nm : Norms) (i : Tables A B X Z) (stops : List (StopRow P)) (rows : List (StRow D S)) (hs : SmallSeqs rows)
    (c c' : CEnv Nat P RAttrs) (h : intakeAttrs f nm i stops rows c = some c') (k k' : Nat) (t t' : TripRow X) (ht : i.trips[k]? = some t)
    (ht' : i.trips[k']? = some t') (hne : rowsAt rows t ≠ []) (hne' : rowsAt rows t' ≠ []) :
    ∃ a a' b b', LineOf f nm i.routes t a ∧ LineOf f nm i.routes t' a' ∧ FirstOf f nm stops rows t b ∧ FirstOf f nm stops rows t' b' ∧
      (Trie.equiv c' (c'.rAttrs k) (c'.rAttrs k') ↔ a = a' ∧ b = b') := by
  obtain ⟨_, _, h3⟩ := C91_attrs_partial f nm i stops rows hs c c' h
  obtain ⟨e1, e2, _⟩ := h3 k t ht hne
  obtain ⟨e3, e4, _⟩ := h3 k' t' ht' hne'
  refine ⟨_, _, _, _, e1, e3, e2, e4, ?_⟩
  obtain ⟨_, _, _, _, hlt, _⟩ := intakeAttrs_some h
  unfold Trie.equiv
  rw [hlt]
  simp only [RAttrs.lt, Bool.or_eq_false_iff, decide_eq_false_iff_not, Bool.and_eq_false_iff, beq_eq_false_iff_ne, ne_eq]
  constructor
  · rintro ⟨⟨n1, n2⟩, ⟨n3, n4⟩⟩
    have eb : (c'.rAttrs k).lineFrom = (c'.rAttrs k').lineFrom := List.le_antisymm n3 n1
    refine ⟨?_, eb⟩
    rcases n2 with n2 | n2
    · exact absurd eb n2
    · rcases n4 with n4 | n4
      · exact absurd eb.symm n4
      · exact List.le_antisymm n4 n2
  · rintro ⟨ea, eb⟩
    rw [ea, eb]
    exact ⟨⟨List.lt_irrefl _, .inr (List.lt_irrefl _)⟩, ⟨List.lt_irrefl _, .inr (List.lt_irrefl _)⟩⟩

/-! ## From rows to rows -/

theorem rows_same {id : Str} : ∀ (rows rows' : List (StRow D S)), rows'.length = rows.length →
    (∀ (j : Nat) r r', rows[j]? = some r → rows'[j]? = some r' → r'.trip = r.trip ∧ (r.trip = id → r' = r)) →
    (rows'.filter fun r => r.trip = id) = rows.filter fun r => r.trip = id
  | [], rows', hl, _ => by rw [List.length_eq_zero_iff.mp hl]
  | r :: rows, [], hl, _ => by cases hl
  | r :: rows, r' :: rows', hl, h => by
    have ih := rows_same (id := id) rows rows' (by simpa using hl) fun j x x' hx hx' => h (j + 1) x x' hx hx'
    obtain ⟨h1, h2⟩ := h 0 r r' rfl rfl
    by_cases e : r.trip = id
    · rw [h2 e, List.filter_cons_of_pos (by simp [e]), List.filter_cons_of_pos (by simp [e]), ih]
    · rw [List.filter_cons_of_neg (by simp [h1, e]), List.filter_cons_of_neg (by simp [e]), ih]

section
variable {P' T C S' D' : Type} {far : P' → P → Rat} {isAt : Shapes.Row → P → Prop} {f : Fields A X S} {i : Tables A B X Z} {stops : List (StopRow P')}
  {rows rows' : List (StRow (List Nat) S)} {rs : List (Dists.MRun (List Nat))} {xs : List (Site P S' T D' C P' K)} {trips' : List (TripRow X)}
  {src out : List Shapes.Row}

theorem passesBy_of (hs : SmallSeqs rows) (hm : Dists.Measured rs i.trips rows rows') (h : AllPass far isAt xs i.trips trips' out rows')
    {x : Site P S' T D' C P' K} (hx : x ∈ xs) {c : CEnv Nat P' K} (hc : intake f i stops rows c = some x.town.m.c) {k : Nat} {t : TripRow X}
    (ht : i.trips[k]? = some t) (hn : needsShape x.town.m.c k) : PassesBy f far isAt x stops t trips' out rows' := by
  intro t' ht' e q hq
  obtain ⟨hq1, hq2⟩ := List.mem_filter.mp hq
  have hq2 : q.trip = t.id := of_decide_eq_true hq2
  obtain ⟨j, hj⟩ := List.mem_iff_getElem?.mp hq1
  have hlt : j < rows.length := by rw [← hm.length]; exact (List.getElem?_eq_some_iff.mp hj).1
  obtain ⟨e1, e2, e3⟩ := hm.row j rows[j] q (List.getElem?_eq_getElem hlt) hj
  have hr : rows[j] ∈ rowsAt rows t := List.mem_filter.mpr ⟨List.getElem_mem hlt, by simp [← e1, hq2]⟩
  obtain ⟨s, hs1, hs2, hs3⟩ := (C91_stops_partial f i stops rows hs c _ hc k t ht).2 rows[j] hr
  have hcount : ((rowsAt rows' t).filter fun q' => q'.seq < q.seq).length = ((rowsAt rows t).filter fun q' => q'.seq < rows[j].seq).length := by
    have := congrArg List.length (Dists.count_map (fun r : StRow (List Nat) S => (r.trip, r.seq)) (fun y => decide (y.2 < q.seq) && decide (y.1 = t.id))
      (Dists.measured_map hm))
    rw [List.length_map, List.length_map] at this
    unfold rowsAt
    rw [List.filter_filter, List.filter_filter, ← e2]
    exact this
  obtain ⟨r, g1, g2, p, g3, pos, g4, g5⟩ := h x hx k t ht hn t' ht' e q hq _ (hcount ▸ hs3)
  exact ⟨s, hs1, by rw [hs2, e3], r, g1, g2, p, g3, pos, g4, g5⟩

theorem unchanged_of {pt : List P → Rat → P} {encD : Rat → List Nat} {way : Build.Mode Nat C P Unit (Option HopCache.Cache) P' K → Nat → List (Line.LHop Nat P) → Prop}
    {ms : List (Build.Mode Nat C P Unit (Option HopCache.Cache) P' K)} (hm : Dists.Measured rs i.trips rows rows')
    (h : Matched pt encD isAt way ms i.trips src rows trips' out rows') {k : Nat} {t : TripRow X} (ht : i.trips[k]? = some t)
    (hn : ∀ m ∈ ms, ¬ needsShape m.c k) : Unchanged t trips' src out rows rows' := by
  obtain ⟨h1, h2⟩ := h.old k t ht hn
  exact ⟨h1, rows_same rows rows' hm.length fun j r r' g g' => ⟨(hm.row j r r' g g').1, h2 j r r' g g'⟩⟩

theorem stopsOk_of [DecidableEq P] (hc : ∀ x ∈ xs, ∃ c, intake f i stops rows c = some x.town.m.c) : StopsOk ((xs.map Site.seen).map Town.mode) i.trips rows := by
  intro m hm k t ht
  obtain ⟨q, hq, rfl⟩ := List.mem_map.mp hm
  obtain ⟨x, hx, rfl⟩ := List.mem_map.mp hq
  obtain ⟨c, h⟩ := hc x hx
  exact stops_length h ht

theorem apart_of [DecidableEq P] (hc : ∀ x ∈ xs, ∃ c, intake f i stops rows c = some x.town.m.c)
    (h : xs.Pairwise fun x y => ∀ m ∈ x.town.m.c.cfgMots, m ∉ y.town.m.c.cfgMots) : Apart ((xs.map Site.seen).map Town.mode) := by
  show List.Pairwise _ _
  rw [List.pairwise_map, List.pairwise_map]
  refine h.imp_of_mem ?_
  intro x y hx hy hxy
  refine ⟨?_, hxy⟩
  obtain ⟨c, h1⟩ := hc x hx
  obtain ⟨c', h2⟩ := hc y hy
  obtain ⟨F, sts, e1, e2, e3⟩ := intake_some h1
  obtain ⟨F', sts', e1', e2', e3'⟩ := intake_some h2
  rw [e1] at e1'; cases e1'
  rw [e2] at e2'; cases e2'
  show x.town.m.c.mot = y.town.m.c.mot
  rw [e3, e3']
  rfl

theorem selected (v : Content.Valid i) {x : Site P S' T D' C P' K} (hc : ∃ c, intake f i stops rows c = some x.town.m.c) {k : Nat} {t : TripRow X}
    (ht : i.trips[k]? = some t) : needsShape x.town.m.c k ↔
      (x.town.m.c.dropShapes = true ∨ x.town.m.c.shapeEmpty k = true) ∧ Wanted f x.town.m.c i.routes rows t := by
  obtain ⟨c, h⟩ := hc
  have := C91_selected f i v stops rows c _ h k t ht
  obtain ⟨F, sts, _, _, e⟩ := intake_some h
  rw [e] at this ⊢
  exact this

end

variable {P' T C S' D' Y : Type}

/-- **C91 (with `--drop-shapes`).** From the rows of routes.txt, trips.txt, stops.txt and stop_times.txt and the OSM file to the rows of the output: each trip
with at least two rows in stop_times.txt and a route of a type that some configuration is for has a shape that passes by the stops of its rows, and each row
has the distance of a point of the shape that is close to its stop; all other trips are unchanged. -/
theorem C91_drop_partial [DecidableEq P] {geo : Geo P} {pt : List P → Rat → P} (gok : GeoOk geo pt) (w : Widths) (hw : 0 < w.lat + w.lng + w.dist)
    (mt : Matching) (e : Content.Env A B X (Shapes.Row ⊕ (StRow (List Nat) S ⊕ Y))) (he : EnvOk e)
    (i : Tables A B X (Shapes.Row ⊕ (StRow (List Nat) S ⊕ Y))) (v : Content.Valid i) (hne : ∀ t ∈ i.trips, t.id ≠ []) (src : List Shapes.Row)
    (hi : Result.RefsOk i.trips src) (enc : ShpPt P → Shapes.Point) (encD : Rat → List Nat) (xs : List (Site P S' T D' C P' K))
    {far : P' → P → Rat} (fk : ∀ x ∈ xs, FarOk pt far x)
    (ok : ∀ x ∈ xs, SiteOk x i.trips.length) (henc : EncOk geo enc encD w i.trips.length ((xs.map Site.seen).map Town.mode)) (hsp : Spread geo mt.noColor i.trips.length ((xs.map Site.seen).map Town.mode))
    (f : Fields A X S) (stops : List (StopRow P')) (rows : List (StRow (List Nat) S)) (hs : SmallSeqs rows) (hrows : RowsOk f stops i.trips rows)
    (hc : ∀ x ∈ xs, ∃ c, intake f i stops rows c = some x.town.m.c) (hdrop : ∀ x ∈ xs, x.town.m.c.dropShapes = true)
    (hap : xs.Pairwise fun x y => ∀ m ∈ x.town.m.c.cfgMots, m ∉ y.town.m.c.cfgMots)
    (hnew : ∀ x ∈ xs, ∀ t ∈ i.trips, Wanted f x.town.m.c i.routes rows t → ∀ ty y, t.shape ≠ Shapes.shapeId ty y)
    (limit : Nat) (atomicDec : Bool) :
    ∃ ts0 rs, readTimes i.trips rows = some ts0 ∧ mruns geo enc encD i.trips.length ((xs.map Site.seen).map Town.mode) = some rs ∧
      (Done limit atomicDec i.trips.length (rs.map (·.run)) (start i.trips src) →
      ∃ ts fd, allTimes limit atomicDec i.trips.length rs (start i.trips src) ts0 = some ts ∧
      write mt e w limit i rs (allRuns limit atomicDec i.trips.length (rs.map (·.run)) (start i.trips src)) ts = some fd ∧
      ∀ (c : Cfg) (fs : FS (DRow A B (List Nat) S X Y)), Paths c → NoTmpZip c fs → Out.Input c fs .shapes (src.map shapeRow) →
      HasInput c fs .stopTimes (rows.map stRow) →
      ∀ as : List Act, .wrErr ∉ as → (Out.run c (Out.init fs (Out.jobs fd)) as).phase = .done →
        ∃ trips' out rows', Dists.Output c (Out.run c (Out.init fs (Out.jobs fd)) as).fs (atomicDec = true) i rs src rows trips' out rows' ∧
          (∀ t ∈ i.trips, ∀ x ∈ xs, Wanted f x.town.m.c i.routes rows t →
            PassesBy f far (fun s p => ∃ q : ShpPt P, s.pt = enc q ∧ q.p = p) x stops t trips' out rows') ∧
          ∀ t ∈ i.trips, (∀ x ∈ xs, ¬ Wanted f x.town.m.c i.routes rows t) → Unchanged t trips' src out rows rows') := by
  obtain ⟨sts, hsts⟩ := readStops_some hs hrows
  obtain ⟨ts0, hr⟩ := readTimes_of hsts
  obtain ⟨rs, h1, h2⟩ := Visit.C90_drop_partial gok w hw mt e he i v hne src hi enc encD xs fk ok henc hsp (apart_of hc hap)
    (fun x hx k t ht hk => hnew x hx t (List.mem_of_getElem? ht) ((selected v (hc x hx) ht).mp hk).2) rows hs ts0 hr (stopsOk_of hc) limit atomicDec
  refine ⟨ts0, rs, hr, h1, fun hd => ?_⟩
  obtain ⟨ts, fd, k1, k2, k3⟩ := h2 hd
  refine ⟨ts, fd, k1, k2, fun c fs p1 p2 p3 p4 as p5 p6 => ?_⟩
  obtain ⟨trips', out, rows', O, M, L⟩ := k3 c fs p1 p2 p3 p4 as p5 p6
  refine ⟨trips', out, rows', O, ?_, ?_⟩
  · intro t ht x hx hwt
    obtain ⟨k, hk⟩ := List.mem_iff_getElem?.mp ht
    obtain ⟨c0, h0⟩ := hc x hx
    exact passesBy_of hs O.measured L hx h0 hk ((selected v (hc x hx) hk).mpr ⟨.inl (hdrop x hx), hwt⟩)
  · intro t ht hno
    obtain ⟨k, hk⟩ := List.mem_iff_getElem?.mp ht
    refine unchanged_of O.measured M hk ?_
    intro m hm hn
    obtain ⟨q, hq, rfl⟩ := List.mem_map.mp hm
    obtain ⟨x, hx, rfl⟩ := List.mem_map.mp hq
    exact hno x hx ((selected v (hc x hx) hk).mp hn).2

/-! ## Without `--drop-shapes` -/

/-- A trip that the workers are not asked for keeps its shape. -/
theorem shape_kept {limit : Nat} {a : Bool} {n : Nat} {r : Result.Run} {s : Result.St} (hok : Shapes.Workers.SchedOk r.W r.sched) {k : Nat}
    (h : ∀ j ∈ r.jobs, ∀ l ∈ j, k ∉ l.trips) : (Result.after limit a n r s).shape k = s.shape k := by
  have hc := Shapes.Workers.ctl (Result.workers limit a n r.jobs s) r.W r.sched hok
  refine hc.shapeEq k fun hk => ?_
  have h1 := hc.sPerm.mem_iff.mp (List.mem_append_left _ hk)
  obtain ⟨l, hl, hkl⟩ := Result.mem_allTrips.mp h1
  obtain ⟨j, hj, hl⟩ := List.mem_flatten.mp hl
  exact h j hj l hl hkl

section
variable {E C Pt D S P A : Type} [DecidableEq E] {geo : Geo Pt} {pt : List Pt → Rat → Pt} {enc : ShpPt Pt → Shapes.Point} {encD : Rat → List Nat} {n : Nat}
  {limit : Nat} {a : Bool}

/-- Who matches a trip: nobody if it has a shape, and somebody if it has none and is wanted. -/
theorem follows_needs (gok : GeoOk geo pt) {k : Nat} (hk : k < n) : ∀ (ms : List (Build.Mode E C Pt D S P A)) (rs : List (Dists.MRun (List Nat))) (s : Result.St),
    (∀ m ∈ ms, Build.ModeOk m n) → (∀ m ∈ ms, m.c.dropShapes = false) → mruns geo enc encD n ms = some rs → Follows limit a n ms rs s →
    Done limit a n (rs.map (·.run)) s →
    (s.shape k ≠ [] → ∀ m ∈ ms, ¬ needsShape m.c k) ∧
    (s.shape k = [] → ∀ m ∈ ms, 2 ≤ (m.c.stops k).length → m.c.mot k ∈ m.c.mots → m.c.mot k ∈ m.c.cfgMots → ∃ m' ∈ ms, needsShape m'.c k)
  | [], rs, s, _, _, _, _, _ => ⟨fun _ m hm => (by cases hm), fun _ m hm => (by cases hm)⟩
  | m :: ms, rs, s, ok, hd, h, hf, hdone => by
    rw [mruns, Content.collect] at h
    cases hi : Build.items geo m n with
    | none => rw [hi] at h; cases h
    | some its =>
      rw [hi] at h
      cases hc : Content.collect (fun m => (Build.items geo m n).map (Build.mrun enc encD m)) ms with
      | none => simp only [Option.map_some, hc] at h; cases h
      | some rs' =>
        simp only [Option.map_some, hc] at h
        cases h
        have okm := ok m (List.mem_cons_self ..)
        have hdm := hd m (List.mem_cons_self ..)
        have hdone : (0 < _ ∧ _ ∧ _) ∧ Done limit a n (rs'.map (·.run)) _ := hdone
        have ih := follows_needs gok hk ms rs' _ (fun x hx => ok x (List.mem_cons_of_mem _ hx)) (fun x hx => hd x (List.mem_cons_of_mem _ hx)) hc hf.2 hdone.2
        have keep : ¬ needsShape m.c k → (Result.after limit a n (Build.mrun enc encD m its).run s).shape k = s.shape k := by
          intro hn
          refine shape_kept hdone.1.2.1 ?_
          intro j hj l hl hkl
          obtain ⟨f, hfi, it, hit, rfl⟩ := Build.leaf_iff.mp ⟨j, hj, hl⟩
          exact hn ((Build.trips_iff gok okm hi).mp ⟨f, hfi, it, hit, hkl⟩).2
        refine ⟨fun hs => ?_, fun hs => ?_⟩
        · have hn : ¬ needsShape m.c k := by
            rintro ⟨h1, _⟩
            rcases h1 with h1 | h1
            · rw [hdm] at h1; cases h1
            · exact hs ((hf.1 k hk).mp h1)
          intro x hx
          rcases List.mem_cons.mp hx with rfl | hx
          · exact hn
          · exact ih.1 (by rw [keep hn]; exact hs) x hx
        · by_cases hn : needsShape m.c k
          · intro _ _ _ _ _
            exact ⟨m, List.mem_cons_self .., hn⟩
          · intro x hx g1 g2 g3
            rcases List.mem_cons.mp hx with rfl | hx
            · exact absurd ⟨.inr ((hf.1 k hk).mpr hs), g1, g2, g3⟩ hn
            · obtain ⟨y, hy, e⟩ := ih.2 (by rw [keep hn]; exact hs) x hx g1 g2 g3
              exact ⟨y, List.mem_cons_of_mem _ hy, e⟩

end

/-- **C91 (without `--drop-shapes`).** The same for the trips without a shape; those with a shape are unchanged. Configurations may be for the same types: then
some configuration that is for the trip matches it. -/
theorem C91_no_drop_partial [DecidableEq P] {geo : Geo P} {pt : List P → Rat → P} (gok : GeoOk geo pt) (w : Widths) (hw : 0 < w.lat + w.lng + w.dist)
    (mt : Matching) (e : Content.Env A B X (Shapes.Row ⊕ (StRow (List Nat) S ⊕ Y))) (he : EnvOk e)
    (i : Tables A B X (Shapes.Row ⊕ (StRow (List Nat) S ⊕ Y))) (v : Content.Valid i) (hne : ∀ t ∈ i.trips, t.id ≠ []) (src : List Shapes.Row)
    (hi : Result.RefsOk i.trips src) (enc : ShpPt P → Shapes.Point) (encD : Rat → List Nat) (xs : List (Site P S' T D' C P' K))
    {far : P' → P → Rat} (fk : ∀ x ∈ xs, FarOk pt far x)
    (ok : ∀ x ∈ xs, SiteOk x i.trips.length) (henc : EncOk geo enc encD w i.trips.length ((xs.map Site.seen).map Town.mode)) (hsp : Spread geo mt.noColor i.trips.length ((xs.map Site.seen).map Town.mode))
    (f : Fields A X S) (stops : List (StopRow P')) (rows : List (StRow (List Nat) S)) (hs : SmallSeqs rows) (hrows : RowsOk f stops i.trips rows)
    (hc : ∀ x ∈ xs, ∃ c, intake f i stops rows c = some x.town.m.c) (hdrop : ∀ x ∈ xs, x.town.m.c.dropShapes = false)
    (limit : Nat) (atomicDec : Bool) :
    ∃ ts0 rs, readTimes i.trips rows = some ts0 ∧ mruns geo enc encD i.trips.length ((xs.map Site.seen).map Town.mode) = some rs ∧
      (Done limit atomicDec i.trips.length (rs.map (·.run)) (start i.trips src) →
      Follows limit atomicDec i.trips.length ((xs.map Site.seen).map Town.mode) rs (start i.trips src) →
      ∃ ts fd, allTimes limit atomicDec i.trips.length rs (start i.trips src) ts0 = some ts ∧
      write mt e w limit i rs (allRuns limit atomicDec i.trips.length (rs.map (·.run)) (start i.trips src)) ts = some fd ∧
      ∀ (c : Cfg) (fs : FS (DRow A B (List Nat) S X Y)), Paths c → NoTmpZip c fs → Out.Input c fs .shapes (src.map shapeRow) →
      HasInput c fs .stopTimes (rows.map stRow) →
      ∀ as : List Act, .wrErr ∉ as → (Out.run c (Out.init fs (Out.jobs fd)) as).phase = .done →
        ∃ trips' out rows', Dists.Output c (Out.run c (Out.init fs (Out.jobs fd)) as).fs (atomicDec = true) i rs src rows trips' out rows' ∧
          (∀ t ∈ i.trips, t.shape = [] → (∃ x ∈ xs, Wanted f x.town.m.c i.routes rows t) → ∃ x ∈ xs, Wanted f x.town.m.c i.routes rows t ∧
            PassesBy f far (fun s p => ∃ q : ShpPt P, s.pt = enc q ∧ q.p = p) x stops t trips' out rows') ∧
          ∀ t ∈ i.trips, (t.shape ≠ [] ∨ ∀ x ∈ xs, ¬ Wanted f x.town.m.c i.routes rows t) → Unchanged t trips' src out rows rows') := by
  obtain ⟨sts, hsts⟩ := readStops_some hs hrows
  obtain ⟨ts0, hr⟩ := readTimes_of hsts
  obtain ⟨rs, h1, h2⟩ := Visit.C90_no_drop_partial gok w hw mt e he i v hne src hi enc encD xs fk ok henc hsp hdrop rows hs ts0 hr (stopsOk_of hc) limit atomicDec
  refine ⟨ts0, rs, hr, h1, fun hd hfo => ?_⟩
  obtain ⟨ts, fd, k1, k2, k3⟩ := h2 hd hfo
  refine ⟨ts, fd, k1, k2, fun c fs p1 p2 p3 p4 as p5 p6 => ?_⟩
  obtain ⟨trips', out, rows', O, M, L⟩ := k3 c fs p1 p2 p3 p4 as p5 p6
  have mem : ∀ m ∈ (xs.map Site.seen).map Town.mode, ∃ x ∈ xs, x.seen.mode = m := by
    intro m hm
    obtain ⟨q, hq, rfl⟩ := List.mem_map.mp hm
    obtain ⟨x, hx, rfl⟩ := List.mem_map.mp hq
    exact ⟨x, hx, rfl⟩
  have key := fun (k : Nat) (hk : k < i.trips.length) => follows_needs gok hk ((xs.map Site.seen).map Town.mode) rs (start i.trips src)
    (Tour.modes_ok (Visit.seen_ok ok)) (fun m hm => by obtain ⟨x, hx, rfl⟩ := mem m hm; exact hdrop x hx) h1 hfo hd
  have shp : ∀ (k : Nat) t, i.trips[k]? = some t → (start i.trips src).shape k = t.shape := by
    intro k t ht
    simp only [start, ht, Option.map_some, Option.getD_some]
  refine ⟨trips', out, rows', O, ?_, ?_⟩
  · rintro t ht hsh ⟨x, hx, hwt⟩
    obtain ⟨k, hk⟩ := List.mem_iff_getElem?.mp ht
    obtain ⟨c0, h0⟩ := hc x hx
    have hwx := hwt
    obtain ⟨g1, R, hR, g2, g3, g4⟩ := hwx
    have hmot : x.town.m.c.mot k = f.type R.rest := by
      obtain ⟨F, sts, e1, e2, e3⟩ := intake_some h0
      obtain ⟨R', hR', e4, e5⟩ := routeOf_ok e1 hk
      have : R' = R := Content.ids_unique v.routes hR' hR (e4.trans g2.symm)
      rw [e3, fill_mot e5, this]
    obtain ⟨m', hm', hn⟩ := (key k (List.getElem?_eq_some_iff.mp hk).1).2 (by rw [shp k t hk]; exact hsh) x.seen.mode
      (List.mem_map_of_mem (List.mem_map_of_mem hx)) (show 2 ≤ (x.town.m.c.stops k).length by rw [stops_length h0 hk]; exact g1)
      (show x.town.m.c.mot k ∈ x.town.m.c.mots by rw [hmot]; exact g3) (show x.town.m.c.mot k ∈ x.town.m.c.cfgMots by rw [hmot]; exact g4)
    obtain ⟨y, hy, rfl⟩ := mem m' hm'
    have hn : needsShape y.town.m.c k := hn
    obtain ⟨c1, h5⟩ := hc y hy
    exact ⟨y, hy, ((selected v (hc y hy) hk).mp hn).2, passesBy_of hs O.measured L hy h5 hk hn⟩
  · intro t ht hno
    obtain ⟨k, hk⟩ := List.mem_iff_getElem?.mp ht
    refine unchanged_of O.measured M hk ?_
    rcases hno with hno | hno
    · exact (key k (List.getElem?_eq_some_iff.mp hk).1).1 (by rw [shp k t hk]; exact hno)
    · intro m hm hn
      obtain ⟨x, hx, rfl⟩ := mem m hm
      exact hno x hx ((selected v (hc x hx) hk).mp hn).2

end Verif.Intake
