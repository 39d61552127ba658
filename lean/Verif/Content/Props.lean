import Verif.Content.Lemmas

/-!
# The content of the written feed (property C84)
-/

namespace Verif.Content
open Verif.Shapes (Str)
open Verif.Color (Route Rule)
open Verif.Out (Cfg FS Name HasInput HasOutput Paths NoTmpZip Act run init jobs)

variable {A B X Z : Type}

/-- Hash maps give each of their elements once. -/
structure EnvOk (e : Env A B X Z) : Prop where
  routes : ∀ l, (e.orderR l).Perm l
  trips : ∀ l, (e.orderT l).Perm l

/-- **C84 (service).** For every feed without errors, whatever was matched: the feed is processed, and after every run of the writer
that reached its end, the files routes.txt and trips.txt of the output are those of the input except for colours and shapes. -/
theorem C84_service (m : Matching) (e : Env A B X Z) (he : EnvOk e) (i : Tables A B X Z) (v : Valid i) (hm : MatchOk m i) :
    ∃ f, process m e i = some f ∧ ∀ (c : Cfg) (fs : FS (Row A B X Z)), Paths c → NoTmpZip c fs → Reads c fs i →
      ∀ as : List Act, .wrErr ∉ as → (run c (init fs (jobs f)) as).phase = .done →
        ∃ routes' trips', HasOutput c (run c (init fs (jobs f)) as).fs .routes (.header .routes :: routes'.map .route) ∧
          HasOutput c (run c (init fs (jobs f)) as).fs .trips (.header .trips :: trips'.map .trip) ∧
          SameService m.noColor m.writeColors i.routes routes' i.trips trips' := by
  obtain ⟨F, F', rows, h1, h2, _, h3, h4⟩ := process_ok (e := e) v hm
  refine ⟨_, h1, ?_⟩
  intro c fs g hz _ as ha hd
  obtain ⟨o1, o2, _⟩ := Out.C42_memory _ c g fs hz as ha hd
  exact ⟨e.orderR F'.routes, e.orderT rows, o1, o2, service_of v h2 h3.grown h4 (he.routes _) (he.trips _)⟩

/-- What is copied, whatever was done to routes, trips and shapes. -/
theorem files_of {e : Env A B X Z} {i : Tables A B X Z} (v : Valid i) {F' : Color.Feed A B} {trips' : List (TripRow X)} (c : Cfg)
    (fs : FS (Row A B X Z)) (g : Paths c) (hz : NoTmpZip c fs) (hr : Reads c fs i) (as : List Act) (ha : .wrErr ∉ as)
    (hd : (run c (init fs (jobs (outFeed e i F' trips'))) as).phase = .done) :
    (∀ n ∈ [Name.agency, .stops, .calendar, .calendarDates, .transfers, .fareAttributes, .fareRules, .pathways, .levels], ∀ rows,
      HasInput c fs n rows → HasOutput c (run c (init fs (jobs (outFeed e i F' trips'))) as).fs n (.header n :: rows)) ∧
    (∀ r rows, HasInput c fs .frequencies (r :: rows) →
      HasOutput c (run c (init fs (jobs (outFeed e i F' trips'))) as).fs .frequencies (.header .frequencies :: r :: rows)) := by
  constructor
  · intro n hn rows h
    have := Out.C42_copied _ c g fs hz as ha hd n (.inl hn) rows h
    simpa [outFeed] using this
  · intro r rows h
    have hq : (outFeed e i F' trips').hasFreqs = true := by
      have hin := Out.input_read hr.freqs
      have hin' := Out.input_read (.inl h : Out.Input c fs .frequencies (r :: rows))
      rw [← hin'] at hin
      cases hfr : i.freqs with
      | nil => rw [hfr] at hin; cases hin
      | cons f0 l =>
        obtain ⟨t, ht, hid⟩ := v.freqTrip f0 (by rw [hfr]; exact List.mem_cons_self ..)
        show (i.trips.any fun t => i.freqs.any fun f => f.1 = t.id) = true
        rw [List.any_eq_true]
        refine ⟨t, ht, ?_⟩
        rw [List.any_eq_true]
        exact ⟨f0, by rw [hfr]; exact List.mem_cons_self .., by simp [hid]⟩
    have := Out.C42_copied _ c g fs hz as ha hd .frequencies (.inr ⟨rfl, hq⟩) (r :: rows) h
    simpa [outFeed] using this

/-- **C84 (files).** All other files of the input that the program knows are copied row by row; frequencies.txt if it has rows.
For shapes.txt and stop_times.txt see C07, C42 and C43, for attributions.txt see `C84_negation_attributions`. -/
theorem C84_files (m : Matching) (e : Env A B X Z) (i : Tables A B X Z) (v : Valid i) (f : Out.Feed (Row A B X Z))
    (hp : process m e i = some f) (c : Cfg) (fs : FS (Row A B X Z)) (g : Paths c) (hz : NoTmpZip c fs) (hr : Reads c fs i)
    (as : List Act) (ha : .wrErr ∉ as) (hd : (run c (init fs (jobs f)) as).phase = .done) :
    (∀ n ∈ [Name.agency, .stops, .calendar, .calendarDates, .transfers, .fareAttributes, .fareRules, .pathways, .levels], ∀ rows,
      HasInput c fs n rows → HasOutput c (run c (init fs (jobs f)) as).fs n (.header n :: rows)) ∧
    (∀ r rows, HasInput c fs .frequencies (r :: rows) →
      HasOutput c (run c (init fs (jobs f)) as).fs .frequencies (.header .frequencies :: r :: rows)) := by
  have hf : ∃ F' rows, f = outFeed e i F' rows := by
    rw [process] at hp
    cases h1 : load i with
    | none => rw [h1] at hp; cases hp
    | some F =>
      rw [h1] at hp
      dsimp only at hp
      cases h2 : Color.colorRoutes m.noColor m.textColor m.writeColors m.keep m.threads F with
      | none => rw [h2] at hp; cases hp
      | some F' =>
        rw [h2] at hp
        dsimp only at hp
        cases h3 : flatTrips F' i.trips F'.trips m.shapes with
        | none => rw [h3] at hp; cases hp
        | some rows => rw [h3] at hp; cases hp; exact ⟨F', rows, rfl⟩
  obtain ⟨F', trips', rfl⟩ := hf
  exact files_of v c fs g hz hr as ha hd

/-- **C84 (fares, partial).** Let the output be as in `C84_service`; the rules of the fares are those of the input (`C84_files`). The same
rules hold for the same trips if colours are not to be written, or if all routes have a colour, or if no rule is for a
certain route. Missing: routes that are split, see `C84_fares_lost`. -/
theorem C84_fares_partial (noColor : Nat) (writeColors : Bool) (i : Tables A B X Z) (routes' : List (Route A))
    (trips' : List (TripRow X)) (h : SameService noColor writeColors i.routes routes' i.trips trips')
    (hc : writeColors = false ∨ (∀ R ∈ i.routes, R.color ≠ noColor) ∨ ∀ r ∈ i.rules, r.route = []) :
    SameFares i.trips trips' i.rules i.rules := by
  have hid : ∀ t' ∈ trips', ∃ t ∈ i.trips, t'.id = t.id := by
    intro t' ht'
    obtain ⟨t, ht, e⟩ := List.mem_map.mp (h.same.mem_iff.mp (List.mem_map.mpr ⟨t', ht', rfl⟩))
    exact ⟨t, ht, (congrArg Prod.fst e).symm⟩
  have hid' : ∀ t ∈ i.trips, ∃ t' ∈ trips', t'.id = t.id := by
    intro t ht
    obtain ⟨t', ht', e⟩ := List.mem_map.mp (h.same.mem_iff.mpr (List.mem_map.mpr ⟨t, ht, rfl⟩))
    exact ⟨t', ht', congrArg Prod.fst e⟩
  have hroute : ∀ t ∈ i.trips, ∀ t' ∈ trips', t'.id = t.id → ∀ r ∈ i.rules, (r.route = [] ∨ r.route = t'.route) ↔
      (r.route = [] ∨ r.route = t.route) := by
    intro t ht t' ht' e r hr
    obtain ⟨R, hR, _, R', _, _, _, _, h6⟩ := h.route t ht t' ht' e
    rcases hc with hc | hc | hc
    · rcases h6 with h6 | ⟨h6, _⟩
      · rw [h6]
      · rw [hc] at h6; cases h6
    · rcases h6 with h6 | ⟨_, h6, _⟩
      · rw [h6]
      · exact absurd h6 (hc R hR)
    · simp [hc r hr]
  intro trip fare x
  constructor
  · rintro ⟨t', ht', e1, r, hr, e2, e3, e4⟩
    obtain ⟨t, ht, e5⟩ := hid t' ht'
    exact ⟨t, ht, e5.symm.trans e1, r, hr, e2, e3, (hroute t ht t' ht' e5 r hr).mp e4⟩
  · rintro ⟨t, ht, e1, r, hr, e2, e3, e4⟩
    obtain ⟨t', ht', e5⟩ := hid' t ht
    exact ⟨t', ht', e5.trans e1, r, hr, e2, e3, (hroute t ht t' ht' e5 r hr).mpr e4⟩

/-- **C84 (fares, what is lost).** A trip that is on another route than before has lost every rule for its route: in the output, only those
rules hold for it that are for all routes. -/
theorem C84_fares_lost (noColor : Nat) (writeColors : Bool) (i : Tables A B X Z) (v : Valid i) (routes' : List (Route A))
    (trips' : List (TripRow X)) (h : SameService noColor writeColors i.routes routes' i.trips trips') (t t' : TripRow X)
    (ht : t ∈ i.trips) (ht' : t' ∈ trips') (hid : t'.id = t.id) (hmoved : t'.route ≠ t.route) (fare : Str) (x : B) :
    RuleFor trips' i.rules t.id fare x ↔ ∃ r ∈ i.rules, r.fare = fare ∧ r.rest = x ∧ r.route = [] := by
  have huniq : ∀ s ∈ trips', s.id = t.id → s.route ∉ i.routes.map (·.id) := by
    intro s hs e
    have hn : (trips'.map (·.id)).Nodup := by
      have := (h.same.map Prod.fst).nodup_iff.mpr (by simpa [List.map_map, Function.comp_def] using v.trips)
      simpa [List.map_map, Function.comp_def] using this
    have hst : s = t' := by
      obtain ⟨j, hj⟩ := List.getElem?_of_mem hs
      obtain ⟨k, hk⟩ := List.getElem?_of_mem ht'
      have e1 : (trips'.map (·.id))[j]? = some s.id := by rw [List.getElem?_map, hj]; rfl
      have e2 : (trips'.map (·.id))[k]? = some s.id := by rw [List.getElem?_map, hk, e, ← hid]; rfl
      have := (List.getElem?_inj (lt_of_some e1) hn).mp (e1.trans e2.symm)
      subst this
      rw [hj] at hk
      cases hk
      rfl
    subst hst
    obtain ⟨R, _, _, R', _, e3, _, _, h6⟩ := h.route t ht s hs e
    rcases h6 with h6 | ⟨_, _, _, h6⟩
    · exact absurd h6 hmoved
    · rw [← e3]; exact h6
  constructor
  · rintro ⟨s, hs, e1, r, hr, e2, e3, e4⟩
    refine ⟨r, hr, e2, e3, ?_⟩
    rcases e4 with e4 | e4
    · exact e4
    · rcases v.ruleRoute r hr with h0 | ⟨R, hR, e5⟩
      · exact h0
      · exact absurd (List.mem_map.mpr ⟨R, hR, e5.trans e4⟩) (huniq s hs e1)
  · rintro ⟨r, hr, e2, e3, e4⟩
    exact ⟨t', ht', hid, r, hr, e2, e3, .inl e4⟩

/-- In memory, a rule of a fare holds for the trip at place `k`: it is for the route of the trip, or for all routes. -/
def MemRuleFor (fares : List (Str × Z)) (F : Color.Feed A B) (k : Nat) (fare : Str) (x : B) : Prop :=
  ∃ (j : Nat) (z : Z) (rs : List (Rule B)) (r : Nat), fares[j]? = some (fare, z) ∧ F.fares[j]? = some rs ∧ F.trips[k]? = some r ∧
    ∃ q ∈ rs, q.rest = x ∧ (q.route = none ∨ q.route = some r)

/-- The rules in memory after the routes were split. -/
theorem fares_of_grown {noColor : Nat} {writeColors : Bool} {i : Tables A B X Z} (v : Valid i) {F F' : Color.Feed A B} (hl : Loaded i F)
    (hs : Color.Grown noColor writeColors F F') : ∀ (k : Nat) (t : TripRow X), i.trips[k]? = some t → ∀ fare x,
      MemRuleFor i.fares F' k fare x ↔ RuleFor i.trips i.rules t.id fare x := by
  intro k t ht fare x
  obtain ⟨r, R, e1, e2, e3⟩ := hl.trip k t ht
  obtain ⟨r', R', f1, f2, _, _, _, f7⟩ := hs.kept k r R e1 (by rw [hl.routes]; exact e2)
  -- in memory, the rules before and after are the same
  have hmem : MemRuleFor i.fares F' k fare x ↔ MemRuleFor i.fares F k fare x := by
    have key : ∀ (j : Nat) rs rs', F.fares[j]? = some rs → F'.fares[j]? = some rs' →
        ((∃ q ∈ rs', q.rest = x ∧ (q.route = none ∨ q.route = some r')) ↔ ∃ q ∈ rs, q.rest = x ∧ (q.route = none ∨ q.route = some r)) := by
      intro j rs rs' hj hj'
      have a := (hs.rules j rs rs' hj hj').2
      have b := f7 j rs rs' hj hj'
      have a1 : ∀ q : Rule B, q ∈ rs' ∧ q.route = none ↔ q ∈ rs ∧ q.route = none := by
        intro q
        have : q ∈ rs'.filter (fun x => x.route = none) ↔ q ∈ rs.filter (fun x => x.route = none) := by rw [a]
        simpa [List.mem_filter] using this
      have b1 : (∃ q ∈ rs', q.route = some r' ∧ q.rest = x) ↔ ∃ q ∈ rs, q.route = some r ∧ q.rest = x := by
        have : x ∈ (rs'.filter (fun q => q.route = some r')).map (·.rest) ↔ x ∈ (rs.filter (fun q => q.route = some r)).map (·.rest) := by
          rw [b]
        simpa [List.mem_filter, List.mem_map, and_assoc] using this
      constructor
      · rintro ⟨q, hq, hx, hn | hn⟩
        · exact ⟨q, ((a1 q).mp ⟨hq, hn⟩).1, hx, .inl hn⟩
        · obtain ⟨q', h1, h2, h3⟩ := b1.mp ⟨q, hq, hn, hx⟩
          exact ⟨q', h1, h3, .inr h2⟩
      · rintro ⟨q, hq, hx, hn | hn⟩
        · exact ⟨q, ((a1 q).mpr ⟨hq, hn⟩).1, hx, .inl hn⟩
        · obtain ⟨q', h1, h2, h3⟩ := b1.mpr ⟨q, hq, hn, hx⟩
          exact ⟨q', h1, h3, .inr h2⟩
    constructor
    · rintro ⟨j, z, rs', r2, g1, g2, g3, g4⟩
      rw [f1] at g3
      cases g3
      obtain ⟨rs, hrs, _⟩ := hl.fare j _ g1
      exact ⟨j, z, rs, r, g1, hrs, e1, (key j rs rs' hrs g2).mp g4⟩
    · rintro ⟨j, z, rs, r2, g1, g2, g3, g4⟩
      rw [e1] at g3
      cases g3
      have hlt : j < F'.fares.length := by rw [hs.fares]; exact lt_of_some g2
      exact ⟨j, z, _, r', g1, List.getElem?_eq_getElem hlt, f1, (key j rs _ g2 (List.getElem?_eq_getElem hlt)).mpr g4⟩
  rw [hmem]
  constructor
  · rintro ⟨j, z, rs, r2, g1, g2, g3, q, hq, hx, hn⟩
    rw [e1] at g3
    cases g3
    obtain ⟨rs', h3, h4⟩ := hl.fare j _ g1
    rw [g2] at h3
    cases h3
    obtain ⟨rule, hrule, hlr⟩ := collect_mem h4 hq
    have hrule' := List.mem_filter.mp hrule
    refine ⟨t, List.mem_of_getElem? ht, rfl, rule, hrule'.1, by simpa using hrule'.2, ?_⟩
    rw [loadRule] at hlr
    by_cases he : rule.route = []
    · rw [if_pos he] at hlr
      cases hlr
      exact ⟨hx, .inl he⟩
    · rw [if_neg he] at hlr
      obtain ⟨k', hk', rfl⟩ := Option.map_eq_some_iff.mp hlr
      refine ⟨hx, .inr ?_⟩
      rcases hn with hn | hn
      · cases hn
      · cases hn
        obtain ⟨R2, g5, g6⟩ := getElem?_map_id (pos_some hk')
        rw [e2] at g5
        cases g5
        rw [← g6, e3]
  · rintro ⟨t2, ht2, eid, rule, hrule, efare, ex, hroute⟩
    have htt : t2 = t := by
      obtain ⟨j, hj⟩ := List.getElem?_of_mem ht2
      have q1 : (i.trips.map (·.id))[j]? = some t.id := by rw [List.getElem?_map, hj, Option.map_some, eid]
      have q2 : (i.trips.map (·.id))[k]? = some t.id := by rw [List.getElem?_map, ht]; rfl
      have := (List.getElem?_inj (lt_of_some q1) v.trips).mp (q1.trans q2.symm)
      subst this
      rw [hj] at ht
      cases ht
      rfl
    subst htt
    obtain ⟨f, hf, hff⟩ := v.ruleFare rule hrule
    obtain ⟨j, hj⟩ := List.getElem?_of_mem hf
    obtain ⟨rs, h3, h4⟩ := hl.fare j f hj
    have hin : rule ∈ i.rules.filter fun r => r.fare = f.1 := List.mem_filter.mpr ⟨hrule, by simp [hff]⟩
    obtain ⟨n, hn⟩ := List.getElem?_of_mem hin
    obtain ⟨q, hq, hql⟩ := (collect_get h4).2 n rule hn
    refine ⟨j, f.2, rs, r, by rw [hj, ← efare, ← hff], h3, e1, q, List.mem_of_getElem? hq, ?_⟩
    rw [loadRule] at hql
    by_cases he : rule.route = []
    · rw [if_pos he] at hql
      cases hql
      exact ⟨ex, .inl rfl⟩
    · rw [if_neg he] at hql
      obtain ⟨k', hk', rfl⟩ := Option.map_eq_some_iff.mp hql
      refine ⟨ex, .inr ?_⟩
      obtain ⟨R2, g5, g6⟩ := getElem?_map_id (pos_some hk')
      have hRR : R2 = R := ids_unique v.routes (List.mem_of_getElem? g5) (List.mem_of_getElem? e2)
        (by rw [g6, e3]; exact hroute.resolve_left he)
      subst hRR
      have q1 : (i.routes.map (·.id))[k']? = some R2.id := by rw [List.getElem?_map, g5]; rfl
      have q2 : (i.routes.map (·.id))[r]? = some R2.id := by rw [List.getElem?_map, e2]; rfl
      rw [(List.getElem?_inj (lt_of_some q1) v.routes).mp (q1.trans q2.symm)]

/-- **C84 (fares in memory).** In the feed in memory that is handed to the writer, the same rules hold for the same trips as in the
input: the rules are lost because fare_rules.txt is copied from the input, not written from memory. -/
theorem C84_fares_memory (m : Matching) (i : Tables A B X Z) (v : Valid i) (hm : MatchOk m i) :
    ∃ F F', load i = some F ∧ Color.colorRoutes m.noColor m.textColor m.writeColors m.keep m.threads F = some F' ∧
      ∀ (k : Nat) (t : TripRow X), i.trips[k]? = some t → ∀ fare x, MemRuleFor i.fares F' k fare x ↔ RuleFor i.trips i.rules t.id fare x := by
  obtain ⟨F, hF⟩ := load_valid v
  have hl := loaded_of_load hF
  obtain ⟨F', h1, hs⟩ := Color.C48_split m.noColor m.textColor m.writeColors m.keep m.threads F (loaded_ok v hl)
    (fun l hl' t ht => by rw [hl.len]; exact hm.trips l hl' t ht) hm.once
  exact ⟨F, F', hF, h1, fares_of_grown v hl hs.grown⟩

/-! ### examples and negations -/

/-- Two trips on a route without colour, and one on a route with a colour. A fare has a rule for the first route, one for the second,
and one for all routes. -/
def exTables : Tables Nat Nat Nat Nat where
  routes := [⟨[49], 99, 99, 7⟩, ⟨[50], 5, 98, 8⟩]
  trips := [⟨[97], [49], [], 1⟩, ⟨[98], [49], [], 2⟩, ⟨[99], [50], [120], 3⟩]
  fares := [([70], 4)]
  rules := [⟨[70], [49], 10⟩, ⟨[70], [50], 20⟩, ⟨[70], [], 30⟩]
  freqs := [([98], 600)]

/-- The first trip is matched with colour 10, the second one with colour 11, the third one with none. -/
def exMatching (writeColors : Bool) : Matching where
  noColor := 99
  textColor := fun c => c + 100
  writeColors := writeColors
  keep := fun _ => false
  threads := [[(10, [0]), (99, [2])], [(11, [1])]]
  shapes := [[115, 48], [115, 49], [115, 50]]

def exEnv : Env Nat Nat Nat Nat where
  keepShape := fun _ _ => false
  newShapes := [.other 51, .other 52]
  stopTime := fun _ r => some r
  hasPublisher := false
  feedInfo := []
  orderR := List.reverse
  orderT := List.reverse

/-- The input directory; there is an attribution. -/
def exFS : FS (Row Nat Nat Nat Nat) :=
  [(Out.idx .agency, .file [.other 1]), (Out.idx .stops, .file [.other 2, .other 3]),
   (Out.idx .routes, .file (exTables.routes.map .route)), (Out.idx .trips, .file (exTables.trips.map .trip)),
   (Out.idx .calendar, .file [.other 4]),
   (Out.idx .fareAttributes, .file (exTables.fares.map fun f => .fare f.1 f.2)),
   (Out.idx .fareRules, .file (exTables.rules.map .rule)),
   (Out.idx .frequencies, .file (exTables.freqs.map fun f => .freq f.1 f.2)),
   (Out.idx .stopTimes, .file [.other 5]), (Out.idx .attributions, .file [.other 6])]

theorem ex_valid : Valid exTables := ⟨by decide, by decide, by decide, by decide, by decide, by decide, by decide, by decide⟩
theorem ex_matchOk (w : Bool) : MatchOk (exMatching w) exTables :=
  ⟨(by cases w <;> decide : ∀ l ∈ (exMatching w).threads.flatten, ∀ t ∈ l.2, t < exTables.trips.length),
    by cases w <;> decide, by cases w <;> decide⟩
theorem ex_envOk : EnvOk exEnv := ⟨fun l => List.reverse_perm l, fun l => List.reverse_perm l⟩
theorem ex_noTmp : NoTmpZip Out.exFresh exFS := by intro p t h; cases h
theorem ex_reads : Reads Out.exFresh exFS exTables where
  routes := by show exFS.get _ = _; decide
  trips := by show exFS.get _ = _; decide
  fares := .inl (by show exFS.get _ = _; decide)
  rules := .inl (by show exFS.get _ = _; decide)
  freqs := .inl (by show exFS.get _ = _; decide)

/-- The feed handed to the writer. -/
def exOut (w : Bool) : Out.Feed (Row Nat Nat Nat Nat) :=
  (process (exMatching w) exEnv exTables).getD (outFeed exEnv exTables ⟨[], [], []⟩ [])

theorem ex_process (w : Bool) : process (exMatching w) exEnv exTables = some (exOut w) := by
  obtain ⟨_, F', rows, h, _⟩ := process_ok (e := exEnv) ex_valid (ex_matchOk w)
  rw [exOut, h]
  rfl

/-- The file system after the run. -/
def exEnd (w : Bool) : Out.St (Row Nat Nat Nat Nat) := run Out.exFresh (init exFS (jobs (exOut w))) (List.replicate 100 .go)

example : (process (exMatching true) exEnv exTables).isSome = true := by decide +kernel
example : (exEnd true).phase = .done := by decide +kernel
/-- Both trips are on new routes. -/
example : (exEnd true).fs.get (200 + Out.idx .trips) = some (.file [.header .trips, .trip ⟨[99], [50], [115, 50], 3⟩,
    .trip ⟨[98], [49, 58, 58, 50], [115, 49], 2⟩, .trip ⟨[97], [49, 58, 58, 49], [115, 48], 1⟩]) := by decide +kernel
example : (exEnd true).fs.get (200 + Out.idx .routes) = some (.file [.header .routes, .route ⟨[49, 58, 58, 50], 11, 111, 7⟩,
    .route ⟨[49, 58, 58, 49], 10, 110, 7⟩, .route ⟨[50], 5, 105, 8⟩, .route ⟨[49], 99, 99, 7⟩]) := by decide +kernel
example : (exEnd true).fs.get (200 + Out.idx .frequencies) = some (.file [.header .frequencies, .freq [98] 600]) := by decide +kernel
/-- Colours are not to be written. -/
example : (exEnd false).fs.get (200 + Out.idx .trips) = some (.file [.header .trips, .trip ⟨[99], [50], [115, 50], 3⟩,
    .trip ⟨[98], [49], [115, 49], 2⟩, .trip ⟨[97], [49], [115, 48], 1⟩]) := by decide +kernel
/-- A rule for a route. -/
example : RuleFor exTables.trips exTables.rules [97] [70] 10 := ⟨⟨[97], [49], [], 1⟩, by decide, rfl, ⟨[70], [49], 10⟩, by decide, rfl, rfl, .inr rfl⟩

/-- **C84 (negation, fares).** The full property is false: there is a feed without errors, and a run that reached its end, such that a rule
of the input for the route of a trip does not hold for that trip in the output. -/
theorem C84_negation_fares : ∃ (m : Matching) (e : Env Nat Nat Nat Nat) (i : Tables Nat Nat Nat Nat) (f : Out.Feed (Row Nat Nat Nat Nat))
    (fs : FS (Row Nat Nat Nat Nat)) (as : List Act), EnvOk e ∧ Valid i ∧ MatchOk m i ∧ process m e i = some f ∧
    Reads Out.exFresh fs i ∧ .wrErr ∉ as ∧ (run Out.exFresh (init fs (jobs f)) as).phase = .done ∧
    ∃ trips' rules', HasOutput Out.exFresh (run Out.exFresh (init fs (jobs f)) as).fs .trips (.header .trips :: trips'.map .trip) ∧
      HasOutput Out.exFresh (run Out.exFresh (init fs (jobs f)) as).fs .fareRules (.header .fareRules :: rules'.map .rule) ∧
      ¬ SameFares i.trips trips' i.rules rules' := by
  refine ⟨exMatching true, exEnv, exTables, exOut true, exFS, List.replicate 100 .go, ex_envOk, ex_valid, ex_matchOk _, ex_process _,
    ex_reads, by decide, by decide +kernel, [⟨[99], [50], [115, 50], 3⟩, ⟨[98], [49, 58, 58, 50], [115, 49], 2⟩,
      ⟨[97], [49, 58, 58, 49], [115, 48], 1⟩], exTables.rules, ?_, ?_, ?_⟩
  · show (exEnd true).fs.get (200 + Out.idx .trips) = _
    decide +kernel
  · show (exEnd true).fs.get (200 + Out.idx .fareRules) = _
    decide +kernel
  · intro h
    obtain ⟨t, ht, e1, r, hr, e2, e3, e4⟩ := (h [97] [70] 10).mpr
      ⟨⟨[97], [49], [], 1⟩, by decide, rfl, ⟨[70], [49], 10⟩, by decide, rfl, rfl, .inr rfl⟩
    revert e1 e2 e3 e4
    revert r
    revert t
    decide

/-- **C84 (negation, attributions).** The attributions of the input are lost: whatever they are, attributions.txt of the output names the
contributors of OpenStreetMap only. -/
theorem C84_negation_attributions (m : Matching) (e : Env A B X Z) (i : Tables A B X Z) (v : Valid i) (hm : MatchOk m i) :
    ∃ f, process m e i = some f ∧ ∀ (c : Cfg) (fs : FS (Row A B X Z)), Paths c → NoTmpZip c fs →
      ∀ as : List Act, .wrErr ∉ as → (run c (init fs (jobs f)) as).phase = .done →
        HasOutput c (run c (init fs (jobs f)) as).fs .attributions [.header .attributions, .osm] := by
  obtain ⟨F, F', rows, h1, _⟩ := process_ok (e := e) v hm
  refine ⟨_, h1, ?_⟩
  intro c fs g hz as ha hd
  exact (Out.C42_memory _ c g fs hz as ha hd).2.2.1

example : HasInput Out.exFresh exFS .attributions [.other 6] := by show exFS.get _ = _; decide

end Verif.Content
