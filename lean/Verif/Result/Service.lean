import Verif.Result.Props

/-!
# Routes, colours and all other files after all mode configurations (property C85)
-/

namespace Verif.Result
open Verif.Shapes (Str Widths)
open Verif.Content (Tables TripRow Env Matching EnvOk SameService MemRuleFor RuleFor Reads)
open Verif.Color (Route)
open Verif.Out (Cfg FS Name HasInput HasOutput Paths NoTmpZip Act jobs)

variable {A B X Y Z : Type}

/-! ### specification -/

/-- No route has trips that are matched for different mode configurations: a route has one mode, so this holds if no mode has several
configurations. -/
def ModesApart (rs : List Run) (trips : List (TripRow X)) : Prop :=
  ∀ (a b : Nat) (r r' : Run), a ≠ b → rs[a]? = some r → rs[b]? = some r' → ∀ l ∈ r.threads.flatten, ∀ l' ∈ r'.threads.flatten,
    ∀ k ∈ l.2, ∀ k' ∈ l'.2, ∀ t t', trips[k]? = some t → trips[k']? = some t' → t.route ≠ t'.route

/-- The colour of a trip in the output: the one it was matched with, if colours are to be written and its route had neither colour nor
text colour. -/
def colorOf (noColor : Nat) (writeColors : Bool) (R : Route A) (matched : Nat) : Nat :=
  if writeColors = true ∧ matched ≠ noColor ∧ R.color = noColor ∧ R.text = noColor then matched else R.color

/-- Matched trips are on routes of their colours, and are not taken apart without need. -/
structure Colored (noColor : Nat) (writeColors : Bool) (rs : List Run) (routes routes' : List (Route A)) (trips trips' : List (TripRow X)) :
    Prop where
  color : ∀ r ∈ rs, ∀ l ∈ r.threads.flatten, ∀ k ∈ l.2, ∀ t, trips[k]? = some t → ∀ R ∈ routes, R.id = t.route →
    ∀ t' ∈ trips', t'.id = t.id → ∀ R' ∈ routes', R'.id = t'.route → R'.color = colorOf noColor writeColors R l.1
  together : ∀ r ∈ rs, ∀ l1 ∈ r.threads.flatten, ∀ l2 ∈ r.threads.flatten, ∀ k1 ∈ l1.2, ∀ k2 ∈ l2.2, ∀ t1 t2, trips[k1]? = some t1 →
    trips[k2]? = some t2 → t1.route = t2.route → ∀ R ∈ routes, R.id = t1.route →
    colorOf noColor writeColors R l1.1 = colorOf noColor writeColors R l2.1 →
    ∀ t1' ∈ trips', ∀ t2' ∈ trips', t1'.id = t1.id → t2'.id = t2.id → t1'.route = t2'.route

/-! ### proof -/

theorem colorOf_eq (noColor : Nat) (w : Bool) (R : Route A) (c : Nat) : colorOf noColor w R c = Color.wanted noColor w R c := rfl

theorem routesApart {i : Tables A B X Z} {F : Color.Feed A B} (hl : Content.Loaded i F) {rs : List Run} (hm : ColorsOk rs i.trips.length)
    (h : ModesApart rs i.trips) : Color.RoutesApart (paints rs) F := by
  rintro k k' ⟨a, b, p, q, hne, hp, hq, ⟨l, hl1, hk⟩, l', hl', hk'⟩ e
  rw [paints, List.getElem?_map] at hp hq
  obtain ⟨r, hr, rfl⟩ := Option.map_eq_some_iff.mp hp
  obtain ⟨r', hr', rfl⟩ := Option.map_eq_some_iff.mp hq
  have h1 := (hm r (List.mem_of_getElem? hr)).1 l hl1 k hk
  have h2 := (hm r' (List.mem_of_getElem? hr')).1 l' hl' k' hk'
  obtain ⟨x, R, e1, e2, e3⟩ := hl.trip k _ (List.getElem?_eq_getElem h1)
  obtain ⟨y, S, f1, f2, f3⟩ := hl.trip k' _ (List.getElem?_eq_getElem h2)
  rw [e1, f1] at e
  cases e
  rw [e2] at f2
  cases f2
  exact h a b r r' hne hr hr' l hl1 l' hl' k hk k' hk' _ _ (List.getElem?_eq_getElem h1) (List.getElem?_eq_getElem h2)
    (e3.symm.trans f3)

/-- The row of a trip in the output. -/
theorem row_at {noColor : Nat} {w : Bool} {i : Tables A B X Z} (v : Content.Valid i) {F F' : Color.Feed A B} {rows : List (TripRow X)}
    (hl : Content.Loaded i F) (hs : Color.Grown noColor w F F') {ss : List Str} (hr : Content.flatTrips F' i.trips F'.trips ss = some rows)
    {routes' : List (Route A)} (pr : routes'.Perm F'.routes) {k : Nat} {t : TripRow X} (ht : i.trips[k]? = some t) {t' : TripRow X}
    (ht' : t' ∈ rows) (hid : t'.id = t.id) :
    ∃ r r' R R', F.trips[k]? = some r ∧ F'.trips[k]? = some r' ∧ F.routes[r]? = some R ∧ F'.routes[r']? = some R' ∧
      (∀ S ∈ i.routes, S.id = t.route → S = R) ∧ (∀ S ∈ routes', S.id = t'.route → S = R') ∧ R'.id = t'.route ∧ R.id = t.route := by
  obtain ⟨k', hk, hk'⟩ := Content.same_place v hr (List.mem_of_getElem? ht) ht' hid
  have e1 : (i.trips.map (·.id))[k']? = some t.id := by rw [List.getElem?_map, hk]; rfl
  have e2 : (i.trips.map (·.id))[k]? = some t.id := by rw [List.getElem?_map, ht]; rfl
  have := (List.getElem?_inj (Content.lt_of_some e1) v.trips).mp (e1.trans e2.symm)
  subst this
  obtain ⟨r, r', R, R', s, g1, g2, g3, g4, g5, g6, _⟩ := Content.trip_at hl hs hr ht
  rw [hk'] at g6
  cases g6
  refine ⟨r, r', R, R', g1, g2, g3, g4, ?_, ?_, rfl, g5⟩
  · intro S hS e
    exact Content.ids_unique v.routes hS (by rw [← hl.routes]; exact List.mem_of_getElem? g3) (e.trans g5.symm)
  · intro S hS e
    exact Content.ids_unique hs.ids (pr.mem_iff.mp hS) (List.mem_of_getElem? g4) e

theorem colored_of {noColor : Nat} {w : Bool} {tc : Nat → Nat} {i : Tables A B X Z} (v : Content.Valid i) {F : Color.Feed A B}
    {rs : List Run} (hm : ColorsOk rs i.trips.length) (h : ModesApart rs i.trips) (hl : Content.Loaded i F) {F' : Color.Feed A B}
    (he : Color.colorRuns noColor tc w (paints rs) F = some F') {rows : List (TripRow X)} {ss : List Str}
    (hr : Content.flatTrips F' i.trips F'.trips ss = some rows) {routes' : List (Route A)} {trips' : List (TripRow X)}
    (pr : routes'.Perm F'.routes) (pt : trips'.Perm rows) : Colored noColor w rs i.routes routes' i.trips trips' := by
  obtain ⟨F2, he2, hs, hc⟩ := Color.C48_runs noColor tc w (paints rs) F (Content.loaded_ok v hl) (by rw [hl.len]; exact paintsOk hm)
  rw [he] at he2
  cases he2
  obtain ⟨c1, c2⟩ := hc (routesApart hl hm h)
  have hp : ∀ r ∈ rs, (⟨r.keep, r.threads⟩ : Color.Paint) ∈ paints rs := fun r hr => List.mem_map.mpr ⟨r, hr, rfl⟩
  constructor
  · intro r hrm l hlm k hk t ht R hR eR t' ht' eid R' hR' eR'
    obtain ⟨x, y, S, S', g1, g2, g3, g4, g5, g6, _⟩ := row_at v hl hs hr pr ht (pt.mem_iff.mp ht') eid
    rw [g5 R hR eR, g6 R' hR' eR']
    exact c1 _ (hp r hrm) l hlm k hk x y S S' g1 g3 g2 g4
  · intro r hrm l1 hl1 l2 hl2 k1 hk1 k2 hk2 t1 t2 ht1 ht2 er R hR eR ec t1' ht1' t2' ht2' eid1 eid2
    obtain ⟨x, y, S, S', g1, g2, g3, g4, g5, g6, g7, g8⟩ := row_at v hl hs hr pr ht1 (pt.mem_iff.mp ht1') eid1
    obtain ⟨x2, y2, T, T', f1, f2, f3, f4, f5, f6, f7, f8⟩ := row_at v hl hs hr pr ht2 (pt.mem_iff.mp ht2') eid2
    have hST : S.id = T.id := by rw [g8, f8, er]
    have hx : x = x2 := by
      have e1 : (F.routes.map (·.id))[x]? = some S.id := by rw [List.getElem?_map, g3]; rfl
      have e2 : (F.routes.map (·.id))[x2]? = some S.id := by rw [List.getElem?_map, f3, hST]; rfl
      exact (List.getElem?_inj (Content.lt_of_some e1) (Content.loaded_ok v hl).ids).mp (e1.trans e2.symm)
    subst hx
    have := c2 _ (hp r hrm) l1 hl1 l2 hl2 k1 hk1 k2 hk2 x S g1 f1 g3 (by rw [← g5 R hR eR]; exact ec)
    rw [g2, f2] at this
    cases this
    rw [g4] at f4
    cases f4
    rw [← g7, f7]

/-- `write` for a feed without errors. -/
theorem write_ok {w : Widths} {m : Matching} {e : Env A B X (Shapes.Row ⊕ Y)} {i : Tables A B X (Shapes.Row ⊕ Y)} (v : Content.Valid i)
    {rs : List Run} (hm : ColorsOk rs i.trips.length) (limit : Nat) (s : St) :
    ∃ F F' rows, write m e w limit i rs s = some (Content.outFeed (shapesEnv w (Shapes.exec limit s.hist) e) i F' rows) ∧
      Content.Loaded i F ∧ Color.colorRuns m.noColor m.textColor m.writeColors (paints rs) F = some F' ∧
      Color.Grown m.noColor m.writeColors F F' ∧
      Content.flatTrips F' i.trips F'.trips ((List.range i.trips.length).map s.shape) = some rows := by
  obtain ⟨F, hF⟩ := Content.load_valid v
  have hl := Content.loaded_of_load hF
  obtain ⟨F', h1, h2, hg⟩ := Color.colorRuns_grown m.noColor m.textColor m.writeColors (paints rs) F (Content.loaded_ok v hl)
    (by rw [hl.len]; exact paintsOk hm)
  obtain ⟨rows, h4⟩ := Content.flatTrips_all (F := F') (ts := i.trips) (rs := F'.trips) (ss := (List.range i.trips.length).map s.shape)
    (by rw [hg.trips, hl.len]) (by simp) h2.trips
  exact ⟨F, F', rows, by rw [write, hF]; simp only [h1, h4], hl, h1, hg, h4⟩

/-- **C85 (service).** For every feed without errors, any number of mode configurations, whatever was matched for them: the feed is
written; and after every run of the writer that reached its end, the files routes.txt and trips.txt of the output are those of the input
except for colours and shapes, and all other files except for shapes.txt, stop_times.txt and attributions.txt are copied row by row. If no
route has trips that are matched for different configurations, matched trips are on routes of the colours they were matched with, as far
as their routes had none. -/
theorem C85_service (w : Widths) (m : Matching) (e : Env A B X (Shapes.Row ⊕ Y)) (he : EnvOk e) (i : Tables A B X (Shapes.Row ⊕ Y))
    (v : Content.Valid i) (rs : List Run) (hm : ColorsOk rs i.trips.length) (limit : Nat) (s : St) :
    ∃ f, write m e w limit i rs s = some f ∧ ∀ (c : Cfg) (fs : FS (FRow A B X Y)), Paths c → NoTmpZip c fs → Reads c fs i →
      ∀ as : List Act, .wrErr ∉ as → (Out.run c (Out.init fs (jobs f)) as).phase = .done →
        (∃ routes' trips', HasOutput c (Out.run c (Out.init fs (jobs f)) as).fs .routes (.header .routes :: routes'.map .route) ∧
          HasOutput c (Out.run c (Out.init fs (jobs f)) as).fs .trips (.header .trips :: trips'.map .trip) ∧
          SameService m.noColor m.writeColors i.routes routes' i.trips trips' ∧
          (ModesApart rs i.trips → Colored m.noColor m.writeColors rs i.routes routes' i.trips trips')) ∧
        (∀ n ∈ [Name.agency, .stops, .calendar, .calendarDates, .transfers, .fareAttributes, .fareRules, .pathways, .levels], ∀ rows,
          HasInput c fs n rows → HasOutput c (Out.run c (Out.init fs (jobs f)) as).fs n (.header n :: rows)) ∧
        (∀ r rows, HasInput c fs .frequencies (r :: rows) →
          HasOutput c (Out.run c (Out.init fs (jobs f)) as).fs .frequencies (.header .frequencies :: r :: rows)) := by
  obtain ⟨F, F', rows, h1, h2, h3, h4, h5⟩ := write_ok (w := w) (m := m) (e := e) v hm limit s
  refine ⟨_, h1, ?_⟩
  intro c fs g hz hrd as ha hd
  obtain ⟨o1, o2, _⟩ := Out.C42_memory _ c g fs hz as ha hd
  exact ⟨⟨e.orderR F'.routes, e.orderT rows, o1, o2, Content.service_of v h2 h4 h5 (he.routes _) (he.trips _),
    fun h => colored_of v hm h h2 h3 h5 (he.routes _) (he.trips _)⟩, Content.files_of v c fs g hz hrd as ha hd⟩

/-- **C85 (fares in memory).** For any number of mode configurations, the same rules hold for the same trips in memory as in the input
(for fare_rules.txt see `C84_fares_lost`). -/
theorem C85_fares_memory (m : Matching) (i : Tables A B X Z) (v : Content.Valid i) (rs : List Run) (hm : ColorsOk rs i.trips.length) :
    ∃ F F', Content.load i = some F ∧ Color.colorRuns m.noColor m.textColor m.writeColors (paints rs) F = some F' ∧
      ∀ (k : Nat) (t : TripRow X), i.trips[k]? = some t → ∀ fare x, MemRuleFor i.fares F' k fare x ↔ RuleFor i.trips i.rules t.id fare x := by
  obtain ⟨F, hF⟩ := Content.load_valid v
  have hl := Content.loaded_of_load hF
  obtain ⟨F', h1, _, hg⟩ := Color.colorRuns_grown m.noColor m.textColor m.writeColors (paints rs) F (Content.loaded_ok v hl)
    (by rw [hl.len]; exact paintsOk hm)
  exact ⟨F, F', hF, h1, Content.fares_of_grown v hl hg⟩

/-! ### example -/

/-- Two routes without colour; the first has a fare rule. -/
def exColors : Tables Unit Unit Unit (Shapes.Row ⊕ Unit) where
  routes := [⟨[1], 99, 99, ()⟩, ⟨[2], 99, 99, ()⟩]
  trips := [⟨[65], [1], [], ()⟩, ⟨[66], [1], [], ()⟩, ⟨[67], [2], [], ()⟩]
  fares := [([9], .inr ())]
  rules := [⟨[9], [1], ()⟩]
  freqs := []

/-- The trips of the first route are matched with different colours, that of the second route for another mode configuration. -/
def exColorRuns : List Run := [⟨[], 1, [], fun _ => false, [[(10, [0])], [(11, [1])]]⟩, ⟨[], 1, [], fun _ => false, [[(12, [2])]]⟩]

theorem exColors_apart : ModesApart exColorRuns exColors.trips := by
  intro a b r r' hne hr hr' l hl l' hl' k hk k' hk' t t' ht ht'
  have h0 : ∀ l ∈ [((10 : Nat), [0]), (11, [1])], ∀ k ∈ l.2, ∀ t ∈ exColors.trips[k]?, t.route = [1] := by decide
  have h1 : ∀ l ∈ [((12 : Nat), [2])], ∀ k ∈ l.2, ∀ t ∈ exColors.trips[k]?, t.route = [2] := by decide
  match a, b with
  | 0, 0 => exact absurd rfl hne
  | 1, 1 => exact absurd rfl hne
  | 0, 1 => cases hr; cases hr'; rw [h0 l hl k hk t ht, h1 l' hl' k' hk' t' ht']; decide
  | 1, 0 => cases hr; cases hr'; rw [h1 l hl k hk t ht, h0 l' hl' k' hk' t' ht']; decide
  | a + 2, _ => cases hr
  | 0, b + 2 => cases hr'
  | 1, b + 2 => cases hr'

/-- The hypotheses of `C85_service` hold; the first route is split, the second one gets its colour. -/
example : Content.Valid exColors ∧ ColorsOk exColorRuns 3 ∧ ModesApart exColorRuns exColors.trips ∧ EnvOk exEnv ∧
    ((Content.load exColors).bind fun F => (Color.colorRuns 99 id true (paints exColorRuns) F).map fun F =>
      (F.routes.map (·.color), F.trips)) = some ([99, 12, 10, 11], [2, 3, 1]) :=
  ⟨⟨by decide, by decide, by decide, by decide, by decide, by decide, by decide, by decide⟩, by unfold ColorsOk; decide, exColors_apart,
    ⟨fun _ => .refl _, fun l => List.reverse_perm l⟩, by decide +kernel⟩

end Verif.Result
