import Verif.Threads.Example
import Verif.Color.SplitSame

/-!
# Routes and colours do not depend on threads and schedules (property C99)
-/

namespace Verif.Threads
open Verif.Shapes (Widths)
open Verif.Line (Geo GeoOk ShpPt)
open Verif.Content (Tables TripRow Matching EnvOk)
open Verif.Color (Route SamePaints)
open Verif.Result (St)
open Verif.Dists (MRun DRow write)
open Verif.Out (Cfg FS Act Paths NoTmpZip HasOutput StRow StopTime)
open Verif.Build (Mode ModeOk mruns mrun items Spread)

variable {E C Pt D S P A X S' Y A' B' : Type}

/-! ### specification -/

/-- Two outputs for the same input have the same routes, with the same ids and colours, and each trip is on the same route. -/
structure SameRoutes (trips trips1 trips2 : List (TripRow X)) (routes1 routes2 : List (Route A')) : Prop where
  routes : routes1.Perm routes2
  route : ∀ t ∈ trips, ∀ u1 ∈ trips1, ∀ u2 ∈ trips2, u1.id = t.id → u2.id = t.id → u1.route = u2.route

/-! ### proof -/

theorem mruns_paints [DecidableEq E] {geo : Geo Pt} {enc : ShpPt Pt → Shapes.Point} {encD : Rat → List Nat} {n noColor : Nat}
    {ms ms' : List (Mode E C Pt D S P A)} (h : LikeAll ms ms') :
    (∀ m ∈ ms, ModeOk m n) → (∀ m ∈ ms', ModeOk m n) → Spread geo noColor n ms → Spread geo noColor n ms' →
    ∀ rs rs', mruns geo enc encD n ms = some rs → mruns geo enc encD n ms' = some rs' →
    SamePaints (Result.paints (rs.map (·.run))) (Result.paints (rs'.map (·.run))) := by
  induction h with
  | nil => intro _ _ _ _ rs rs' h h'; cases h; cases h'; exact .nil
  | @cons m m' ms ms' hl _ ih =>
    intro ok ok' sp sp' rs rs' h h'
    have ei := items_like (geo := geo) hl (ok m (List.mem_cons_self ..)) (ok' m' (List.mem_cons_self ..))
    rw [mruns, Content.collect] at h h'
    rw [ei] at h'
    cases hi : items geo m n with
    | none => rw [hi] at h; cases h
    | some its =>
      have p1 := sp m (List.mem_cons_self ..) its hi
      have p2 := sp' m' (List.mem_cons_self ..) its (ei.trans hi)
      rw [hi] at h h'
      cases hc : Content.collect (fun m => (items geo m n).map (mrun enc encD m)) ms with
      | none => simp only [Option.map_some, hc] at h; cases h
      | some r =>
        cases hc' : Content.collect (fun m => (items geo m n).map (mrun enc encD m)) ms' with
        | none => simp only [Option.map_some, hc'] at h'; cases h'
        | some r' =>
          simp only [Option.map_some, hc] at h
          simp only [Option.map_some, hc'] at h'
          cases h
          cases h'
          have ek : m.keep = m'.keep := by rw [hl]
          exact .cons ek (p1.trans p2.symm) (ih (fun x hx => ok x (List.mem_cons_of_mem _ hx)) (fun x hx => ok' x (List.mem_cons_of_mem _ hx))
            (fun x hx => sp x (List.mem_cons_of_mem _ hx)) (fun x hx => sp' x (List.mem_cons_of_mem _ hx)) r r' hc hc')

/-- `write` for a feed that was read without errors. -/
theorem write_loaded {A B Y : Type} {w : Widths} {m : Matching} {e : Content.Env A B X (Shapes.Row ⊕ Y)} {i : Tables A B X (Shapes.Row ⊕ Y)}
    (v : Content.Valid i) {F : Color.Feed A B} (hF : Content.load i = some F) {rs : List Result.Run} (hm : Result.ColorsOk rs i.trips.length)
    (limit : Nat) (s : St) :
    ∃ F' rows, Result.write m e w limit i rs s = some (Content.outFeed (Result.shapesEnv w (Shapes.exec limit s.hist) e) i F' rows) ∧
      Color.colorRuns m.noColor m.textColor m.writeColors (Result.paints rs) F = some F' ∧ Color.Grown m.noColor m.writeColors F F' ∧
      Content.flatTrips F' i.trips F'.trips ((List.range i.trips.length).map s.shape) = some rows := by
  have hl := Content.loaded_of_load hF
  obtain ⟨F', h1, h2, hg⟩ := Color.colorRuns_grown m.noColor m.textColor m.writeColors (Result.paints rs) F (Content.loaded_ok v hl)
    (by rw [hl.len]; exact Result.paintsOk hm)
  obtain ⟨rows, h4⟩ := Content.flatTrips_all (F := F') (ts := i.trips) (rs := F'.trips) (ss := (List.range i.trips.length).map s.shape)
    (by rw [hg.trips, hl.len]) (by simp) h2.trips
  exact ⟨F', rows, by rw [Result.write, hF]; simp only [h1, h4], h1, hg, h4⟩

/-- **C99 (routes).** Two runs for the same feed, map and configuration, with any numbers of threads, any schedules and any distribution of the work:
routes.txt has the same rows, with the same ids and colours, and each trip is on the same route. `e` and `e'`: the orders in which the containers of the
feed are written. -/
theorem C99_routes_partial [DecidableEq E] {geo : Geo Pt} {pt : List Pt → Rat → Pt} (gok : GeoOk geo pt) (w : Widths)
    (mt : Matching) (e e' : Content.Env A' B' X (Shapes.Row ⊕ (StRow (List Nat) S' ⊕ Y))) (he : EnvOk e) (he' : EnvOk e')
    (i : Tables A' B' X (Shapes.Row ⊕ (StRow (List Nat) S' ⊕ Y))) (v : Content.Valid i)
    (enc : ShpPt Pt → Shapes.Point) (encD : Rat → List Nat) (ms ms' : List (Mode E C Pt D S P A)) (hl : LikeAll ms ms')
    (ok : ∀ m ∈ ms, ModeOk m i.trips.length) (hret : ∀ m ∈ ms', Returns m i.trips.length)
    (hsp : Spread geo mt.noColor i.trips.length ms) (hsp' : Spread geo mt.noColor i.trips.length ms')
    (rs rs' : List (MRun (List Nat))) (hrs : mruns geo enc encD i.trips.length ms = some rs) (hrs' : mruns geo enc encD i.trips.length ms' = some rs')
    (limit : Nat) (s s' : St) (ts ts' : List (List (StopTime (List Nat)))) :
    ∃ f f', write mt e w limit i rs s ts = some f ∧ write mt e' w limit i rs' s' ts' = some f' ∧
      ∀ (c c' : Cfg) (fs fs' : FS (DRow A' B' (List Nat) S' X Y)), Paths c → NoTmpZip c fs → Paths c' → NoTmpZip c' fs' →
      ∀ as as' : List Act, .wrErr ∉ as → (Out.run c (Out.init fs (Out.jobs f)) as).phase = .done →
        .wrErr ∉ as' → (Out.run c' (Out.init fs' (Out.jobs f')) as').phase = .done →
        ∃ routes1 trips1 routes2 trips2,
          HasOutput c (Out.run c (Out.init fs (Out.jobs f)) as).fs .routes (.header .routes :: routes1.map .route) ∧
          HasOutput c (Out.run c (Out.init fs (Out.jobs f)) as).fs .trips (.header .trips :: trips1.map .trip) ∧
          HasOutput c' (Out.run c' (Out.init fs' (Out.jobs f')) as').fs .routes (.header .routes :: routes2.map .route) ∧
          HasOutput c' (Out.run c' (Out.init fs' (Out.jobs f')) as').fs .trips (.header .trips :: trips2.map .trip) ∧
          SameRoutes i.trips trips1 trips2 routes1 routes2 := by
  have ok' := ok_all hl ok hret
  have c1 := Build.colorsOk_of gok ok (Build.runs_ok hrs) hsp
  have c2 := Build.colorsOk_of gok ok' (Build.runs_ok hrs') hsp'
  obtain ⟨F, hF⟩ := Content.load_valid v
  have l1 := Content.loaded_of_load hF
  obtain ⟨F1, rows1, w1, k1, g1, t1⟩ := write_loaded (w := w) (m := mt) (e := Dists.stEnv (Dists.lookup i.trips ts) e) v hF c1 limit s
  obtain ⟨F2, rows2, w2, k2, g2, t2⟩ := write_loaded (w := w) (m := mt) (e := Dists.stEnv (Dists.lookup i.trips ts') e') v hF c2 limit s'
  have same := Color.C48_threads mt.noColor mt.textColor mt.writeColors (mruns_paints hl ok ok' hsp hsp' rs rs' hrs hrs') F (Content.loaded_ok v l1)
    (by rw [l1.len]; exact Result.paintsOk c1)
  rw [k1, k2] at same
  cases same
  refine ⟨_, _, w1, w2, fun c c' fs fs' p1 p2 q1 q2 as as' p3 p4 q3 q4 => ?_⟩
  obtain ⟨o1, o2, _⟩ := Out.C42_memory _ c p1 fs p2 as p3 p4
  obtain ⟨o3, o4, _⟩ := Out.C42_memory _ c' q1 fs' q2 as' q3 q4
  refine ⟨e.orderR F1.routes, e.orderT rows1, e'.orderR F1.routes, e'.orderT rows2, o1, o2, o3, o4, (he.routes _).trans (he'.routes _).symm, ?_⟩
  intro t ht u1 hu1 u2 hu2 e1 e2
  obtain ⟨k, hk⟩ := List.getElem?_of_mem ht
  obtain ⟨_, r1, _, R1, _, a1, _, b1, _, _, d1, _⟩ := Result.row_at v l1 g1 t1 (.refl _) hk ((he.trips _).mem_iff.mp hu1) e1
  obtain ⟨_, r2, _, R2, _, a2, _, b2, _, _, d2, _⟩ := Result.row_at v l1 g2 t2 (.refl _) hk ((he'.trips _).mem_iff.mp hu2) e2
  rw [a1] at a2
  cases a2
  rw [b1] at b2
  cases b2
  rw [← d1, d2]

/-- The hypotheses of `C99_routes_partial` hold in the example of `C99_drop_partial`; a route without colour has trips that are matched with the colour 7
and without colour. -/
example : LikeAll [Share.exShareMode] [exOther] ∧ (∀ m ∈ [Share.exShareMode], ModeOk m Dists.exTables.trips.length) ∧
    (∀ m ∈ [exOther], Returns m Dists.exTables.trips.length) ∧ Content.Valid Dists.exTables ∧
    (Share.exShareMode.threads.flatten, exOther.threads.flatten) = ([(7, [0]), (0, [1, 3])], [(0, [1, 3]), (7, [0])]) ∧
    (Dists.exTables.routes.map (·.color), Dists.exTables.trips.map (·.route)) = ([0], [[1], [1], [1], [1]]) := by
  refine ⟨.cons rfl .nil, Share.exShare_holds.1, fun m hm => ?_, Dists.exValid, rfl, by decide +kernel⟩
  rw [List.mem_singleton.mp hm]
  exact exOther_returns

end Verif.Threads
