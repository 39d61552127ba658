import Verif.Content.Spec
import Verif.Color.SplitRuns

/-!
# The content of the written feed (lemmas)
-/

namespace Verif.Content
open Verif.Shapes (Str)
open Verif.Color (Route Rule)

variable {A B X Z : Type}

theorem pos_some : ∀ {l : List Str} {s : Str} {k : Nat}, pos l s = some k → l[k]? = some s
  | [], _, _, h => by cases h
  | x :: l, s, k, h => by
    rw [pos] at h
    by_cases hx : x = s
    · rw [if_pos hx] at h; cases h; rw [hx]; rfl
    · rw [if_neg hx] at h
      obtain ⟨k', h', rfl⟩ := Option.map_eq_some_iff.mp h
      rw [List.getElem?_cons_succ]
      exact pos_some h'

theorem pos_mem : ∀ {l : List Str} {s : Str}, s ∈ l → ∃ k, pos l s = some k
  | x :: l, s, h => by
    rw [pos]
    by_cases hx : x = s
    · exact ⟨0, if_pos hx⟩
    · obtain ⟨k, hk⟩ := pos_mem (l := l) ((List.mem_cons.mp h).resolve_left (fun e => hx e.symm))
      exact ⟨k + 1, by rw [if_neg hx, hk]; rfl⟩

theorem collect_all {α β : Type} {f : α → Option β} : ∀ {l : List α}, (∀ a ∈ l, ∃ b, f a = some b) → ∃ bs, collect f l = some bs
  | [], _ => ⟨[], rfl⟩
  | a :: l, h => by
    obtain ⟨b, hb⟩ := h a (List.mem_cons_self ..)
    obtain ⟨bs, hbs⟩ := collect_all (l := l) (fun a ha => h a (List.mem_cons_of_mem _ ha))
    exact ⟨b :: bs, by simp [collect, hb, hbs]⟩

theorem collect_get {α β : Type} {f : α → Option β} : ∀ {l : List α} {bs : List β}, collect f l = some bs →
    bs.length = l.length ∧ ∀ (k : Nat) a, l[k]? = some a → ∃ b, bs[k]? = some b ∧ f a = some b
  | [], bs, h => by cases h; exact ⟨rfl, fun k a h => by simp at h⟩
  | a :: l, bs, h => by
    rw [collect] at h
    cases hf : f a with
    | none => rw [hf] at h; cases h
    | some b =>
      rw [hf] at h
      obtain ⟨bs', h', rfl⟩ := Option.map_eq_some_iff.mp h
      obtain ⟨h1, h2⟩ := collect_get h'
      refine ⟨by simp [h1], ?_⟩
      intro k a' ha'
      cases k with
      | zero => cases ha'; exact ⟨b, rfl, hf⟩
      | succ k => exact h2 k a' (by simpa using ha')

theorem collect_mem {α β : Type} {f : α → Option β} {l : List α} {bs : List β} (h : collect f l = some bs) {b : β} (hb : b ∈ bs) :
    ∃ a ∈ l, f a = some b := by
  obtain ⟨h1, h2⟩ := collect_get h
  obtain ⟨k, hk⟩ := List.getElem?_of_mem hb
  have hlt : k < l.length := by rw [← h1]; exact (List.getElem?_eq_some_iff.mp hk).1
  obtain ⟨b', e1, e2⟩ := h2 k l[k] (List.getElem?_eq_getElem hlt)
  rw [hk] at e1
  cases e1
  exact ⟨_, List.getElem_mem _, e2⟩

/-- What reading gives. -/
structure Loaded (i : Tables A B X Z) (F : Color.Feed A B) : Prop where
  routes : F.routes = i.routes
  len : F.trips.length = i.trips.length
  trip : ∀ (k : Nat) t, i.trips[k]? = some t → ∃ r R, F.trips[k]? = some r ∧ i.routes[r]? = some R ∧ R.id = t.route
  flen : F.fares.length = i.fares.length
  fare : ∀ (k : Nat) f, i.fares[k]? = some f → ∃ rs, F.fares[k]? = some rs ∧
    collect (loadRule (i.routes.map (·.id))) (i.rules.filter fun r => r.fare = f.1) = some rs

theorem getElem?_map_id {l : List (Route A)} {k : Nat} {s : Str} (h : (l.map (·.id))[k]? = some s) : ∃ R, l[k]? = some R ∧ R.id = s := by
  rw [List.getElem?_map] at h
  exact Option.map_eq_some_iff.mp h

theorem loaded_of_load {i : Tables A B X Z} {F : Color.Feed A B} (h : load i = some F) : Loaded i F := by
  rw [load] at h
  cases h1 : collect (fun t => pos (i.routes.map (·.id)) t.route) i.trips with
  | none => rw [h1] at h; cases h
  | some trips =>
    cases h2 : collect (fun f => collect (loadRule (i.routes.map (·.id))) (i.rules.filter fun r => r.fare = f.1)) i.fares with
    | none => rw [h1, h2] at h; cases h
    | some fares =>
      rw [h1, h2] at h
      cases h
      obtain ⟨a1, a2⟩ := collect_get h1
      obtain ⟨b1, b2⟩ := collect_get h2
      refine ⟨rfl, a1, ?_, b1, b2⟩
      intro k t ht
      obtain ⟨r, e1, e2⟩ := a2 k t ht
      obtain ⟨R, e3, e4⟩ := getElem?_map_id (pos_some e2)
      exact ⟨r, R, e1, e3, e4⟩

theorem load_valid {i : Tables A B X Z} (v : Valid i) : ∃ F, load i = some F := by
  obtain ⟨trips, h1⟩ := collect_all (f := fun t : TripRow X => pos (i.routes.map (·.id)) t.route) (l := i.trips) (by
    intro t ht
    obtain ⟨R, hR, e⟩ := v.tripRoute t ht
    exact pos_mem (List.mem_map.mpr ⟨R, hR, e⟩))
  obtain ⟨fares, h2⟩ := collect_all
    (f := fun f : Str × Z => collect (loadRule (i.routes.map (·.id))) (i.rules.filter fun r => r.fare = f.1)) (l := i.fares) (by
    intro f _
    refine collect_all ?_
    intro r hr
    rw [loadRule]
    by_cases he : r.route = []
    · exact ⟨_, if_pos he⟩
    · rw [if_neg he]
      obtain ⟨R, hR, e⟩ := (v.ruleRoute r (List.mem_filter.mp hr).1).resolve_left he
      obtain ⟨k, hk⟩ := pos_mem (l := i.routes.map (·.id)) (s := r.route) (List.mem_map.mpr ⟨R, hR, e⟩)
      exact ⟨_, by rw [hk]; rfl⟩)
  exact ⟨⟨i.routes, trips, fares⟩, by rw [load, h1, h2]⟩

theorem lt_of_some {α : Type} {l : List α} {k : Nat} {a : α} (h : l[k]? = some a) : k < l.length :=
  (List.getElem?_eq_some_iff.mp h).1

theorem loaded_ok {i : Tables A B X Z} {F : Color.Feed A B} (v : Valid i) (h : Loaded i F) : Color.FeedOk F := by
  refine ⟨by rw [h.routes]; exact v.routes, ?_, ?_⟩
  · intro r hr
    obtain ⟨k, hk⟩ := List.getElem?_of_mem hr
    have hlt : k < i.trips.length := by rw [← h.len]; exact lt_of_some hk
    obtain ⟨r', R, e1, e2, _⟩ := h.trip k _ (List.getElem?_eq_getElem hlt)
    rw [hk] at e1
    cases e1
    rw [h.routes]
    exact lt_of_some e2
  · intro f hf x hx k hk
    obtain ⟨j, hj⟩ := List.getElem?_of_mem hf
    have hlt : j < i.fares.length := by rw [← h.flen]; exact lt_of_some hj
    obtain ⟨rs, e1, e2⟩ := h.fare j _ (List.getElem?_eq_getElem hlt)
    rw [hj] at e1
    cases e1
    obtain ⟨r, _, e3⟩ := collect_mem e2 hx
    rw [loadRule] at e3
    by_cases he : r.route = []
    · rw [if_pos he] at e3; cases e3; cases hk
    · rw [if_neg he] at e3
      obtain ⟨k', e4, rfl⟩ := Option.map_eq_some_iff.mp e3
      cases hk
      obtain ⟨R, e5, _⟩ := getElem?_map_id (pos_some e4)
      rw [h.routes]
      exact lt_of_some e5

/-- The rows of the trips. -/
theorem flatTrips_all {F : Color.Feed A B} : ∀ {ts : List (TripRow X)} {rs : List Nat} {ss : List Str}, rs.length = ts.length →
    ss.length = ts.length → (∀ r ∈ rs, r < F.routes.length) → ∃ rows, flatTrips F ts rs ss = some rows
  | [], rs, ss, _, _, _ => ⟨[], by rw [flatTrips]⟩
  | t :: ts, [], ss, h, _, _ => by cases h
  | t :: ts, r :: rs, [], _, h, _ => by cases h
  | t :: ts, r :: rs, s :: ss, h1, h2, h3 => by
    obtain ⟨rows, h⟩ := flatTrips_all (F := F) (ts := ts) (rs := rs) (ss := ss) (by simpa using h1) (by simpa using h2)
      (fun r hr => h3 r (List.mem_cons_of_mem _ hr))
    have hr := h3 r (List.mem_cons_self ..)
    exact ⟨_ :: rows, by rw [flatTrips, flatTrip, List.getElem?_eq_getElem hr]; simp only [Option.map_some]; rw [h]; rfl⟩

theorem flatTrips_get {F : Color.Feed A B} : ∀ {ts : List (TripRow X)} {rs : List Nat} {ss : List Str} {rows : List (TripRow X)},
    flatTrips F ts rs ss = some rows → rows.length = ts.length ∧ ∀ (k : Nat) t, ts[k]? = some t → ∃ r s R, rs[k]? = some r ∧
      ss[k]? = some s ∧ F.routes[r]? = some R ∧ rows[k]? = some { t with route := R.id, shape := s }
  | [], rs, ss, rows, h => by
    rw [flatTrips] at h
    cases h
    exact ⟨rfl, fun k t h => by simp at h⟩
  | t :: ts, [], ss, rows, h => by simp [flatTrips] at h
  | t :: ts, r :: rs, [], rows, h => by simp [flatTrips] at h
  | t :: ts, r :: rs, s :: ss, rows, h => by
    rw [flatTrips] at h
    cases hf : flatTrip F t r s with
    | none => rw [hf] at h; cases h
    | some row =>
      rw [hf] at h
      obtain ⟨rows', h', rfl⟩ := Option.map_eq_some_iff.mp h
      obtain ⟨h1, h2⟩ := flatTrips_get h'
      refine ⟨by simp [h1], ?_⟩
      intro k t' ht'
      cases k with
      | zero =>
        cases ht'
        rw [flatTrip] at hf
        obtain ⟨R, hR, e⟩ := Option.map_eq_some_iff.mp hf
        exact ⟨r, s, R, rfl, rfl, hR, by rw [← e]; rfl⟩
      | succ k => exact h2 k t' (by simpa using ht')

theorem perm_map_of_get {α β γ : Type} {f : α → γ} {g : β → γ} : ∀ {as : List α} {bs : List β}, as.length = bs.length →
    (∀ (k : Nat) a b, as[k]? = some a → bs[k]? = some b → f a = g b) → as.map f = bs.map g
  | [], [], _, _ => rfl
  | [], _ :: _, h, _ => by cases h
  | _ :: _, [], h, _ => by cases h
  | a :: as, b :: bs, h, hk => by
    rw [List.map_cons, List.map_cons, hk 0 a b rfl rfl, perm_map_of_get (as := as) (bs := bs) (by simpa using h)
      (fun k a b ha hb => hk (k + 1) a b (by simpa using ha) (by simpa using hb))]

/-- The matched trips are trips of the feed, none is matched twice, and each trip has a shape (or none). -/
structure MatchOk (m : Matching) (i : Tables A B X Z) : Prop where
  trips : ∀ l ∈ m.threads.flatten, ∀ t ∈ l.2, t < i.trips.length
  once : (m.threads.flatten.flatMap (·.2)).Nodup
  shapes : m.shapes.length = i.trips.length

theorem process_ok {m : Matching} {e : Env A B X Z} {i : Tables A B X Z} (v : Valid i) (hm : MatchOk m i) :
    ∃ F F' rows, process m e i = some (outFeed e i F' rows) ∧ Loaded i F ∧
      Color.colorRoutes m.noColor m.textColor m.writeColors m.keep m.threads F = some F' ∧
      Color.SplitOf m.noColor m.textColor m.writeColors m.threads.flatten F F' ∧
      flatTrips F' i.trips F'.trips m.shapes = some rows := by
  obtain ⟨F, hF⟩ := load_valid v
  have hl := loaded_of_load hF
  obtain ⟨F', h1, h2⟩ := Color.C48_split m.noColor m.textColor m.writeColors m.keep m.threads F (loaded_ok v hl)
    (fun l hl' t ht => by rw [hl.len]; exact hm.trips l hl' t ht) hm.once
  obtain ⟨rows, h3⟩ := flatTrips_all (F := F') (ts := i.trips) (rs := F'.trips) (ss := m.shapes) (by rw [h2.trips, hl.len]) hm.shapes (by
    intro r hr
    obtain ⟨k, hk⟩ := List.getElem?_of_mem hr
    have hlt : k < i.trips.length := by rw [← hl.len, ← h2.trips]; exact lt_of_some hk
    obtain ⟨r0, R, e1, e2, _⟩ := hl.trip k _ (List.getElem?_eq_getElem hlt)
    obtain ⟨r', R', e3, e4, _⟩ := h2.kept k r0 R e1 (by rw [hl.routes]; exact e2)
    rw [hk] at e3
    cases e3
    exact lt_of_some e4)
  exact ⟨F, F', rows, by rw [process, hF]; simp only [h1, h3], hl, h1, h2, h3⟩

/-- The trip at a place, before and after. -/
theorem trip_at {noColor : Nat} {writeColors : Bool} {i : Tables A B X Z} {F F' : Color.Feed A B} {rows : List (TripRow X)}
    (hl : Loaded i F) (hs : Color.Grown noColor writeColors F F') {ss : List Str} (hr : flatTrips F' i.trips F'.trips ss = some rows) {k : Nat} {t : TripRow X} (ht : i.trips[k]? = some t) :
    ∃ r r' R R' s, F.trips[k]? = some r ∧ F'.trips[k]? = some r' ∧ F.routes[r]? = some R ∧ F'.routes[r']? = some R' ∧
      R.id = t.route ∧ rows[k]? = some { t with route := R'.id, shape := s } ∧ R'.rest = R.rest ∧
      (R'.color = R.color ∨ writeColors = true ∧ R.color = noColor ∧ R.text = noColor ∧ R'.color ≠ noColor) ∧
      (r' = r ∨ R'.id ∉ F.routes.map (·.id) ∧ R'.color ≠ R.color) ∧
      (∀ (j : Nat) f f', F.fares[j]? = some f → F'.fares[j]? = some f' →
        (f'.filter (fun x => x.route = some r')).map (·.rest) = (f.filter (fun x => x.route = some r)).map (·.rest)) := by
  obtain ⟨r, R, e1, e2, e3⟩ := hl.trip k t ht
  obtain ⟨r', R', f1, f2, f3, f4, f6, f7⟩ := hs.kept k r R e1 (by rw [hl.routes]; exact e2)
  obtain ⟨r2, s, R2, g1, _, g3, g4⟩ := (flatTrips_get hr).2 k t ht
  rw [f1] at g1; cases g1
  rw [f2] at g3; cases g3
  exact ⟨r, r', R, R', s, e1, f1, by rw [hl.routes]; exact e2, f2, e3, g4, f3, f4.imp (fun h => h.1) (fun h => h), f6, f7⟩

/-- Trips with the same id are at the same place. -/
theorem same_place {i : Tables A B X Z} (v : Valid i) {F' : Color.Feed A B} {ss : List Str} {rows : List (TripRow X)}
    (hr : flatTrips F' i.trips F'.trips ss = some rows) {t t' : TripRow X} (ht : t ∈ i.trips) (ht' : t' ∈ rows) (hid : t'.id = t.id) :
    ∃ k : Nat, i.trips[k]? = some t ∧ rows[k]? = some t' := by
  obtain ⟨h1, h2⟩ := flatTrips_get hr
  obtain ⟨k, hk⟩ := List.getElem?_of_mem ht
  obtain ⟨k', hk'⟩ := List.getElem?_of_mem ht'
  have hlt : k' < i.trips.length := by rw [← h1]; exact lt_of_some hk'
  obtain ⟨_, _, _, _, _, _, e⟩ := h2 k' _ (List.getElem?_eq_getElem hlt)
  rw [hk'] at e
  cases e
  have e1 : (i.trips.map (·.id))[k]? = some t.id := by rw [List.getElem?_map, hk]; rfl
  have e2 : (i.trips.map (·.id))[k']? = some t.id := by rw [List.getElem?_map, List.getElem?_eq_getElem hlt, ← hid]; rfl
  have := (List.getElem?_inj (lt_of_some e1) v.trips).mp (e1.trans e2.symm)
  subst this
  exact ⟨k, hk, hk'⟩

theorem mem_rows {i : Tables A B X Z} {F' : Color.Feed A B} {ss : List Str} {rows : List (TripRow X)}
    (hr : flatTrips F' i.trips F'.trips ss = some rows) {t' : TripRow X} (ht' : t' ∈ rows) : ∃ t ∈ i.trips, t'.id = t.id := by
  obtain ⟨h1, h2⟩ := flatTrips_get hr
  obtain ⟨k', hk'⟩ := List.getElem?_of_mem ht'
  have hlt : k' < i.trips.length := by rw [← h1]; exact lt_of_some hk'
  obtain ⟨_, _, _, _, _, _, e⟩ := h2 k' _ (List.getElem?_eq_getElem hlt)
  rw [hk'] at e
  cases e
  exact ⟨_, List.getElem_mem hlt, rfl⟩

theorem rows_mem {i : Tables A B X Z} {F' : Color.Feed A B} {ss : List Str} {rows : List (TripRow X)}
    (hr : flatTrips F' i.trips F'.trips ss = some rows) {t : TripRow X} (ht : t ∈ i.trips) : ∃ t' ∈ rows, t'.id = t.id := by
  obtain ⟨h1, h2⟩ := flatTrips_get hr
  obtain ⟨k, hk⟩ := List.getElem?_of_mem ht
  obtain ⟨_, s, R, _, _, _, e⟩ := h2 k t hk
  exact ⟨_, List.mem_of_getElem? e, rfl⟩

theorem ids_unique {l : List (Route A)} (h : (l.map (·.id)).Nodup) {a b : Route A} (ha : a ∈ l) (hb : b ∈ l) (e : a.id = b.id) :
    a = b := by
  obtain ⟨j, hj⟩ := List.getElem?_of_mem ha
  obtain ⟨k, hk⟩ := List.getElem?_of_mem hb
  have e1 : (l.map (·.id))[j]? = some a.id := by rw [List.getElem?_map, hj]; rfl
  have e2 : (l.map (·.id))[k]? = some a.id := by rw [List.getElem?_map, hk, e]; rfl
  have := (List.getElem?_inj (lt_of_some e1) h).mp (e1.trans e2.symm)
  subst this
  rw [hj] at hk
  cases hk
  rfl

theorem service_of {noColor : Nat} {writeColors : Bool} {i : Tables A B X Z} {F F' : Color.Feed A B} {rows : List (TripRow X)} (v : Valid i)
    (hl : Loaded i F) (hs : Color.Grown noColor writeColors F F') {ss : List Str} (hr : flatTrips F' i.trips F'.trips ss = some rows) {routes' : List (Route A)} {trips' : List (TripRow X)}
    (pr : routes'.Perm F'.routes) (pt : trips'.Perm rows) :
    SameService noColor writeColors i.routes routes' i.trips trips' := by
  refine ⟨?_, ?_, ?_, ?_⟩
  · refine (pt.map _).trans (List.Perm.of_eq ?_)
    refine perm_map_of_get (flatTrips_get hr).1 ?_
    intro k a b ha hb
    obtain ⟨_, _, _, _, _, _, e⟩ := (flatTrips_get hr).2 k b hb
    rw [ha] at e
    cases e
    rfl
  · exact ((pr.map (·.id)).nodup_iff).mpr hs.ids
  · intro R hR
    obtain ⟨k, hk⟩ := List.getElem?_of_mem hR
    obtain ⟨R', e1, e2, e3, e4⟩ := hs.routes k R (by rw [hl.routes]; exact hk)
    exact ⟨R', pr.mem_iff.mpr (List.mem_of_getElem? e1), e2, e3, e4.imp (fun h => h.1) (fun h => ⟨h.1, h.2.1, h.2.2.1⟩)⟩
  · intro t ht t' ht' hid
    obtain ⟨k, hk, hk'⟩ := same_place v hr ht (pt.mem_iff.mp ht') hid
    obtain ⟨r, r', R, R', s, e1, e2, e3, e4, e5, e6, e7, e8, e9, _⟩ := trip_at hl hs hr hk
    rw [hk'] at e6
    cases e6
    have hRm : R ∈ i.routes := by rw [← hl.routes]; exact List.mem_of_getElem? e3
    refine ⟨R, hRm, e5, R', pr.mem_iff.mpr (List.mem_of_getElem? e4), rfl, e7, ?_, ?_⟩
    · rcases e8 with h | ⟨h1, h2, h3, _⟩
      · exact .inl h
      · exact .inr ⟨h1, h2, h3⟩
    · rcases e9 with h | ⟨h1, h2⟩
      · subst h
        obtain ⟨R2, g1, g2, _⟩ := hs.routes r' R e3
        rw [e4] at g1
        cases g1
        exact .inl (by rw [← e5]; exact g2)
      · rcases e8 with h | ⟨g1, g2, _, g4⟩
        · exact absurd h h2
        · exact .inr ⟨g1, g2, g4, by rw [← hl.routes]; exact h1⟩

end Verif.Content
