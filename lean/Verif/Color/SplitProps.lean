import Verif.Color.SplitCollect

/-!
# Splitting routes by colour (property C48)
-/

namespace Verif.Color

variable {A B : Type}

/-- The trip gets the colour it was matched with if colours are to be written, there is such a colour, and its
route has neither colour nor text colour; otherwise it keeps that of its route. -/
def wanted (noColor : Nat) (writeColors : Bool) (R : Route A) (matched : Nat) : Nat :=
  if writeColors = true ∧ matched ≠ noColor ∧ R.color = noColor ∧ R.text = noColor then matched else R.color

/-- `F'` is `F` with its routes split by the colours of the trips. `leafs`: matched colours, each with
the trips it was matched for. -/
structure SplitOf (noColor : Nat) (textColor : Nat → Nat) (writeColors : Bool) (leafs : List (Nat × List Nat))
    (F F' : Feed A B) : Prop where
  /-- no trip is added or lost, and no fare -/
  trips : F'.trips.length = F.trips.length
  fares : F'.fares.length = F.fares.length
  /-- every matched trip has a route of its colour -/
  matched : ∀ l ∈ leafs, ∀ t ∈ l.2, ∀ (r r' : Nat) (R R' : Route A), F.trips[t]? = some r → F.routes[r]? = some R →
    F'.trips[t]? = some r' → F'.routes[r']? = some R' → R'.color = wanted noColor writeColors R l.1
  /-- trips of a route that get the same colour stay on one route -/
  together : ∀ l1 ∈ leafs, ∀ l2 ∈ leafs, ∀ t1 ∈ l1.2, ∀ t2 ∈ l2.2, ∀ (r : Nat) (R : Route A), F.trips[t1]? = some r →
    F.trips[t2]? = some r → F.routes[r]? = some R →
    wanted noColor writeColors R l1.1 = wanted noColor writeColors R l2.1 → F'.trips[t1]? = F'.trips[t2]?
  /-- the route of each trip differs from its old one in id and colour only -/
  kept : ∀ (t r : Nat) (R : Route A), F.trips[t]? = some r → F.routes[r]? = some R →
    ∃ (r' : Nat) (R' : Route A), F'.trips[t]? = some r' ∧ F'.routes[r']? = some R' ∧ R'.rest = R.rest ∧
      (R'.color = R.color ∨ writeColors = true ∧ R.color = noColor ∧ R.text = noColor ∧ R'.color ≠ noColor) ∧
      (R'.color ≠ R.color → R'.text = textColor R'.color) ∧
      (r' = r ∨ R'.id ∉ F.routes.map (·.id) ∧ R'.color ≠ R.color ∧ ∃ l ∈ leafs, t ∈ l.2) ∧
      (∀ (i : Nat) f f', F.fares[i]? = some f → F'.fares[i]? = some f' →
        (f'.filter (fun x => x.route = some r')).map (·.rest) = (f.filter (fun x => x.route = some r)).map (·.rest))
  /-- old routes stay, ids are unique -/
  routes : ∀ (r : Nat) (R : Route A), F.routes[r]? = some R → ∃ R', F'.routes[r]? = some R' ∧ R'.id = R.id ∧
    R'.rest = R.rest ∧ (R'.color = R.color ∨ writeColors = true ∧ R.color = noColor ∧ R.text = noColor)
  ids : (F'.routes.map (·.id)).Nodup
  /-- the text colour stays if there is no colour; routes without matched trips keep their colour -/
  texts : ∀ (r : Nat) (R R' : Route A), F.routes[r]? = some R → F'.routes[r]? = some R' → R'.color = noColor → R'.text = R.text
  others : ∀ (r : Nat) (R R' : Route A), F.routes[r]? = some R → F'.routes[r]? = some R' →
    (∀ l ∈ leafs, ∀ t ∈ l.2, F.trips[t]? ≠ some r) → R'.color = R.color
  /-- new routes come after the old ones -/
  new : ∀ (t r r' : Nat), F.trips[t]? = some r → F'.trips[t]? = some r' → r' ≠ r → F.routes.length ≤ r'
  /-- old fare rules stay, those without route are not copied -/
  rules : ∀ (i : Nat) f f', F.fares[i]? = some f → F'.fares[i]? = some f' → f <+: f' ∧
    f'.filter (fun x => x.route = none) = f.filter (fun x => x.route = none)

/-! ### proof -/

theorem filed_iff {noColor : Nat} {w : Bool} {R : Route A} {color c : Nat} :
    Filed noColor w R color c ↔ c = wanted noColor w R color := by
  unfold Filed wanted
  by_cases h : w = true ∧ color ≠ noColor ∧ R.color = noColor ∧ R.text = noColor
  · rw [if_pos h]
    constructor
    · rintro (⟨_, _, _, _, h⟩ | ⟨h', _⟩)
      · exact h
      · exact absurd h h'
    · exact fun e => .inl ⟨h.1, h.2.1, h.2.2.1, h.2.2.2, e⟩
  · rw [if_neg h]
    constructor
    · rintro (⟨a, b, c, d, _⟩ | ⟨_, h'⟩)
      · exact absurd ⟨a, b, c, d⟩ h
      · exact h'
    · exact fun e => .inr ⟨h, e⟩

theorem wanted_cases (noColor : Nat) (w : Bool) (R : Route A) (color : Nat) :
    wanted noColor w R color = R.color ∨ w = true ∧ R.color = noColor ∧ R.text = noColor ∧ wanted noColor w R color ≠ noColor := by
  unfold wanted
  split
  · rename_i h; exact .inr ⟨h.1, h.2.2.1, h.2.2.2, h.2.1⟩
  · exact .inl rfl

/-- What the map of colours holds, whatever the order of its keys. -/
structure Holds (noColor : Nat) (w : Bool) (keep : Nat → Bool) (leafs : List (Nat × List Nat)) (F : Feed A B) (m : Refs) : Prop where
  routes : (m.map (·.1)).Nodup
  colors : ∀ p ∈ m, p.2 ≠ [] ∧ (p.2.map (·.1)).Nodup ∧ ∀ q ∈ p.2, q.2 ≠ []
  mem : ∀ r c x, In m r c x ↔ (∃ R, F.routes[r]? = some R ∧
    ((x = .dangling ∧ c = R.color ∧ ∃ t, keep t = true ∧ F.trips[t]? = some r) ∨
      ∃ l ∈ leafs, ∃ t ∈ l.2, x = .live t ∧ F.trips[t]? = some r ∧ c = wanted noColor w R l.1))

theorem nodup_flatMap_unique {α β : Type} {f : α → List β} : ∀ {l : List α}, (l.flatMap f).Nodup →
    ∀ {a b : α} {x : β}, a ∈ l → b ∈ l → x ∈ f a → x ∈ f b → a = b := by
  intro l
  induction l with
  | nil => intro _ a b x ha; cases ha
  | cons y l ih =>
    intro hn a b x ha hb hxa hxb
    rw [List.flatMap_cons, List.nodup_append] at hn
    rcases List.mem_cons.mp ha with ha | ha <;> rcases List.mem_cons.mp hb with hb | hb
    · rw [ha, hb]
    · rw [ha] at hxa; exact absurd rfl (hn.2.2 x hxa x (List.mem_flatMap.mpr ⟨b, hb, hxb⟩))
    · rw [hb] at hxb; exact absurd rfl (hn.2.2 x hxb x (List.mem_flatMap.mpr ⟨a, ha, hxa⟩))
    · exact ih hn.2.1 ha hb hxa hxb

/-- The assumptions on the feed: route ids are unique, and trips and fare rules refer to routes of
the feed. -/
structure FeedOk (F : Feed A B) : Prop where
  ids : (F.routes.map (·.id)).Nodup
  trips : ∀ r ∈ F.trips, r < F.routes.length
  fares : ∀ f ∈ F.fares, ∀ x ∈ f, ∀ k, x.route = some k → k < F.routes.length

theorem split_of_holds {noColor : Nat} {tc : Nat → Nat} {w : Bool} {keep : Nat → Bool} {leafs : List (Nat × List Nat)}
    {F : Feed A B} {m : Refs} (ok : FeedOk F) (hl : (leafs.flatMap (·.2)).Nodup) (hh : Holds noColor w keep leafs F m) :
    ∃ F', updateRouteColors noColor tc m F = some F' ∧ SplitOf noColor tc w leafs F F' ∧ FeedOk F' := by
  have rok : RefsOk F m := by
    refine ⟨hh.routes, ?_, ?_, ?_, ?_, fun p hp => (hh.colors p hp).2.1⟩
    · intro p hp
      obtain ⟨h1, _, h2⟩ := hh.colors p hp
      obtain ⟨q, hq⟩ := List.exists_mem_of_ne_nil _ h1
      obtain ⟨x, hx⟩ := List.exists_mem_of_ne_nil _ (h2 q hq)
      obtain ⟨R, hR, _⟩ := (hh.mem p.1 q.1 x).mp ⟨p.2, q.2, hp, hq, hx⟩
      exact lt_of_getElem? hR
    · intro r c t h
      obtain ⟨R, _, ⟨hx, _⟩ | ⟨l, _, t', _, hx, h, _⟩⟩ := (hh.mem r c _).mp h
      · cases hx
      · cases hx; exact h
    · intro r c R h hR
      obtain ⟨R', hR', ⟨_, hc, _⟩ | ⟨l, _, t', _, hx, _⟩⟩ := (hh.mem r c _).mp h
      · rw [hR] at hR'; cases hR'; exact hc
      · cases hx
    · intro r c c' t h h'
      obtain ⟨R, hR, ⟨hx, _⟩ | ⟨l, hl1, t1, ht1, hx, _, hc⟩⟩ := (hh.mem r c _).mp h
      · cases hx
      · obtain ⟨R', hR', ⟨hx', _⟩ | ⟨l', hl1', t1', ht1', hx', _, hc'⟩⟩ := (hh.mem r c' _).mp h'
        · cases hx'
        · cases hx; cases hx'
          rw [hR] at hR'; cases hR'
          rw [nodup_flatMap_unique hl hl1' hl1 ht1' ht1] at hc'
          rw [hc, hc']
  obtain ⟨F', orig, e, hi⟩ := update_inv (noColor := noColor) (tc := tc) rok m [] F (List.range F.routes.length) rfl
    (inv_init ok.ids ok.trips ok.fares)
  have hP : ∀ l ∈ leafs, ∀ t ∈ l.2, ∀ (r : Nat) (R : Route A), F.trips[t]? = some r → F.routes[r]? = some R →
      In m r (wanted noColor w R l.1) (.live t) := by
    intro l hlm t ht r R hr hR
    exact (hh.mem _ _ _).mpr ⟨R, hR, .inr ⟨l, hlm, t, ht, rfl, hr, rfl⟩⟩
  have hold : ∀ (r : Nat) (R : Route A), F.routes[r]? = some R → ∃ R', F'.routes[r]? = some R' ∧ R'.id = R.id ∧
      R'.rest = R.rest ∧ (R'.color = R.color ∨ w = true ∧ R.color = noColor ∧ R.text = noColor ∧ R'.color ≠ noColor) ∧
      (R'.color ≠ R.color → R'.text = tc R'.color) := by
    intro r R hR
    obtain ⟨R', a1, _, a3⟩ := hi.old r R hR
    rcases a3 with rfl | ⟨c, ts, hm, rfl⟩
    · exact ⟨R', a1, rfl, rfl, .inl rfl, fun h => absurd rfl h⟩
    · refine ⟨_, a1, rfl, rfl, ?_⟩
      obtain ⟨x, hx⟩ := List.exists_mem_of_ne_nil _ ((hh.colors _ hm).2.2 (c, ts) (List.mem_singleton.mpr rfl))
      obtain ⟨R2, hR2, h⟩ := (hh.mem r c x).mp ⟨_, ts, hm, List.mem_singleton.mpr rfl, hx⟩
      rw [hR] at hR2
      cases hR2
      have hc : c = R.color ∨ w = true ∧ R.color = noColor ∧ R.text = noColor ∧ c ≠ noColor := by
        rcases h with ⟨_, h, _⟩ | ⟨l, _, t, _, _, _, h⟩
        · exact .inl h
        · rw [h]; exact wanted_cases _ _ _ _
      refine ⟨hc, ?_⟩
      intro hne
      simp only at hne ⊢
      rcases hc with hc | hc
      · exact absurd hc hne
      · rw [if_pos hc.2.2.2]
  have hold' : ∀ (r : Nat) (R : Route A), F.routes[r]? = some R → orig[r]? = some r := fun r R h => hi.pre r (lt_of_getElem? h)
  have hok : FeedOk F' := by
    refine ⟨hi.ids, ?_, ?_⟩
    · intro r' hr'
      obtain ⟨t, ht⟩ := List.getElem?_of_mem hr'
      have hlt : t < F.trips.length := by rw [← hi.tlen]; exact lt_of_getElem? ht
      obtain ⟨j, hj, ho⟩ := hi.trips t _ (List.getElem?_eq_getElem hlt)
      rw [ht] at hj
      cases hj
      rw [← hi.len]
      exact lt_of_getElem? ho
    · intro f' hf'
      obtain ⟨i, hi'⟩ := List.getElem?_of_mem hf'
      have hlt : i < F.fares.length := by rw [← hi.flen]; exact lt_of_getElem? hi'
      exact (hi.fares i _ f' (List.getElem?_eq_getElem hlt) hi').2.1
  refine ⟨F', e, ⟨hi.tlen, hi.flen, ?_, ?_, ?_, ?_, hi.ids, ?_, ?_, ?_, ?_⟩, hok⟩
  · intro l hlm t ht r r' R R' hr hR hr' hR'
    obtain ⟨j, r2, R1, R2, b1, b2, b3, b4, b5, _⟩ := hi.col _ _ _ (hP l hlm t ht r R hr hR)
    rw [hr'] at b1; cases b1
    rw [hR'] at b2; cases b2
    exact b5
  · intro l1 h1 l2 h2 t1 ht1 t2 ht2 r R hr1 hr2 hR hw
    have p1 := hP l1 h1 t1 ht1 r R hr1 hR
    have p2 := hP l2 h2 t2 ht2 r R hr2 hR
    rw [hw] at p1
    exact hi.same _ _ _ _ p1 p2
  · intro t r R hr hR
    obtain ⟨j, hj, ho⟩ := hi.trips t r hr
    have hjlt : j < F'.routes.length := by rw [← hi.len]; exact lt_of_getElem? ho
    obtain ⟨R', hR'⟩ : ∃ R', F'.routes[j]? = some R' := ⟨_, List.getElem?_eq_getElem hjlt⟩
    obtain ⟨o, R1, c1, c2, c3⟩ := hi.rest j R' hR'
    rw [ho] at c1; cases c1
    rw [hR] at c2; cases c2
    have hfares : ∀ (i : Nat) f f', F.fares[i]? = some f → F'.fares[i]? = some f' →
        (f'.filter (fun x => x.route = some j)).map (·.rest) = (f.filter (fun x => x.route = some r)).map (·.rest) :=
      fun i f f' hf hf' => (hi.fares i f f' hf hf').2.2.2 j r ho
    by_cases hjr : j = r
    · subst hjr
      obtain ⟨R2, d1, d2, d3, d4, d5⟩ := hold j R hR
      rw [hR'] at d1; cases d1
      exact ⟨j, R', hj, hR', c3, d4, d5, .inl rfl, hfares⟩
    · have hin : ∃ r2 c2, In m r2 c2 (.live t) := by
        apply Classical.byContradiction
        intro hno
        have := hi.untouched t (fun r2 c2 h => hno ⟨r2, c2, h⟩)
        rw [hj, hr] at this
        cases this
        exact hjr rfl
      obtain ⟨r2, c2, hin⟩ := hin
      obtain ⟨Rm, hRm, ⟨hx, _⟩ | ⟨l, hlm, t', ht, hx, hr2, hc2⟩⟩ := (hh.mem _ _ _).mp hin
      · cases hx
      cases hx
      rw [hr] at hr2; cases hr2
      rw [hR] at hRm; cases hRm
      obtain ⟨j', r3, R1, R2, b1, b2, b3, b4, b5, b6⟩ := hi.col _ _ _ hin
      rw [hj] at b1; cases b1
      rw [hR'] at b2; cases b2
      rw [hr] at b3; cases b3
      rw [hR] at b4; cases b4
      have hwc := wanted_cases noColor w R l.1
      rw [← hc2, ← b5] at hwc
      have hge : F.routes.length ≤ j := by
        apply Nat.le_of_not_lt
        intro hlt
        rw [hi.pre j hlt] at ho
        cases ho
        exact hjr rfl
      have hidn : R'.id ∉ F.routes.map (·.id) := by
        intro hmem
        obtain ⟨Rk, hk, hke⟩ := List.mem_map.mp hmem
        obtain ⟨k, hk⟩ := List.getElem?_of_mem hk
        obtain ⟨Rk', d1, d2, _⟩ := hold k Rk hk
        have hklt := lt_of_getElem? hk
        have h1 : (F'.routes.map (·.id))[k]? = some R'.id := by rw [List.getElem?_map, d1, Option.map_some, d2, hke]
        have h2 : (F'.routes.map (·.id))[j]? = some R'.id := by rw [List.getElem?_map, hR']; rfl
        have := (List.getElem?_inj (by simpa using lt_of_getElem? d1) hi.ids).mp (h1.trans h2.symm)
        omega
      have hne : R'.color ≠ R.color := by
        intro heq
        have := hi.own _ _ _ R hin hR (b5.symm.trans heq)
        rw [hj] at this
        cases this
        exact hjr rfl
      refine ⟨j, R', hj, hR', c3, hwc, ?_, .inr ⟨hidn, hne, l, hlm, ht⟩, hfares⟩
      intro hne
      rcases hwc with h | h
      · exact absurd h hne
      · rw [b5]; exact b6 (b5 ▸ hne) (b5 ▸ h.2.2.2)
  · intro r R hR
    obtain ⟨R', d1, d2, d3, d4, _⟩ := hold r R hR
    refine ⟨R', d1, d2, d3, ?_⟩
    rcases d4 with d4 | d4
    · exact .inl d4
    · exact .inr ⟨d4.1, d4.2.1, d4.2.2.1⟩
  · intro r R R' hR hR' hc
    obtain ⟨R2, a1, _, a3⟩ := hi.old r R hR
    rw [hR'] at a1
    cases a1
    rcases a3 with rfl | ⟨c, ts, _, rfl⟩
    · rfl
    · simp only at hc ⊢
      rw [if_neg (fun h => h hc)]
  · intro r R R' hR hR' hno
    obtain ⟨R2, a1, _, a3⟩ := hi.old r R hR
    rw [hR'] at a1
    cases a1
    rcases a3 with rfl | ⟨c, ts, hm, rfl⟩
    · rfl
    · obtain ⟨x, hx⟩ := List.exists_mem_of_ne_nil _ ((hh.colors _ hm).2.2 (c, ts) (List.mem_singleton.mpr rfl))
      obtain ⟨R2, hR2, h⟩ := (hh.mem r c x).mp ⟨_, ts, hm, List.mem_singleton.mpr rfl, hx⟩
      rw [hR] at hR2
      cases hR2
      rcases h with ⟨_, h, _⟩ | ⟨l, hlm, t, ht, _, hr, _⟩
      · exact h
      · exact absurd hr (hno l hlm t ht)
  · intro t r r' hr hr' hne
    obtain ⟨j, hj, ho⟩ := hi.trips t r hr
    rw [hr'] at hj
    cases hj
    apply Nat.le_of_not_lt
    intro hlt
    rw [hi.pre r' hlt] at ho
    cases ho
    exact hne rfl
  · intro i f f' hf hf'
    obtain ⟨b1, _, b3, _⟩ := hi.fares i f f' hf hf'
    exact ⟨b1, b3⟩

/-- The map that is collected. -/
theorem collect_holds {noColor : Nat} {w : Bool} {keep : Nat → Bool} {threads : List (List (Nat × List Nat))}
    {F : Feed A B} (ok : FeedOk F) (hl : ∀ l ∈ threads.flatten, ∀ t ∈ l.2, t < F.trips.length) :
    ∃ m0 m, collect0 F keep (List.range F.trips.length) [] = some m0 ∧ collectAll F noColor w threads m0 = some m ∧
      Holds noColor w keep threads.flatten F m := by
  obtain ⟨m0, e0, w0, i0⟩ := collect0_spec (keep := keep) ok.trips (List.range F.trips.length) [] (fun t => List.mem_range.mp)
    ⟨by simp, fun p hp => by simp at hp, fun p hp => by simp at hp, fun p hp => by simp at hp⟩
  obtain ⟨m, e, w1, i1⟩ := collectAll_spec (noColor := noColor) (w := w) ok.trips threads m0
    (fun ls hls l hl' => hl l (List.mem_flatten.mpr ⟨ls, hls, hl'⟩)) w0
  have hnd : ∀ {l : List Nat}, l.Pairwise (· < ·) → l.Nodup := fun h => h.imp (fun h => Nat.ne_of_lt h)
  have hne : ∀ p ∈ m, p.2 ≠ [] := w1.colne
  refine ⟨m0, m, e0, e, hnd w1.routes, fun p hp => ⟨hne p hp, hnd (w1.colors p hp), w1.nonempty p hp⟩, ?_⟩
  intro r c x
  rw [i1, i0]
  constructor
  · rintro ((h | ⟨rfl, t, R, _, hk, ht, hR, hc⟩) | ⟨ls, hls, l, hl', t, R, rfl, ht, hr, hR, hf⟩)
    · exact absurd h (In_nil _ _ _)
    · exact ⟨R, hR, .inl ⟨rfl, hc, t, hk, ht⟩⟩
    · exact ⟨R, hR, .inr ⟨l, List.mem_flatten.mpr ⟨ls, hls, hl'⟩, t, ht, rfl, hr, filed_iff.mp hf⟩⟩
  · rintro ⟨R, hR, ⟨rfl, hc, t, hk, ht⟩ | ⟨l, hl', t, ht, rfl, hr, hc⟩⟩
    · exact .inl (.inr ⟨rfl, t, R, List.mem_range.mpr (lt_of_getElem? ht), hk, ht, hR, hc⟩)
    · obtain ⟨ls, hls, hl'⟩ := List.mem_flatten.mp hl'
      exact .inr ⟨ls, hls, l, hl', t, R, rfl, ht, hr, hR, filed_iff.mpr hc⟩

/-- C48. For any feed with unique route ids, any threads working on any leafs with any matched colours,
no trip being in two of them: the routes are split by colour; and no dangling pointer is used. -/
theorem C48_split (noColor : Nat) (textColor : Nat → Nat) (writeColors : Bool) (keep : Nat → Bool)
    (threads : List (List (Nat × List Nat))) (F : Feed A B) (ok : FeedOk F)
    (hvalid : ∀ l ∈ threads.flatten, ∀ t ∈ l.2, t < F.trips.length) (hdistinct : (threads.flatten.flatMap (·.2)).Nodup) :
    ∃ F', colorRoutes noColor textColor writeColors keep threads F = some F' ∧
      SplitOf noColor textColor writeColors threads.flatten F F' := by
  obtain ⟨m0, m, e0, e, hh⟩ := collect_holds (noColor := noColor) (w := writeColors) (keep := keep) ok hvalid
  obtain ⟨F', e', h, _⟩ := split_of_holds (tc := textColor) ok hdistinct hh
  exact ⟨F', by rw [colorRoutes, e0]; simp only [e]; exact e', h⟩

/-- The result is a feed that C48 can be applied to again: for the next mode configuration. -/
theorem C48_again (noColor : Nat) (textColor : Nat → Nat) (writeColors : Bool) (keep : Nat → Bool)
    (threads : List (List (Nat × List Nat))) (F F' : Feed A B) (ok : FeedOk F)
    (hvalid : ∀ l ∈ threads.flatten, ∀ t ∈ l.2, t < F.trips.length) (hdistinct : (threads.flatten.flatMap (·.2)).Nodup)
    (h : colorRoutes noColor textColor writeColors keep threads F = some F') : FeedOk F' := by
  obtain ⟨m0, m, e0, e, hh⟩ := collect_holds (noColor := noColor) (w := writeColors) (keep := keep) ok hvalid
  obtain ⟨F2, e', _, h2⟩ := split_of_holds (tc := textColor) ok hdistinct hh
  rw [colorRoutes, e0] at h
  simp only [e, e'] at h
  cases h
  exact h2

/-- C48, for every order in which the collected routes and colours are worked through (the first
is that of the addresses of the routes). -/
theorem C48_any_order (noColor : Nat) (textColor : Nat → Nat) (writeColors : Bool) (keep : Nat → Bool)
    (leafs : List (Nat × List Nat)) (F : Feed A B) (ok : FeedOk F) (hdistinct : (leafs.flatMap (·.2)).Nodup)
    (m : Refs) (hm : Holds noColor writeColors keep leafs F m) :
    ∃ F', updateRouteColors noColor textColor m F = some F' ∧ SplitOf noColor textColor writeColors leafs F F' :=
  let ⟨F', h1, h2, _⟩ := split_of_holds ok hdistinct hm
  ⟨F', h1, h2⟩

/-! ### example and limits -/

/-- Two routes; the first has no colour, and its trips 0, 1 and 3 are matched red, blue and red; trip 2 is not matched. -/
def exFeed : Feed Nat Nat where
  routes := [⟨[49], 99, 99, 7⟩, ⟨[49, 58, 58, 49], 5, 99, 8⟩]
  trips := [0, 0, 0, 0, 1]
  fares := [[⟨some 0, 1⟩, ⟨none, 2⟩], [⟨some 1, 3⟩]]

example : FeedOk exFeed := ⟨by decide, by decide, by decide⟩

example : colorRoutes 99 (fun c => c + 100) true (fun t => t = 2) [[(10, [0]), (11, [1])], [(10, [3]), (12, [4])]] exFeed =
    some ⟨[⟨[49], 99, 99, 7⟩, ⟨[49, 58, 58, 49], 5, 105, 8⟩, ⟨[49, 58, 58, 50], 10, 110, 7⟩, ⟨[49, 58, 58, 51], 11, 111, 7⟩],
      [2, 3, 0, 2, 1], [[⟨some 0, 1⟩, ⟨none, 2⟩, ⟨some 2, 1⟩, ⟨some 3, 1⟩], [⟨some 1, 3⟩]]⟩ := by
  decide +kernel

/-- Limit of C48: the text colour of a route is overwritten even if colours are not to be written and the
route has both a colour and a text colour. -/
theorem C48_limit_text_color (noColor : Nat) (textColor : Nat → Nat) (c tx : Nat) (h : c ≠ noColor) :
    colorRoutes noColor textColor false (fun _ => false) [[(noColor, [0])]] (⟨[⟨[49], c, tx, ()⟩], [0], []⟩ : Feed Unit Unit) =
      some ⟨[⟨[49], c, textColor c, ()⟩], [0], []⟩ := by
  simp [colorRoutes, collect0, collectAll, collectThread, collectLeaf, merge, addRef, updateRouteColors, updRoute, h]

end Verif.Color
