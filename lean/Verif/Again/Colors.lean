import Verif.Color.SplitRuns

/-!
# Running the program again (lemmas about colours)
-/

namespace Verif.Again
open Verif.Color (Feed Route Rule Ref Refs Paint PaintsOk FeedOk Holds In updateRouteColors updRoute splitGo freeId colorRoutes colorRuns)

variable {A B : Type} {noColor : Nat} {tc : Nat → Nat} {w : Bool}

/-- The text colour of this route belongs to its colour. -/
def TextOk (noColor : Nat) (tc : Nat → Nat) (F : Feed A B) (r : Nat) : Prop :=
  ∀ R, F.routes[r]? = some R → R.color ≠ noColor → R.text = tc R.color

/-- The text colour of the route of this trip belongs to its colour. -/
def TripText (noColor : Nat) (tc : Nat → Nat) (F : Feed A B) (t : Nat) : Prop := ∀ r, F.trips[t]? = some r → TextOk noColor tc F r

/-- All routes have ids. -/
def Named (F : Feed A B) : Prop := ∀ R ∈ F.routes, R.id ≠ []

theorem splitId_ne (id : Shapes.Str) (k : Nat) : Color.splitId id k ≠ [] := by
  unfold Color.splitId
  intro h
  have := congrArg List.length h
  simp at this

theorem freeId_ne {ids : List Shapes.Str} {id : Shapes.Str} : ∀ fuel k s, freeId ids id fuel k = some s → s ≠ []
  | 0, k, s, h => by cases h
  | fuel + 1, k, s, h => by
    rw [freeId] at h
    split at h
    · exact freeId_ne fuel _ s h
    · cases h
      exact splitId_ne _ _

theorem splitGo_routes {r : Nat} {rules : List (Nat × Rule B)} : ∀ (cs : List (Nat × List Ref)) (F F' : Feed A B),
    splitGo tc r rules cs F = some F' → ∃ l, F'.routes = F.routes ++ l ∧ ∀ R ∈ l, R.text = tc R.color ∧ R.id ≠ []
  | [], F, F', h => by
    rw [splitGo] at h
    cases h
    exact ⟨[], (List.append_nil _).symm, fun R hR => (by cases hR)⟩
  | (c, ts) :: cs, F, F', h => by
    rw [splitGo] at h
    cases hR : F.routes[r]? with
    | none => rw [hR] at h; cases h
    | some R =>
      rw [hR] at h
      dsimp only at h
      split at h
      · exact splitGo_routes cs F F' h
      · cases hid : freeId (F.routes.map (·.id)) R.id (F.routes.length + 1) 1 with
        | none => rw [hid] at h; cases h
        | some newId =>
          rw [hid] at h
          dsimp only at h
          cases hs : Color.setTrips F.routes.length ts F.trips with
          | none => rw [hs] at h; cases h
          | some trips =>
            rw [hs] at h
            obtain ⟨l, e, hl⟩ := splitGo_routes cs _ F' h
            refine ⟨{ R with id := newId, color := c, text := tc c } :: l, by rw [e, List.append_assoc]; rfl, ?_⟩
            intro R' hR'
            rcases List.mem_cons.mp hR' with rfl | hR'
            · exact ⟨rfl, freeId_ne _ _ _ hid⟩
            · exact hl R' hR'

theorem updRoute_routes {r : Nat} {cs : List (Nat × List Ref)} {F F' : Feed A B} (h : updRoute noColor tc r cs F = some F') :
    (∃ l, F'.routes = F.routes ++ l ∧ (∀ R ∈ l, R.text = tc R.color ∧ R.id ≠ []) ∧ ∀ c ts, cs ≠ [(c, ts)]) ∨
    ∃ R c ts, cs = [(c, ts)] ∧ F.routes[r]? = some R ∧
      F'.routes = F.routes.set r { R with color := c, text := if c ≠ noColor then tc c else R.text } := by
  match cs, h with
  | [(c, ts)], h =>
    right
    rw [updRoute] at h
    cases hR : F.routes[r]? with
    | none => rw [hR] at h; cases h
    | some R =>
      rw [hR] at h
      cases h
      exact ⟨R, c, ts, rfl, rfl, rfl⟩
  | [], h =>
    left
    obtain ⟨l, e, hl⟩ := splitGo_routes _ _ _ h
    exact ⟨l, e, hl, fun c ts => (by simp)⟩
  | p :: q :: cs, h =>
    left
    obtain ⟨l, e, hl⟩ := splitGo_routes _ _ _ h
    exact ⟨l, e, hl, fun c ts => (by simp)⟩

theorem updRoute_text {r : Nat} {cs : List (Nat × List Ref)} {F F' : Feed A B} (h : updRoute noColor tc r cs F = some F') :
    (∀ x, TextOk noColor tc F x → TextOk noColor tc F' x) ∧ (Named F → Named F') ∧ (∀ c ts, cs = [(c, ts)] → TextOk noColor tc F' r) := by
  rcases updRoute_routes h with ⟨l, e, hl, hn⟩ | ⟨R, c, ts, hcs, hR, e⟩
  · refine ⟨?_, ?_, fun c ts hc => absurd hc (hn c ts)⟩
    · intro x hx R' hR' hc
      rw [e] at hR'
      by_cases hlt : x < F.routes.length
      · rw [List.getElem?_append_left hlt] at hR'
        exact hx R' hR' hc
      · rw [List.getElem?_append_right (Nat.le_of_not_lt hlt)] at hR'
        exact (hl R' (List.mem_of_getElem? hR')).1
    · intro hN R' hR'
      rw [e] at hR'
      rcases List.mem_append.mp hR' with hR' | hR'
      · exact hN R' hR'
      · exact (hl R' hR').2
  · have hlt := Color.lt_of_getElem? hR
    have hset : TextOk noColor tc F' r := by
      intro R' hR' hc
      rw [e, List.getElem?_set_self hlt] at hR'
      cases hR'
      exact if_pos hc
    refine ⟨?_, ?_, fun _ _ _ => hset⟩
    · intro x hx
      by_cases hxr : r = x
      · exact hxr ▸ hset
      · intro R' hR' hc
        rw [e, List.getElem?_set_ne hxr] at hR'
        exact hx R' hR' hc
    · intro hN R' hR'
      rw [e] at hR'
      rcases List.mem_or_eq_of_mem_set hR' with hR' | rfl
      · exact hN R' hR'
      · exact hN R (List.mem_of_getElem? hR)

theorem update_text : ∀ (m : Refs) (F F' : Feed A B), updateRouteColors noColor tc m F = some F' →
    (∀ x, TextOk noColor tc F x → TextOk noColor tc F' x) ∧ (Named F → Named F') ∧ (∀ r c ts, (r, [(c, ts)]) ∈ m → TextOk noColor tc F' r)
  | [], F, F', h => by
    rw [updateRouteColors] at h
    cases h
    exact ⟨fun _ h => h, fun h => h, fun r c ts h => (by cases h)⟩
  | (r, cs) :: m, F, F', h => by
    rw [updateRouteColors] at h
    cases h1 : updRoute noColor tc r cs F with
    | none => rw [h1] at h; cases h
    | some F1 =>
      rw [h1] at h
      obtain ⟨a1, a2, a3⟩ := updRoute_text h1
      obtain ⟨b1, b2, b3⟩ := update_text m F1 F' h
      refine ⟨fun x hx => b1 x (a1 x hx), fun hN => b2 (a2 hN), fun r' c ts hm => ?_⟩
      rcases List.mem_cons.mp hm with hm | hm
      · cases hm
        exact b1 _ (a3 c ts rfl)
      · exact b3 r' c ts hm

/-- What all trips of a mode configuration have: they are matched, or they have a shape already. -/
def Touched (keep : Nat → Bool) (leafs : List (Nat × List Nat)) (t : Nat) : Prop := keep t = true ∨ ∃ l ∈ leafs, t ∈ l.2

theorem holds_text {keep : Nat → Bool} {leafs : List (Nat × List Nat)} {F F' : Feed A B} {m : Refs} (hh : Holds noColor w keep leafs F m)
    (ok : FeedOk F) (h : updateRouteColors noColor tc m F = some F') {t r : Nat} (ht : Touched keep leafs t) (hr : F.trips[t]? = some r) :
    TextOk noColor tc F' r := by
  obtain ⟨R, hR⟩ : ∃ R, F.routes[r]? = some R := ⟨_, List.getElem?_eq_getElem (ok.trips r (List.mem_of_getElem? hr))⟩
  obtain ⟨c, x, hin⟩ : ∃ c x, In m r c x := by
    rcases ht with hk | ⟨l, hl, htl⟩
    · exact ⟨R.color, .dangling, (hh.mem _ _ _).mpr ⟨R, hR, .inl ⟨rfl, rfl, t, hk, hr⟩⟩⟩
    · exact ⟨_, .live t, (hh.mem _ _ _).mpr ⟨R, hR, .inr ⟨l, hl, t, htl, rfl, hr, rfl⟩⟩⟩
  obtain ⟨cs, ts, hm, hq, hx⟩ := hin
  obtain ⟨u1, _, u3⟩ := update_text m F F' h
  have hcol : ∀ q ∈ cs, q.1 ≠ R.color → R.color = noColor := by
    intro q hq hne
    obtain ⟨y, hy⟩ := List.exists_mem_of_ne_nil _ ((hh.colors _ hm).2.2 q hq)
    obtain ⟨R', hR', hc | ⟨l, _, t', _, _, _, hc⟩⟩ := (hh.mem r q.1 y).mp ⟨cs, q.2, hm, hq, hy⟩
    · rw [hR] at hR'
      cases hR'
      exact absurd hc.2.1 hne
    · rw [hR] at hR'
      cases hR'
      rcases Color.wanted_cases noColor w R l.1 with h1 | h1
      · exact absurd (hc.trans h1) hne
      · exact h1.2.1
  have hnone : R.color = noColor → TextOk noColor tc F' r := by
    intro h0
    refine u1 r ?_
    intro R' hR' hc
    rw [hR] at hR'
    cases hR'
    exact absurd h0 hc
  match cs, hm, hcol, (hh.colors _ hm).2.1 with
  | [], _, _, _ => cases hq
  | [(c', ts')], hm, _, _ => exact u3 r c' ts' hm
  | p :: q :: cs, hm, hcol, hnd =>
    have hne : p.1 ≠ q.1 := by
      intro he
      simp only [List.map_cons, List.nodup_cons] at hnd
      exact hnd.1 (he ▸ List.mem_cons_self ..)
    by_cases hp : p.1 = R.color
    · exact hnone (hcol q (List.mem_cons_of_mem _ (List.mem_cons_self ..)) fun e => hne (hp.trans e.symm))
    · exact hnone (hcol p (List.mem_cons_self ..) hp)

/-- One mode configuration. -/
theorem colorRoutes_text {keep : Nat → Bool} {threads : List (List (Nat × List Nat))} {F F' : Feed A B} (ok : FeedOk F)
    (hv : ∀ l ∈ threads.flatten, ∀ t ∈ l.2, t < F.trips.length) (hd : (threads.flatten.flatMap (·.2)).Nodup)
    (h : colorRoutes noColor tc w keep threads F = some F') :
    (Named F → Named F') ∧ (∀ t, TripText noColor tc F t ∨ Touched keep threads.flatten t → TripText noColor tc F' t) := by
  obtain ⟨m0, m, e0, e, hh⟩ := Color.collect_holds (noColor := noColor) (w := w) (keep := keep) ok hv
  obtain ⟨F2, e', hs, _⟩ := Color.split_of_holds (tc := tc) ok hd hh
  rw [colorRoutes, e0] at h
  simp only [e] at h
  rw [h] at e'
  cases e'
  obtain ⟨u1, u2, _⟩ := update_text m F F' h
  refine ⟨u2, fun t ht r' hr' => ?_⟩
  have hlt : t < F.trips.length := by rw [← hs.trips]; exact Color.lt_of_getElem? hr'
  have hr := List.getElem?_eq_getElem hlt
  by_cases hrr : r' = F.trips[t]
  · subst hrr
    rcases ht with ht | ht
    · exact u1 _ (ht _ hr)
    · exact holds_text hh ok h ht hr
  · refine u1 r' ?_
    intro R hR
    have := hs.new t _ r' hr hr' hrr
    rw [List.getElem?_eq_none this] at hR
    cases hR

/-- All mode configurations. -/
theorem colorRuns_text : ∀ (ps : List Paint) (F F' : Feed A B), FeedOk F → PaintsOk ps F.trips.length → colorRuns noColor tc w ps F = some F' →
    (Named F → Named F') ∧ (∀ t, TripText noColor tc F t ∨ (∃ p ∈ ps, Touched p.keep p.threads.flatten t) → TripText noColor tc F' t)
  | [], F, F', ok, hp, h => by
    rw [colorRuns] at h
    cases h
    refine ⟨fun h => h, fun t ht => ?_⟩
    rcases ht with ht | ⟨p, hp, _⟩
    · exact ht
    · cases hp
  | p :: ps, F, F', ok, hp, h => by
    obtain ⟨h1, h2⟩ := hp p (List.mem_cons_self ..)
    obtain ⟨F1, e1, s1⟩ := Color.C48_split noColor tc w p.keep p.threads F ok h1 h2
    have ok1 := Color.C48_again noColor tc w p.keep p.threads F F1 ok h1 h2 e1
    rw [colorRuns, e1] at h
    obtain ⟨a1, a2⟩ := colorRoutes_text ok h1 h2 e1
    obtain ⟨b1, b2⟩ := colorRuns_text ps F1 F' ok1 (fun p hp' => by rw [s1.trips]; exact hp p (List.mem_cons_of_mem _ hp')) h
    refine ⟨fun h => b1 (a1 h), fun t ht => b2 t ?_⟩
    rcases ht with ht | ⟨q, hq, ht⟩
    · exact .inl (a2 t (.inl ht))
    · rcases List.mem_cons.mp hq with rfl | hq
      · exact .inl (a2 t (.inr ht))
      · exact .inr ⟨q, hq, ht⟩

/-! ## Nothing to do -/

theorem update_same {F : Feed A B} : ∀ (m : Refs), (∀ p ∈ m, TextOk noColor tc F p.1 ∧ ∃ R ts, F.routes[p.1]? = some R ∧ p.2 = [(R.color, ts)]) →
    updateRouteColors noColor tc m F = some F
  | [], _ => rfl
  | (r, cs) :: m, h => by
    obtain ⟨h1, R, ts, hR, hcs⟩ := h (r, cs) (List.mem_cons_self ..)
    dsimp only at h1 hR hcs
    subst hcs
    have ht : (if R.color ≠ noColor then tc R.color else R.text) = R.text := by
      by_cases hc : R.color ≠ noColor
      · rw [if_pos hc, h1 R hR hc]
      · rw [if_neg hc]
    have hlt := Color.lt_of_getElem? hR
    have hset : F.routes.set r R = F.routes := by
      apply List.ext_getElem?
      intro k
      by_cases hk : r = k
      · subst hk; rw [List.getElem?_set_self hlt, hR]
      · rw [List.getElem?_set_ne hk]
    have : updRoute noColor tc r [(R.color, ts)] F = some F := by
      rw [updRoute, hR]
      dsimp only
      rw [ht, hset]
    rw [updateRouteColors, this]
    exact update_same m fun p hp => h p (List.mem_cons_of_mem _ hp)

/-- If no trip is matched, and the text colours belong to the colours, routes stay as they are. -/
theorem colorRoutes_same {keep : Nat → Bool} {threads : List (List (Nat × List Nat))} {F : Feed A B} (ok : FeedOk F) (hth : threads.flatten = [])
    (ht : ∀ t, keep t = true → TripText noColor tc F t) : colorRoutes noColor tc w keep threads F = some F := by
  obtain ⟨m0, m, e0, e, hh⟩ := Color.collect_holds (threads := threads) (noColor := noColor) (w := w) (keep := keep) ok (fun l hl => by rw [hth] at hl; cases hl)
  rw [colorRoutes, e0]
  simp only [e]
  refine update_same m ?_
  rintro ⟨r, cs⟩ hp
  obtain ⟨h1, h2, h3⟩ := hh.colors _ hp
  dsimp only at h1 h2 h3 ⊢
  have hin : ∀ q ∈ cs, ∃ R, F.routes[r]? = some R ∧ q.1 = R.color ∧ ∃ t, keep t = true ∧ F.trips[t]? = some r := by
    intro q hq
    obtain ⟨y, hy⟩ := List.exists_mem_of_ne_nil _ (h3 q hq)
    obtain ⟨R, hR, hc | ⟨l, hl, _⟩⟩ := (hh.mem r q.1 y).mp ⟨cs, q.2, hp, hq, hy⟩
    · exact ⟨R, hR, hc.2⟩
    · rw [hth] at hl; cases hl
  match cs, h1, h2, hin with
  | [], h1, _, _ => exact absurd rfl h1
  | [(c, ts)], _, _, hin =>
    obtain ⟨R, hR, hc, t, hk, htr⟩ := hin _ (List.mem_cons_self ..)
    exact ⟨ht t hk r htr, R, ts, hR, by rw [← hc]⟩
  | p :: q :: cs, _, hnd, hin =>
    obtain ⟨R, hR, hc, _⟩ := hin p (List.mem_cons_self ..)
    obtain ⟨R', hR', hc', _⟩ := hin q (List.mem_cons_of_mem _ (List.mem_cons_self ..))
    rw [hR] at hR'
    cases hR'
    simp only [List.map_cons, List.nodup_cons] at hnd
    exact absurd (hc.trans hc'.symm ▸ List.mem_cons_self ..) hnd.1

theorem colorRuns_same {F : Feed A B} (ok : FeedOk F) : ∀ (ps : List Paint), (∀ p ∈ ps, p.threads.flatten = []) →
    (∀ p ∈ ps, ∀ t, p.keep t = true → TripText noColor tc F t) → colorRuns noColor tc w ps F = some F
  | [], _, _ => rfl
  | p :: ps, h1, h2 => by
    rw [colorRuns, colorRoutes_same ok (h1 p (List.mem_cons_self ..)) (h2 p (List.mem_cons_self ..))]
    exact colorRuns_same ok ps (fun q hq => h1 q (List.mem_cons_of_mem _ hq)) fun q hq => h2 q (List.mem_cons_of_mem _ hq)

end Verif.Again
