import Verif.Color.SplitProps

/-!
# Colours of routes, for several mode configurations (C48)

`ShapeBuilder::shapeify` is called once for each mode configuration (`src/pfaedle/PfaedleMain.cpp:256-355`), on the same feed.
-/

namespace Verif.Color
open Verif.Shapes (Str)

variable {A B : Type}

/-- One mode configuration: `keep` and the leafs of its threads, as for `colorRoutes`. -/
structure Paint where
  keep : Nat → Bool
  threads : List (List (Nat × List Nat))

/-- `src/pfaedle/PfaedleMain.cpp:256-355`, `src/pfaedle/router/ShapeBuilder.cpp:402-466`: the colours of the routes, for all mode configurations. -/
def colorRuns (noColor : Nat) (textColor : Nat → Nat) (writeColors : Bool) : List Paint → Feed A B → Option (Feed A B)
  | [], F => some F
  | p :: ps, F =>
    match colorRoutes noColor textColor writeColors p.keep p.threads F with
    | none => none
    | some F => colorRuns noColor textColor writeColors ps F

/-! ### specification -/

/-- The colour stays, or it is set where there was none. -/
def Recolored (noColor : Nat) (writeColors : Bool) (R R' : Route A) : Prop :=
  R'.color = R.color ∧ (R.color = noColor → R'.text = R.text) ∨
  writeColors = true ∧ R.color = noColor ∧ R.text = noColor ∧ R'.color ≠ noColor

/-- `F'` is `F` with some routes split. -/
structure Grown (noColor : Nat) (writeColors : Bool) (F F' : Feed A B) : Prop where
  trips : F'.trips.length = F.trips.length
  fares : F'.fares.length = F.fares.length
  /-- the route of each trip differs from its old one in id and colour only, and has the same fare rules -/
  kept : ∀ (t r : Nat) (R : Route A), F.trips[t]? = some r → F.routes[r]? = some R →
    ∃ (r' : Nat) (R' : Route A), F'.trips[t]? = some r' ∧ F'.routes[r']? = some R' ∧ R'.rest = R.rest ∧
      Recolored noColor writeColors R R' ∧ (r' = r ∨ R'.id ∉ F.routes.map (·.id) ∧ R'.color ≠ R.color) ∧
      (∀ (i : Nat) f f', F.fares[i]? = some f → F'.fares[i]? = some f' →
        (f'.filter (fun x => x.route = some r')).map (·.rest) = (f.filter (fun x => x.route = some r)).map (·.rest))
  /-- old routes stay, ids are unique -/
  routes : ∀ (r : Nat) (R : Route A), F.routes[r]? = some R → ∃ R', F'.routes[r]? = some R' ∧ R'.id = R.id ∧
    R'.rest = R.rest ∧ Recolored noColor writeColors R R'
  ids : (F'.routes.map (·.id)).Nodup
  /-- old fare rules stay, those without route are not copied -/
  rules : ∀ (i : Nat) f f', F.fares[i]? = some f → F'.fares[i]? = some f' → f <+: f' ∧
    f'.filter (fun x => x.route = none) = f.filter (fun x => x.route = none)

/-- All trips are trips of the feed, and each is seen once by all threads of a mode configuration together. -/
def PaintsOk (ps : List Paint) (n : Nat) : Prop :=
  ∀ p ∈ ps, (∀ l ∈ p.threads.flatten, ∀ t ∈ l.2, t < n) ∧ (p.threads.flatten.flatMap (·.2)).Nodup

/-- Trips `t` and `t'` are matched for different mode configurations. -/
def Different (ps : List Paint) (t t' : Nat) : Prop :=
  ∃ (i j : Nat) (p q : Paint), i ≠ j ∧ ps[i]? = some p ∧ ps[j]? = some q ∧ (∃ l ∈ p.threads.flatten, t ∈ l.2) ∧ ∃ l ∈ q.threads.flatten, t' ∈ l.2

/-- No route has trips that are matched for different mode configurations: a route has one mode, so this holds if no mode has several
configurations. -/
def RoutesApart (ps : List Paint) (F : Feed A B) : Prop :=
  ∀ t t', Different ps t t' → F.trips[t]? ≠ F.trips[t']?

/-! ### proof -/

theorem SplitOf.recolored {noColor : Nat} {tc : Nat → Nat} {w : Bool} {leafs : List (Nat × List Nat)} {F F' : Feed A B}
    (h : SplitOf noColor tc w leafs F F') {r : Nat} {R R' : Route A} (hR : F.routes[r]? = some R) (hR' : F'.routes[r]? = some R')
    (hc : R'.color = R.color ∨ w = true ∧ R.color = noColor ∧ R.text = noColor) : Recolored noColor w R R' := by
  by_cases e : R'.color = R.color
  · exact .inl ⟨e, fun h0 => h.texts r R R' hR hR' (e.trans h0)⟩
  · rcases hc with hc | ⟨h1, h2, h3⟩
    · exact absurd hc e
    · exact .inr ⟨h1, h2, h3, fun h4 => e (h4.trans h2.symm)⟩

theorem SplitOf.grown {noColor : Nat} {tc : Nat → Nat} {w : Bool} {leafs : List (Nat × List Nat)} {F F' : Feed A B}
    (h : SplitOf noColor tc w leafs F F') : Grown noColor w F F' := by
  refine ⟨h.trips, h.fares, ?_, ?_, h.ids, h.rules⟩
  · intro t r R hr hR
    obtain ⟨r', R', e1, e2, e3, e4, _, e6, e7⟩ := h.kept t r R hr hR
    refine ⟨r', R', e1, e2, e3, ?_, ?_, e7⟩
    · rcases e6 with e6 | ⟨_, e6, _⟩
      · subst e6
        exact h.recolored hR e2 (e4.imp (fun h => h) fun h => ⟨h.1, h.2.1, h.2.2.1⟩)
      · rcases e4 with e4 | e4
        · exact absurd e4 e6
        · exact .inr e4
    · rcases e6 with e6 | ⟨e5, e6, _⟩
      · exact .inl e6
      · exact .inr ⟨e5, e6⟩
  · intro r R hR
    obtain ⟨R', e1, e2, e3, e4⟩ := h.routes r R hR
    exact ⟨R', e1, e2, e3, h.recolored hR e1 e4⟩

theorem Recolored.trans {noColor : Nat} {w : Bool} {R1 R2 R3 : Route A} (h : Recolored noColor w R1 R2) (h' : Recolored noColor w R2 R3) :
    Recolored noColor w R1 R3 := by
  rcases h with ⟨a1, a2⟩ | ⟨a1, a2, a3, a4⟩
  · rcases h' with ⟨b1, b2⟩ | ⟨b1, b2, b3, b4⟩
    · exact .inl ⟨b1.trans a1, fun h => (b2 (a1.trans h)).trans (a2 h)⟩
    · have h0 := a1.symm.trans b2
      exact .inr ⟨b1, h0, (a2 h0).symm.trans b3, b4⟩
  · rcases h' with ⟨b1, _⟩ | ⟨_, b2, _⟩
    · exact .inr ⟨a1, a2, a3, fun h => a4 (b1.symm.trans h)⟩
    · exact absurd b2 a4

/-- A colour that was set is not changed again. -/
theorem Recolored.fixed {noColor : Nat} {w : Bool} {R R' : Route A} (h : Recolored noColor w R R') (hc : R.color ≠ noColor) :
    R'.color = R.color := by
  rcases h with ⟨h, _⟩ | ⟨_, h, _⟩
  · exact h
  · exact absurd h hc

theorem Recolored.changed {noColor : Nat} {w : Bool} {R R' : Route A} (h : Recolored noColor w R R') (hc : R'.color ≠ R.color) :
    R.color = noColor ∧ R'.color ≠ noColor := by
  rcases h with ⟨h, _⟩ | ⟨_, h, _, h'⟩
  · exact absurd h hc
  · exact ⟨h, h'⟩

theorem Grown.refl {noColor : Nat} {w : Bool} {F : Feed A B} (ok : FeedOk F) : Grown noColor w F F :=
  ⟨rfl, rfl, fun t r R hr hR => ⟨r, R, hr, hR, rfl, .inl ⟨rfl, fun _ => rfl⟩, .inl rfl, fun i f f' hf hf' => by
      rw [hf] at hf'; cases hf'; rfl⟩,
    fun r R hR => ⟨R, hR, rfl, rfl, .inl ⟨rfl, fun _ => rfl⟩⟩, ok.ids, fun i f f' hf hf' => by
      rw [hf] at hf'; cases hf'; exact ⟨List.prefix_refl f, rfl⟩⟩

theorem Grown.idsMono {noColor : Nat} {w : Bool} {F F' : Feed A B} (h : Grown noColor w F F') {x : Str} (hx : x ∉ F'.routes.map (·.id)) :
    x ∉ F.routes.map (·.id) := by
  intro hm
  obtain ⟨R, hR, e⟩ := List.mem_map.mp hm
  obtain ⟨k, hk⟩ := List.getElem?_of_mem hR
  obtain ⟨R', e1, e2, _⟩ := h.routes k R hk
  exact hx (List.mem_map.mpr ⟨R', List.mem_of_getElem? e1, e2.trans e⟩)

theorem Grown.trans {noColor : Nat} {w : Bool} {F1 F2 F3 : Feed A B} (h : Grown noColor w F1 F2) (h' : Grown noColor w F2 F3) :
    Grown noColor w F1 F3 := by
  have hfare : ∀ (i : Nat) f, F1.fares[i]? = some f → ∃ g, F2.fares[i]? = some g := by
    intro i f hf
    have : i < F2.fares.length := by rw [h.fares]; exact lt_of_getElem? hf
    exact ⟨_, List.getElem?_eq_getElem this⟩
  refine ⟨h'.trips.trans h.trips, h'.fares.trans h.fares, ?_, ?_, h'.ids, ?_⟩
  · intro t r R hr hR
    obtain ⟨r2, R2, a1, a2, a3, a4, a5, a6⟩ := h.kept t r R hr hR
    obtain ⟨r3, R3, b1, b2, b3, b4, b5, b6⟩ := h'.kept t r2 R2 a1 a2
    refine ⟨r3, R3, b1, b2, b3.trans a3, a4.trans b4, ?_, ?_⟩
    · rcases b5 with b5 | ⟨b5, b7⟩
      · subst b5
        rcases a5 with a5 | ⟨a5, a7⟩
        · exact .inl a5
        · obtain ⟨R3', c1, c2, _⟩ := h'.routes r3 R2 a2
          rw [b2] at c1
          cases c1
          obtain ⟨d1, d2⟩ := a4.changed a7
          exact .inr ⟨by rw [c2]; exact a5, by rw [b4.fixed d2]; exact a7⟩
      · obtain ⟨d1, d2⟩ := b4.changed b7
        refine .inr ⟨h.idsMono b5, fun e => ?_⟩
        rcases a4 with ⟨a4, _⟩ | ⟨_, _, _, a4⟩
        · exact b7 (e.trans a4.symm)
        · exact a4 d1
    · intro i f f' hf hf'
      obtain ⟨g, hg⟩ := hfare i f hf
      rw [b6 i g f' hg hf', a6 i f g hf hg]
  · intro r R hR
    obtain ⟨R2, a1, a2, a3, a4⟩ := h.routes r R hR
    obtain ⟨R3, b1, b2, b3, b4⟩ := h'.routes r R2 a1
    exact ⟨R3, b1, b2.trans a2, b3.trans a3, a4.trans b4⟩
  · intro i f f' hf hf'
    obtain ⟨g, hg⟩ := hfare i f hf
    obtain ⟨a1, a2⟩ := h.rules i f g hf hg
    obtain ⟨b1, b2⟩ := h'.rules i g f' hg hf'
    exact ⟨a1.trans b1, b2.trans a2⟩

/-- The feed and its colours, for all runs. -/
theorem colorRuns_grown (noColor : Nat) (tc : Nat → Nat) (w : Bool) : ∀ (ps : List Paint) (F : Feed A B), FeedOk F →
    PaintsOk ps F.trips.length → ∃ F', colorRuns noColor tc w ps F = some F' ∧ FeedOk F' ∧ Grown noColor w F F'
  | [], F, ok, _ => ⟨F, rfl, ok, .refl ok⟩
  | p :: ps, F, ok, h => by
    obtain ⟨h1, h2⟩ := h p (List.mem_cons_self ..)
    obtain ⟨F1, e1, s1⟩ := C48_split noColor tc w p.keep p.threads F ok h1 h2
    have ok1 := C48_again noColor tc w p.keep p.threads F F1 ok h1 h2 e1
    obtain ⟨F', e2, ok2, g⟩ := colorRuns_grown noColor tc w ps F1 ok1 (fun p hp => by rw [s1.trips]; exact h p (List.mem_cons_of_mem _ hp))
    exact ⟨F', by rw [colorRuns, e1]; exact e2, ok2, s1.grown.trans g⟩

/-- A matched trip of a run. -/
def Seen (ps : List Paint) (t : Nat) : Prop := ∃ p ∈ ps, ∃ l ∈ p.threads.flatten, t ∈ l.2

/-- A trip on a route that no matched trip is on. -/
theorem colorRuns_others (noColor : Nat) (tc : Nat → Nat) (w : Bool) : ∀ (ps : List Paint) (F F' : Feed A B), FeedOk F →
    PaintsOk ps F.trips.length → colorRuns noColor tc w ps F = some F' → ∀ (t r : Nat) (R : Route A), F.trips[t]? = some r →
    F.routes[r]? = some R → (∀ t', Seen ps t' → F.trips[t']? ≠ some r) →
    F'.trips[t]? = some r ∧ ∃ R', F'.routes[r]? = some R' ∧ R'.color = R.color
  | [], F, F', _, _, he, t, r, R, hr, hR, _ => by
    rw [colorRuns] at he
    cases he
    exact ⟨hr, R, hR, rfl⟩
  | p :: ps, F, F', ok, h, he, t, r, R, hr, hR, hno => by
    obtain ⟨h1, h2⟩ := h p (List.mem_cons_self ..)
    obtain ⟨F1, e1, s1⟩ := C48_split noColor tc w p.keep p.threads F ok h1 h2
    have ok1 := C48_again noColor tc w p.keep p.threads F F1 ok h1 h2 e1
    rw [colorRuns, e1] at he
    have hp : ∀ l ∈ p.threads.flatten, ∀ t' ∈ l.2, F.trips[t']? ≠ some r :=
      fun l hl t' ht' => hno t' ⟨p, List.mem_cons_self .., l, hl, ht'⟩
    obtain ⟨r', R', a1, a2, _, _, _, a6, _⟩ := s1.kept t r R hr hR
    have er : r' = r := by
      rcases a6 with a6 | ⟨_, _, l, hl, ht⟩
      · exact a6
      · exact absurd hr (hp l hl t ht)
    subst er
    have hc := s1.others r' R R' hR a2 hp
    have hrlt := lt_of_getElem? hR
    obtain ⟨b1, R2, b2, b3⟩ := colorRuns_others noColor tc w ps F1 F' ok1
      (fun p hp => by rw [s1.trips]; exact h p (List.mem_cons_of_mem _ hp)) he t r' R' a1 a2 (by
        rintro t' ⟨q, hq, l, hl, ht'⟩ e'
        have hlt : t' < F.trips.length := by rw [← s1.trips]; exact lt_of_getElem? e'
        have h3 := hno t' ⟨q, List.mem_cons_of_mem _ hq, l, hl, ht'⟩
        have h4 : F.trips[t']? = some F.trips[t'] := List.getElem?_eq_getElem hlt
        by_cases h5 : r' = F.trips[t']
        · exact h3 (h4.trans (by rw [h5]))
        · have := s1.new t' _ r' h4 e' h5
          omega)
    exact ⟨b1, R2, b2, b3.trans hc⟩

theorem apart_tail {p : Paint} {ps : List Paint} {t t' : Nat} (h : Different ps t t') : Different (p :: ps) t t' := by
  obtain ⟨i, j, a, b, hne, ha, hb, h1, h2⟩ := h
  exact ⟨i + 1, j + 1, a, b, by omega, ha, hb, h1, h2⟩

theorem apart_head {p : Paint} {ps : List Paint} {t t' : Nat} (h : ∃ l ∈ p.threads.flatten, t ∈ l.2) (h' : Seen ps t') :
    Different (p :: ps) t t' := by
  obtain ⟨q, hq, h'⟩ := h'
  obtain ⟨j, hj⟩ := List.getElem?_of_mem hq
  exact ⟨0, j + 1, p, q, by omega, rfl, hj, h, h'⟩

theorem wanted_congr {noColor : Nat} {w : Bool} {R R' : Route A} (hc : R'.color = R.color) (ht : R.color = noColor → R'.text = R.text)
    (c : Nat) : wanted noColor w R' c = wanted noColor w R c := by
  unfold wanted
  by_cases h : R.color = noColor
  · rw [ht h, hc]
  · have h' : R'.color ≠ noColor := by rw [hc]; exact h
    rw [if_neg (fun x => h' x.2.2.1), if_neg (fun x => h x.2.2.1), hc]

/-- C48, for any number of mode configurations. For any feed with unique route ids: no dangling pointer is used, and the routes are split by
colour. If no route has trips that are matched for different configurations, each matched trip is on a route of its colour in the end,
and trips of a route that get the same colour stay on one route. -/
theorem C48_runs (noColor : Nat) (textColor : Nat → Nat) (writeColors : Bool) : ∀ (ps : List Paint) (F : Feed A B), FeedOk F →
    PaintsOk ps F.trips.length →
    ∃ F', colorRuns noColor textColor writeColors ps F = some F' ∧ Grown noColor writeColors F F' ∧ (RoutesApart ps F →
      (∀ p ∈ ps, ∀ l ∈ p.threads.flatten, ∀ t ∈ l.2, ∀ (r r' : Nat) (R R' : Route A), F.trips[t]? = some r → F.routes[r]? = some R →
        F'.trips[t]? = some r' → F'.routes[r']? = some R' → R'.color = wanted noColor writeColors R l.1) ∧
      (∀ p ∈ ps, ∀ l1 ∈ p.threads.flatten, ∀ l2 ∈ p.threads.flatten, ∀ t1 ∈ l1.2, ∀ t2 ∈ l2.2, ∀ (r : Nat) (R : Route A),
        F.trips[t1]? = some r → F.trips[t2]? = some r → F.routes[r]? = some R →
        wanted noColor writeColors R l1.1 = wanted noColor writeColors R l2.1 → F'.trips[t1]? = F'.trips[t2]?))
  | [], F, ok, _ => ⟨F, rfl, .refl ok, fun _ => ⟨by simp, by simp⟩⟩
  | p :: ps, F, ok, h => by
    obtain ⟨h1, h2⟩ := h p (List.mem_cons_self ..)
    obtain ⟨F1, e1, s1⟩ := C48_split noColor textColor writeColors p.keep p.threads F ok h1 h2
    have ok1 := C48_again noColor textColor writeColors p.keep p.threads F F1 ok h1 h2 e1
    have hps : PaintsOk ps F1.trips.length := fun p hp => by rw [s1.trips]; exact h p (List.mem_cons_of_mem _ hp)
    obtain ⟨F', e2, g, ih⟩ := C48_runs noColor textColor writeColors ps F1 ok1 hps
    refine ⟨F', by rw [colorRuns, e1]; exact e2, s1.grown.trans g, ?_⟩
    intro hap
    -- trips of later runs are where they were
    have hlater : ∀ t, Seen ps t → F1.trips[t]? = F.trips[t]? := by
      intro t hs
      cases hk : F.trips[t]? with
      | none => rw [List.getElem?_eq_none_iff] at hk ⊢; rw [s1.trips]; exact hk
      | some r =>
        have hr := ok.trips r (List.mem_of_getElem? hk)
        obtain ⟨r', R', a1, _, _, _, _, a6, _⟩ := s1.kept t r _ hk (List.getElem?_eq_getElem hr)
        rcases a6 with a6 | ⟨_, _, l, hl, ht⟩
        · rw [a1, a6]
        · exact absurd rfl (hap t t (apart_head ⟨l, hl, ht⟩ hs))
    -- trips of this run are not on routes of later runs
    have hnow : ∀ l ∈ p.threads.flatten, ∀ t ∈ l.2, ∀ r1, F1.trips[t]? = some r1 → ∀ t', Seen ps t' → F1.trips[t']? ≠ some r1 := by
      intro l hl t ht r1 hr1 t' hs e'
      have hd := hap t t' (apart_head ⟨l, hl, ht⟩ hs)
      rw [hlater t' hs] at e'
      have htl : t < F.trips.length := h1 l hl t ht
      have hk : F.trips[t]? = some F.trips[t] := List.getElem?_eq_getElem htl
      by_cases h5 : r1 = F.trips[t]
      · exact hd (hk.trans (by rw [← h5]; exact e'.symm))
      · have h6 := s1.new t _ r1 hk hr1 h5
        have h7 := ok.trips r1 (List.mem_of_getElem? e')
        omega
    have hap' : RoutesApart ps F1 := by
      intro t t' hd
      have hs : Seen ps t := by
        obtain ⟨i, j, a, b, _, ha, _, h1, _⟩ := hd
        exact ⟨a, List.mem_of_getElem? ha, h1⟩
      have hs' : Seen ps t' := by
        obtain ⟨i, j, a, b, _, _, hb, _, h2⟩ := hd
        exact ⟨b, List.mem_of_getElem? hb, h2⟩
      rw [hlater t hs, hlater t' hs']
      exact hap t t' (apart_tail hd)
    obtain ⟨i1, i2⟩ := ih hap'
    -- the route of a trip of a later run
    have hroute : ∀ t, Seen ps t → ∀ (r : Nat) (R : Route A), F.trips[t]? = some r → F.routes[r]? = some R → F1.trips[t]? = some r ∧
        ∃ R1, F1.routes[r]? = some R1 ∧ ∀ c, wanted noColor writeColors R1 c = wanted noColor writeColors R c := by
      intro t hs r R hr hR
      obtain ⟨R1, b1, _⟩ := s1.routes r R hR
      have hc := s1.others r R R1 hR b1 (fun l hl t' ht' e' => hap t' t (apart_head ⟨l, hl, ht'⟩ hs) (e'.trans hr.symm))
      refine ⟨(hlater t hs).trans hr, R1, b1, wanted_congr hc fun h0 => s1.texts r R R1 hR b1 (hc.trans h0)⟩
    constructor
    · intro q hq l hl t ht r r' R R' hr hR hr' hR'
      rcases List.mem_cons.mp hq with hq | hq
      · subst hq
        obtain ⟨r1, R1, a1, a2, _⟩ := s1.kept t r R hr hR
        obtain ⟨c1, R2, c2, c3⟩ := colorRuns_others noColor textColor writeColors ps F1 F' ok1 hps e2 t r1 R1 a1 a2 (hnow l hl t ht r1 a1)
        rw [hr'] at c1
        cases c1
        rw [hR'] at c2
        cases c2
        rw [c3]
        exact s1.matched l hl t ht r r' R R1 hr hR a1 a2
      · obtain ⟨b1, R1, b2, b3⟩ := hroute t ⟨q, hq, l, hl, ht⟩ r R hr hR
        rw [← b3]
        exact i1 q hq l hl t ht r r' R1 R' b1 b2 hr' hR'
    · intro q hq l1 hl1 l2 hl2 t1 ht1 t2 ht2 r R hr1 hr2 hR hw
      rcases List.mem_cons.mp hq with hq | hq
      · subst hq
        have hsame := s1.together l1 hl1 l2 hl2 t1 ht1 t2 ht2 r R hr1 hr2 hR hw
        obtain ⟨r1, R1, a1, a2, _⟩ := s1.kept t1 r R hr1 hR
        have c1 := (colorRuns_others noColor textColor writeColors ps F1 F' ok1 hps e2 t1 r1 R1 a1 a2 (hnow l1 hl1 t1 ht1 r1 a1)).1
        have c2 := (colorRuns_others noColor textColor writeColors ps F1 F' ok1 hps e2 t2 r1 R1 (hsame.symm.trans a1) a2
          (hnow l2 hl2 t2 ht2 r1 (hsame.symm.trans a1))).1
        rw [c1, c2]
      · obtain ⟨b1, R1, b2, b3⟩ := hroute t1 ⟨q, hq, l1, hl1, ht1⟩ r R hr1 hR
        obtain ⟨b4, _⟩ := hroute t2 ⟨q, hq, l2, hl2, ht2⟩ r R hr2 hR
        exact i2 q hq l1 hl1 l2 hl2 t1 ht1 t2 ht2 r R1 b1 b4 b2 (by rw [b3, b3]; exact hw)

/-! ### example and limits -/

/-- Two configurations for the feed of C48: trips 0 and 1 of the first route, and the trip of the second route. -/
def exPaints : List Paint := [⟨fun t => t = 2, [[(10, [0]), (11, [1])]]⟩, ⟨fun _ => false, [[(12, [4])]]⟩]

example : FeedOk exFeed ∧ PaintsOk exPaints exFeed.trips.length := ⟨⟨by decide, by decide, by decide⟩, by unfold PaintsOk; decide⟩

theorem exPaints_apart : RoutesApart exPaints exFeed := by
  rintro t t' ⟨i, j, p, q, hne, hi, hj, ⟨l, hl, ht⟩, l', hl', ht'⟩
  have h0 : ∀ l ∈ [((10 : Nat), [0]), (11, [1])], ∀ t ∈ l.2, exFeed.trips[t]? = some 0 := by decide
  have h1 : ∀ l ∈ [((12 : Nat), [4])], ∀ t ∈ l.2, exFeed.trips[t]? = some 1 := by decide
  match i, j with
  | 0, 0 => exact absurd rfl hne
  | 1, 1 => exact absurd rfl hne
  | 0, 1 => cases hi; cases hj; rw [h0 l hl t ht, h1 l' hl' t' ht']; decide
  | 1, 0 => cases hi; cases hj; rw [h1 l hl t ht, h0 l' hl' t' ht']; decide
  | i + 2, _ => cases hi
  | 0, j + 2 => cases hj
  | 1, j + 2 => cases hj

example : (colorRuns 99 (fun c => c + 100) true exPaints exFeed).map (fun F => (F.routes.map (·.color), F.trips)) =
    some ([99, 5, 10, 11], [2, 3, 0, 0, 1]) := by
  decide +kernel

/-- Limit of C48 for several mode configurations of one mode: the first one finds one colour for its trips of a route and gives it to the
route; the colour that the second one finds for another trip of the route is then not written. -/
theorem C48_limit_runs : ∃ F', colorRuns 99 (fun c => c + 100) true [⟨fun _ => false, [[(10, [0])]]⟩, ⟨fun _ => false, [[(11, [1])]]⟩]
      exFeed = some F' ∧ (F'.routes.map (·.color), F'.trips) = ([10, 5], [0, 0, 0, 0, 1]) :=
  ⟨_, rfl, by decide +kernel⟩

/-- A route without colour whose trips were all matched, with different colours: it stays in the feed, but has no trips any more. -/
theorem C48_limit_empty : ∃ F', colorRuns 99 (fun c => c + 100) true [⟨fun _ => false, [[(10, [0, 1]), (11, [2, 3])]]⟩] exFeed = some F' ∧
    F'.routes.map (·.color) = [99, 5, 10, 11] ∧ F'.trips = [2, 2, 3, 3, 1] :=
  ⟨_, rfl, by decide +kernel, by decide +kernel⟩

end Verif.Color
