import Verif.Config.Join
/-!
# Joining sections: properties (C40)
-/

namespace Verif.Config

/-- Two sections have the same options. -/
def SameOpts (a b : MotConfig) : Prop := a.osm = b.osm ∧ a.routing = b.routing

/-- **C40, in parts (own options).** Each section is found in a configuration whose options are close to its own, with all its modes. Missing for the full
property: close is not equal, see `C40_negation`, `C40_negation_platforms`, `C40_negation_drift`. -/
theorem C40_own_partial (secs : List MotConfig) (hs : ∀ c ∈ secs, Shaped c.osm) (c : MotConfig) (hc : c ∈ secs) :
    ∃ e ∈ join secs, Close c e ∧ ∀ m ∈ c.mots, m ∈ e.mots := by
  have hr : ∀ c ∈ secs, eqCfg c c = true := fun c hc => (eqCfg_iff (hs c hc) (hs c hc)).2 (close_self c)
  obtain ⟨k, e, h1, h2, h3, -⟩ := at_join secs c hc (hr c hc)
  obtain ⟨⟨s, hm, e1, -⟩, -⟩ := back_join secs hr k e h1
  exact ⟨e, List.mem_of_getElem? h1, (eqCfg_iff (hs c hc) (by rw [e1]; exact hs s hm)).1 h2, h3⟩

/-- **C40, in parts (nothing is made up).** A configuration has exactly the options of one of the sections, and all its modes are modes of
sections whose options are close. -/
theorem C40_config_partial (secs : List MotConfig) (hs : ∀ c ∈ secs, Shaped c.osm) (e : MotConfig) (he : e ∈ join secs) :
    (∃ s ∈ secs, SameOpts e s) ∧ ∀ m ∈ e.mots, ∃ c ∈ secs, m ∈ c.mots ∧ Close c e := by
  have hr : ∀ c ∈ secs, eqCfg c c = true := fun c hc => (eqCfg_iff (hs c hc) (hs c hc)).2 (close_self c)
  obtain ⟨k, hk⟩ := List.getElem?_of_mem he
  obtain ⟨⟨s, hm, e1, e2⟩, h⟩ := back_join secs hr k e hk
  refine ⟨⟨s, hm, e1, e2⟩, fun m hm' => ?_⟩
  obtain ⟨c, hc, h1, h2, -⟩ := h m hm'
  exact ⟨c, hc, h1, (eqCfg_iff (hs c hc) (by rw [e1]; exact hs s hm)).1 h2⟩

/-- **C40, in parts (exactly one).** A mode whose sections all have the same options is served by exactly one configuration. -/
theorem C40_single_partial (secs : List MotConfig) (hs : ∀ c ∈ secs, Shaped c.osm) (m : Nat) (c : MotConfig) (hc : c ∈ secs)
    (hm : m ∈ c.mots) (hsame : ∀ d ∈ secs, m ∈ d.mots → SameOpts c d) :
    ∃ (k : Nat) (e : MotConfig), (join secs)[k]? = some e ∧ m ∈ e.mots ∧ Close c e ∧
      ∀ (k' : Nat) (e' : MotConfig), (join secs)[k']? = some e' → m ∈ e'.mots → k' = k := by
  have hr : ∀ c ∈ secs, eqCfg c c = true := fun c hc => (eqCfg_iff (hs c hc) (hs c hc)).2 (close_self c)
  obtain ⟨k, e, h1, h2, h3, h4⟩ := at_join secs c hc (hr c hc)
  obtain ⟨⟨s, hsm, e1, -⟩, -⟩ := back_join secs hr k e h1
  refine ⟨k, e, h1, h3 m hm, (eqCfg_iff (hs c hc) (by rw [e1]; exact hs s hsm)).1 h2, ?_⟩
  intro k' e' hk' hm'
  obtain ⟨-, h⟩ := back_join secs hr k' e' hk'
  obtain ⟨d, hd, g1, g2, g3⟩ := h m hm'
  obtain ⟨o1, o2⟩ := hsame d hd g1
  have ed : ∀ x, eqCfg d x = eqCfg c x := fun x => by simp only [eqCfg, o1, o2]
  rw [ed] at g2
  rcases Nat.lt_trichotomy k' k with h | h | h
  · rw [h4 k' e' h hk'] at g2; cases g2
  · exact h
  · have := g3 k e h h1
    rw [ed, h2] at this; cases this

/-- **C40, in parts (joined).** Two sections with the same options always end in the same configuration. -/
theorem C40_joined_partial (secs : List MotConfig) (hs : ∀ c ∈ secs, Shaped c.osm) (c d : MotConfig) (hc : c ∈ secs) (hd : d ∈ secs)
    (h : SameOpts c d) : ∃ e ∈ join secs, (∀ m ∈ c.mots, m ∈ e.mots) ∧ ∀ m ∈ d.mots, m ∈ e.mots := by
  have hr : ∀ c ∈ secs, eqCfg c c = true := fun c hc => (eqCfg_iff (hs c hc) (hs c hc)).2 (close_self c)
  obtain ⟨k, e, h1, h2, h3, h4⟩ := at_join secs c hc (hr c hc)
  obtain ⟨k', e', g1, g2, g3, g4⟩ := at_join secs d hd (hr d hd)
  have ed : ∀ x, eqCfg d x = eqCfg c x := fun x => by simp only [eqCfg, h.1, h.2]
  have : k' = k := by
    rcases Nat.lt_trichotomy k' k with hlt | hlt | hlt
    · have := h4 k' e' hlt g1
      rw [ed, this] at g2; cases g2
    · exact hlt
    · have := g4 k e hlt h1
      rw [ed, h2] at this; cases this
  subst this
  rw [h1] at g1
  cases g1
  exact ⟨e, List.mem_of_getElem? h1, h3, g3⟩

/-! ### Examples and negations -/

/-- Options to start with. -/
def exOsm : OsmOpts :=
  ⟨0, 1, [0, 0, 0, 0, 0, 0, 0, 0], 0, 0, 0, 0, 0, 0, 0, 0, 0, 0, 0, 0, 0, 0, 0, 0, 0, 0, 50, 100, 20, 30, 1, [10, 20],
    [20, 18, 15, 10, 8, 5, 3, 1], 1, 0, 1, 45, 0, 0, 0⟩
/-- Options to start with. -/
def exRouting : RoutingOpts := ⟨1000, 45, 1, 1, 1, 1, 0, 0, 0, 0, 0, true, true, true, 1 / 10, 0, 0, 0⟩
/-- Tram. -/
def exTram : MotConfig := ⟨[0], exOsm, exRouting⟩
/-- Rail. -/
def exRail : MotConfig := ⟨[2], { exOsm with keep := 2 }, exRouting⟩
/-- Subway. -/
def exSub : MotConfig := ⟨[1], exOsm, exRouting⟩

/-- Three sections, two of them with the same options. -/
example : (∀ c ∈ [exTram, exRail, exSub], Shaped c.osm) ∧
    join [exTram, exRail, exSub] = [{ exTram with mots := [0, 1] }, exRail] := by
  refine ⟨?_, by decide +kernel⟩
  intro c hc
  simp at hc
  rcases hc with rfl | rfl | rfl <;> exact ⟨rfl, rfl⟩

/-- **C40 (negation).** A section whose last level filter differs is joined with another: the level filter of the second is lost although ways are
classified with all eight, `OsmFilter.cpp:111`. -/
theorem C40_negation : ∃ a b : MotConfig, Shaped a.osm ∧ Shaped b.osm ∧ a.osm.levels[7]? ≠ b.osm.levels[7]? ∧
    ∃ e, join [a, b] = [e] ∧ e.osm = a.osm ∧ ∀ m ∈ b.mots, m ∈ e.mots :=
  ⟨exTram, { exSub with osm := { exOsm with levels := [0, 0, 0, 0, 0, 0, 0, 1] } }, ⟨rfl, rfl⟩, ⟨rfl, rfl⟩, by decide,
    { exTram with mots := [0, 1] }, by decide +kernel, rfl, by decide⟩

/-- **C40 (negation).** The same for the rules for platforms of edges, `OsmBuilder.cpp:701`, and for the rule and the normalisation
for station ids, `OsmBuilder.cpp:1093-1094`. -/
theorem C40_negation_platforms :
    ∃ a b : MotConfig, Shaped a.osm ∧ Shaped b.osm ∧ a.osm.edgePlatformRules ≠ b.osm.edgePlatformRules ∧
      a.osm.idRule ≠ b.osm.idRule ∧ a.osm.idNormzer ≠ b.osm.idNormzer ∧
      ∃ e, join [a, b] = [e] ∧ e.osm = a.osm ∧ ∀ m ∈ b.mots, m ∈ e.mots :=
  ⟨exTram, { exSub with osm := { exOsm with edgePlatformRules := 1, idRule := 1, idNormzer := 1 } }, ⟨rfl, rfl⟩, ⟨rfl, rfl⟩, by decide,
    by decide, by decide, { exTram with mots := [0, 1] }, by decide +kernel, rfl, by decide⟩

/-- **C40 (negation).** Penalties that differ by less than 0.01 are joined. Two sections can be in one configuration although they are not
even close to one another, and whether they are depends on the order of the sections. -/
theorem C40_negation_drift : ∃ a b c : MotConfig, ¬ Close b c ∧
    (∃ e, join [a, b, c] = [e]) ∧ (join [b, c, a]).length = 2 := by
  refine ⟨exTram, { exSub with routing := { exRouting with transitionPen := 95 / 1000 } },
    { exSub with mots := [3], routing := { exRouting with transitionPen := 105 / 1000 } }, ?_,
    ⟨{ exTram with mots := [0, 1, 3] }, by decide +kernel⟩, by decide +kernel⟩
  intro h
  have h := h.2.transition
  unfold Within at h
  revert h
  decide +kernel

/-- **C40 (negation).** A mode that is in two sections with different options is served by two configurations; both are run for it. -/
theorem C40_negation_twice : ∃ a b : MotConfig, a.mots = b.mots ∧ join [a, b] = [a, b] :=
  ⟨exTram, { exTram with osm := { exOsm with keep := 2 } }, rfl, by decide +kernel⟩

end Verif.Config
