import Verif.Config.Model
/-!
# Joining sections (C40)
-/

namespace Verif.Config

/-- Two numbers differ by less than `eps`. -/
def Within (eps a b : Rat) : Prop := (if a ≤ b then b - a else a - b) < eps

/-- The reading options that are compared, `OsmReadOpts.h:150-198`. The last level filter, the rules for the platforms of edges, and
the rule and the normalisation for station ids are not among them. -/
structure CloseOsm (a b : OsmOpts) : Prop where
  filters : a.noHup = b.noHup ∧ a.keep = b.keep ∧ a.drop = b.drop ∧ a.oneWay = b.oneWay ∧ a.oneWayRev = b.oneWayRev ∧
    a.twoWay = b.twoWay ∧ a.station = b.station ∧ a.stationBlocker = b.stationBlocker ∧ a.turnCycle = b.turnCycle ∧
    a.restrPos = b.restrPos ∧ a.restrNeg = b.restrNeg ∧ a.noRestr = b.noRestr
  levels : ∀ i < 7, a.levels[i]? = b.levels[i]?
  norms : a.statNormzer = b.statNormzer ∧ a.lineNormzer = b.lineNormzer ∧ a.trackNormzer = b.trackNormzer
  rules : a.relLinerules = b.relLinerules ∧ a.nameRule = b.nameRule ∧ a.platformRule = b.platformRule ∧
    a.maxSnapLevel = b.maxSnapLevel
  dists : a.maxOsmStationDistances.length = b.maxOsmStationDistances.length ∧
    ∀ (i : Nat) x y, a.maxOsmStationDistances[i]? = some x → b.maxOsmStationDistances[i]? = some y → Within (1 / 10) x y
  speeds : ∀ (i : Nat) x y, i < 8 → a.levelDefSpeed[i]? = some x → b.levelDefSpeed[i]? = some y → Within (1 / 10) x y
  reach : Within (1 / 10) a.maxAngleSnapReach b.maxAngleSnapReach
  snap : Within (1 / 10) a.maxSnapDistance b.maxSnapDistance
  cand : Within (1 / 10) a.maxStationCandDistance b.maxStationCandDistance
  block : Within (1 / 10) a.maxBlockDistance b.maxBlockDistance
  speed : Within (1 / 10) a.maxSpeed b.maxSpeed
  speedFac : Within (1 / 10) a.maxSpeedCorFac b.maxSpeedCorFac
  oneWayPen : Within (1 / 10) a.oneWaySpeedPen b.oneWaySpeedPen
  entry : Within (1 / 10) a.oneWayEntryCost b.oneWayEntryCost
  noLines : Within (1 / 10) a.noLinesPunishFact b.noLinesPunishFact
  angle : Within (1 / 10) a.fullTurnAngle b.fullTurnAngle

/-- The routing options that are compared: all. -/
structure CloseRouting (a b : RoutingOpts) : Prop where
  exact : a.fullTurnPunishFac = b.fullTurnPunishFac ∧ a.turnRestrCost = b.turnRestrCost ∧ a.popReachEdge = b.popReachEdge ∧
    a.noSelfHops = b.noSelfHops ∧ a.useStations = b.useStations ∧ a.transPenMethod = b.transPenMethod ∧
    a.emPenMethod = b.emPenMethod ∧ a.statsimiMethod = b.statsimiMethod
  angle : Within (1 / 100) a.fullTurnAngle b.fullTurnAngle
  line : Within (1 / 100) a.lineUnmatchedPunishFact b.lineUnmatchedPunishFact
  lineFrom : Within (1 / 100) a.lineNameFromUnmatchedPunishFact b.lineNameFromUnmatchedPunishFact
  lineTo : Within (1 / 100) a.lineNameToUnmatchedPunishFact b.lineNameToUnmatchedPunishFact
  noLines : Within (1 / 100) a.noLinesPunishFact b.noLinesPunishFact
  platform : Within (1 / 100) a.platformUnmatchedPen b.platformUnmatchedPen
  station : Within (1 / 100) a.stationUnmatchedPen b.stationUnmatchedPen
  dist : Within (1 / 100) a.stationDistPenFactor b.stationDistPenFactor
  nonStation : Within (1 / 100) a.nonStationPen b.nonStationPen
  transition : Within (1 / 100) a.transitionPen b.transitionPen

/-- Arrays with eight elements. -/
def Shaped (a : OsmOpts) : Prop := a.levels.length = 8 ∧ a.levelDefSpeed.length = 8

theorem near_iff (eps a b : Rat) (h : 0 < eps) : near eps a b = true ↔ Within eps a b := by
  unfold near Within
  simp only [Bool.and_eq_true, decide_eq_true_eq]
  split <;> constructor <;> grind

theorem nearN_iff (eps : Rat) (h : 0 < eps) : ∀ (n : Nat) (a b : List Rat), n ≤ a.length → n ≤ b.length →
    (nearN eps n a b = true ↔ ∀ (i : Nat) x y, i < n → a[i]? = some x → b[i]? = some y → Within eps x y) := by
  intro n
  induction n with
  | zero => intro a b _ _; simp [nearN]
  | succ n ih =>
    intro a b ha hb
    cases a with
    | nil => simp at ha
    | cons x a =>
      cases b with
      | nil => simp at hb
      | cons y b =>
        simp only [nearN, Bool.and_eq_true, near_iff _ _ _ h, ih a b (by simpa using ha) (by simpa using hb)]
        constructor
        · rintro ⟨h1, h2⟩ i x' y' hi hx hy
          cases i with
          | zero => simp at hx hy; subst hx hy; exact h1
          | succ i => exact h2 i x' y' (by omega) (by simpa using hx) (by simpa using hy)
        · intro h'
          exact ⟨h' 0 x y (by omega) rfl rfl, fun i x' y' hi hx hy => h' (i + 1) x' y' (by omega) (by simpa using hx)
            (by simpa using hy)⟩

theorem take_eq_iff {α : Type} : ∀ (n : Nat) (a b : List α), a.take n = b.take n ↔ ∀ i < n, a[i]? = b[i]? := by
  intro n a b
  constructor
  · intro h i hi
    have e := congrArg (fun l => l[i]?) h
    simpa [List.getElem?_take, hi] using e
  · intro h
    refine List.ext_getElem? fun i => ?_
    simp only [List.getElem?_take]
    split
    · next hi => exact h i hi
    · rfl

theorem eqOsm_iff {a b : OsmOpts} (ha : Shaped a) (hb : Shaped b) : eqOsm a b = true ↔ CloseOsm a b := by
  have h10 : (0 : Rat) < 1 / 10 := by decide +kernel
  have e8 := nearN_iff (1 / 10) h10 8 a.levelDefSpeed b.levelDefSpeed (by rw [ha.2]; omega) (by rw [hb.2]; omega)
  unfold eqOsm eqStat
  simp only [Bool.and_eq_true, beq_iff_eq, near_iff _ _ _ h10, e8, take_eq_iff]
  constructor
  · intro h
    simp only [and_assoc] at h
    obtain ⟨hl, hn, noHup, keep, levels, drop, oneWay, oneWayRev, twoWay, station, blocker, cycle, stat, line, track, rel, name, plat,
      snapLevel, reach, snap, cand, block, speeds, oneWayPen, entry, noLines, angle, corFac, speed, rp, rn, nr⟩ := h
    have hn' := (nearN_iff (1 / 10) h10 _ _ _ (Nat.le_refl _) (by omega)).1 hn
    exact ⟨⟨noHup, keep, drop, oneWay, oneWayRev, twoWay, station, blocker, cycle, rp, rn, nr⟩, levels, ⟨stat, line, track⟩,
      ⟨rel, name, plat, snapLevel⟩, ⟨hl, fun i x y hx hy => hn' i x y (List.getElem?_eq_some_iff.1 hx).1 hx hy⟩, speeds, reach, snap,
      cand, block, speed, corFac, oneWayPen, entry, noLines, angle⟩
  · intro h
    have h1 := h.filters
    have h2 := h.norms
    have h3 := h.rules
    have hn := (nearN_iff (1 / 10) h10 _ a.maxOsmStationDistances b.maxOsmStationDistances (Nat.le_refl _)
      (by have := h.dists.1; omega)).2 (fun i x y _ hx hy => h.dists.2 i x y hx hy)
    simp only [h1, h2, h3, h.dists.1, h.reach, h.snap, h.cand, h.block, h.speed, h.speedFac, h.oneWayPen, h.entry, h.noLines, h.angle]
    rw [h.dists.1] at hn
    simp only [hn, and_true, true_and]
    exact ⟨h.levels, h.speeds⟩

theorem eqRouting_iff (a b : RoutingOpts) : eqRouting a b = true ↔ CloseRouting a b := by
  have h100 : (0 : Rat) < 1 / 100 := by decide +kernel
  unfold eqRouting
  simp only [Bool.and_eq_true, beq_iff_eq, near_iff _ _ _ h100]
  constructor
  · intro h
    constructor <;> simp only [h, and_self]
  · intro h
    simp only [h.exact, h.angle, h.line, h.lineFrom, h.lineTo, h.noLines, h.platform, h.station, h.dist, h.nonStation, h.transition,
      and_self]

/-- The options of two sections are compared equal. -/
def Close (a b : MotConfig) : Prop := CloseOsm a.osm b.osm ∧ CloseRouting a.routing b.routing

theorem eqCfg_iff {a b : MotConfig} (ha : Shaped a.osm) (hb : Shaped b.osm) : eqCfg a b = true ↔ Close a b := by
  simp only [eqCfg, Bool.and_eq_true, eqOsm_iff ha hb, eqRouting_iff, Close]

theorem within_self (eps a : Rat) (h : 0 < eps) : Within eps a a := by
  unfold Within
  split <;> grind

theorem close_self (a : MotConfig) : Close a a := by
  have h10 : (0 : Rat) < 1 / 10 := by decide +kernel
  have h100 : (0 : Rat) < 1 / 100 := by decide +kernel
  refine ⟨?_, ?_⟩
  · constructor <;> try exact within_self _ _ h10
    all_goals try simp
    · intro i x y h1 h2
      rw [h1] at h2; cases h2
      simpa using within_self _ _ h10
    · intro i x y _ h1 h2
      rw [h1] at h2; cases h2
      simpa using within_self _ _ h10
  · constructor <;> try exact within_self _ _ h100
    simp

theorem mem_insertAll (m : Nat) : ∀ (ms s : List Nat), m ∈ insertAll s ms ↔ m ∈ s ∨ m ∈ ms := by
  intro ms
  induction ms with
  | nil => intro s; simp [insertAll]
  | cons x ms ih =>
    intro s
    rw [insertAll, ih]
    split
    case isTrue h =>
      have hx : x ∈ s := by simpa using h
      simp only [List.mem_cons]
      constructor
      · rintro (h | h)
        · exact .inl h
        · exact .inr (.inr h)
      · rintro (h | rfl | h)
        · exact .inl h
        · exact .inl hx
        · exact .inr h
    case isFalse h => simp [or_assoc]

theorem nodup_insertAll : ∀ (ms s : List Nat), s.Nodup → (insertAll s ms).Nodup := by
  intro ms
  induction ms with
  | nil => intro s h; exact h
  | cons x ms ih =>
    intro s h
    rw [insertAll]
    refine ih _ ?_
    split
    · exact h
    case isFalse hx =>
      have hx : x ∉ s := by simpa using hx
      exact List.nodup_append.2 ⟨h, by simp, fun a ha b hb e => by simp at hb; exact hx (hb ▸ e ▸ ha)⟩

/-- Where a section is found: the first configuration whose options are compared equal. -/
def At (cs : List MotConfig) (c : MotConfig) (k : Nat) (e : MotConfig) : Prop :=
  cs[k]? = some e ∧ eqCfg c e = true ∧ (∀ m ∈ c.mots, m ∈ e.mots) ∧
    ∀ (k' : Nat) (e' : MotConfig), k' < k → cs[k']? = some e' → eqCfg c e' = false

theorem eqCfg_opts {c e e' : MotConfig} (h1 : e'.osm = e.osm) (h2 : e'.routing = e.routing) : eqCfg c e' = eqCfg c e := by
  simp only [eqCfg, h1, h2]

theorem addSection_old : ∀ (cs : List MotConfig) (c : MotConfig) (k : Nat) (e : MotConfig), cs[k]? = some e →
    ∃ e' : MotConfig, (addSection cs c)[k]? = some e' ∧ e'.osm = e.osm ∧ e'.routing = e.routing ∧
      (∀ m ∈ e.mots, m ∈ e'.mots) ∧ ∀ m ∈ e'.mots, m ∈ e.mots ∨ (m ∈ c.mots ∧ eqCfg c e' = true ∧
        ∀ (k' : Nat) (x : MotConfig), k' < k → cs[k']? = some x → eqCfg c x = false) := by
  intro cs
  induction cs with
  | nil => intro c k e h; simp at h
  | cons a cs ih =>
    intro c k e h
    rw [addSection]
    split
    case isTrue hc =>
      cases k with
      | zero =>
        simp only [List.getElem?_cons_zero, Option.some.injEq] at h
        subst h
        refine ⟨_, rfl, rfl, rfl, fun m hm => (mem_insertAll _ _ _).2 (.inl hm), fun m hm => ?_⟩
        rcases (mem_insertAll _ _ _).1 hm with hm | hm
        · exact .inl hm
        · exact .inr ⟨hm, by rw [← hc]; exact eqCfg_opts rfl rfl, by omega⟩
      | succ k =>
        exact ⟨e, by simpa using h, rfl, rfl, fun _ h => h, fun _ h => .inl h⟩
    case isFalse hc =>
      cases k with
      | zero =>
        simp only [List.getElem?_cons_zero, Option.some.injEq] at h
        subst h
        exact ⟨_, rfl, rfl, rfl, fun _ h => h, fun _ h => .inl h⟩
      | succ k =>
        obtain ⟨e', h1, h2, h3, h4, h5⟩ := ih c k e (by simpa using h)
        refine ⟨e', by simpa using h1, h2, h3, h4, fun m hm => (h5 m hm).imp_right ?_⟩
        rintro ⟨p, q, r⟩
        refine ⟨p, q, fun k' x hk hx => ?_⟩
        cases k' with
        | zero => simp at hx; subst hx; simpa using hc
        | succ k' => exact r k' x (by omega) (by simpa using hx)

theorem addSection_new : ∀ (cs : List MotConfig) (c : MotConfig), eqCfg c c = true → ∃ k e, At (addSection cs c) c k e := by
  intro cs
  induction cs with
  | nil =>
    intro c hc
    refine ⟨0, _, rfl, ?_, fun m hm => (mem_insertAll _ _ _).2 (.inr hm), by omega⟩
    exact (eqCfg_opts rfl rfl).trans hc
  | cons a cs ih =>
    intro c hc
    rw [addSection]
    split
    case isTrue h =>
      exact ⟨0, _, rfl, (eqCfg_opts rfl rfl).trans h, fun m hm => (mem_insertAll _ _ _).2 (.inr hm), by omega⟩
    case isFalse h =>
      obtain ⟨k, e, h1, h2, h3, h4⟩ := ih c hc
      refine ⟨k + 1, e, by simpa using h1, h2, h3, fun k' x hk hx => ?_⟩
      cases k' with
      | zero => simp at hx; subst hx; simpa using h
      | succ k' => exact h4 k' x (by omega) (by simpa using hx)

/-- What is in the list after a section: what was in it, or the section. -/
theorem addSection_back : ∀ (cs : List MotConfig) (c : MotConfig) (k : Nat) (e : MotConfig), (addSection cs c)[k]? = some e →
    (∃ e0, cs[k]? = some e0) ∨ (k = cs.length ∧ e.osm = c.osm ∧ e.routing = c.routing ∧ e.mots.Nodup ∧ (∀ m ∈ e.mots, m ∈ c.mots) ∧
      ∀ x ∈ cs, eqCfg c x = false) := by
  intro cs
  induction cs with
  | nil =>
    intro c k e h
    cases k with
    | zero =>
      simp [addSection] at h
      subst h
      exact .inr ⟨rfl, rfl, rfl, nodup_insertAll _ _ .nil, fun m hm => by simpa using (mem_insertAll _ _ _).1 hm, by simp⟩
    | succ k => simp [addSection] at h
  | cons a cs ih =>
    intro c k e h
    rw [addSection] at h
    cases k with
    | zero => exact .inl ⟨a, rfl⟩
    | succ k =>
      split at h
      · exact .inl ⟨e, by simpa using h⟩
      case isFalse hc =>
        rcases ih c k e (by simpa using h) with ⟨e0, h⟩ | ⟨h1, h2, h3, h4, h5, h6⟩
        · exact .inl ⟨e0, by simpa using h⟩
        · refine .inr ⟨by simp [h1], h2, h3, h4, h5, ?_⟩
          intro x hx
          rcases List.mem_cons.1 hx with rfl | hx
          · simpa using hc
          · exact h6 x hx

theorem at_step {cs : List MotConfig} {c : MotConfig} {k : Nat} {e : MotConfig} (h : At cs c k e) (d : MotConfig) :
    ∃ e', At (addSection cs d) c k e' := by
  obtain ⟨h1, h2, h3, h4⟩ := h
  obtain ⟨e', g1, g2, g3, g4, -⟩ := addSection_old cs d k e h1
  refine ⟨e', g1, by rw [eqCfg_opts g2 g3]; exact h2, fun m hm => g4 m (h3 m hm), fun k' x hk hx => ?_⟩
  have hlt : k' < cs.length := by have := (List.getElem?_eq_some_iff.1 h1).1; omega
  obtain ⟨x', f1, f2, f3, -⟩ := addSection_old cs d k' cs[k'] (List.getElem?_eq_getElem hlt)
  rw [hx] at f1
  cases f1
  rw [eqCfg_opts f2 f3]
  exact h4 k' _ hk (List.getElem?_eq_getElem hlt)

theorem at_fold : ∀ (secs cs : List MotConfig) (c : MotConfig), (∃ k e, At cs c k e) → ∃ k e, At (secs.foldl addSection cs) c k e := by
  intro secs
  induction secs with
  | nil => intro cs c h; exact h
  | cons d secs ih =>
    rintro cs c ⟨k, e, h⟩
    obtain ⟨e', h'⟩ := at_step h d
    exact ih _ c ⟨k, e', h'⟩

theorem at_join (secs : List MotConfig) (c : MotConfig) (hc : c ∈ secs) (hr : eqCfg c c = true) : ∃ k e, At (join secs) c k e := by
  obtain ⟨l, r, rfl⟩ := List.append_of_mem hc
  rw [join, List.foldl_append, List.foldl_cons]
  exact at_fold _ _ _ (addSection_new _ c hr)

/-- The other direction: an entry has the options of a section, and its modes come from sections whose first match it is. -/
def Back (secs cs : List MotConfig) : Prop :=
  ∀ (k : Nat) (e : MotConfig), cs[k]? = some e → (∃ s ∈ secs, e.osm = s.osm ∧ e.routing = s.routing) ∧
    ∀ m ∈ e.mots, ∃ c ∈ secs, m ∈ c.mots ∧ eqCfg c e = true ∧
      ∀ (k' : Nat) (x : MotConfig), k' < k → cs[k']? = some x → eqCfg c x = false

theorem back_step {secs cs : List MotConfig} (h : Back secs cs) (d : MotConfig) (hd : eqCfg d d = true) :
    Back (secs ++ [d]) (addSection cs d) := by
  have hold : ∀ (k : Nat) (x : MotConfig) (c : MotConfig), k < cs.length → (addSection cs d)[k]? = some x →
      ∃ x0, cs[k]? = some x0 ∧ eqCfg c x = eqCfg c x0 := by
    intro k x c hlt hx
    obtain ⟨x', f1, f2, f3, -⟩ := addSection_old cs d k cs[k] (List.getElem?_eq_getElem hlt)
    rw [hx] at f1
    cases f1
    exact ⟨_, List.getElem?_eq_getElem hlt, eqCfg_opts f2 f3⟩
  intro k e he
  rcases addSection_back cs d k e he with ⟨e0, h0⟩ | ⟨h1, h2, h3, -, h5, h6⟩
  · have hk := (List.getElem?_eq_some_iff.1 h0).1
    obtain ⟨e', g1, g2, g3, -, g5⟩ := addSection_old cs d k e0 h0
    rw [he] at g1
    cases g1
    obtain ⟨⟨s, hs, a1, a2⟩, hm⟩ := h k e0 h0
    refine ⟨⟨s, by simp [hs], g2.trans a1, g3.trans a2⟩, fun m hmm => ?_⟩
    rcases g5 m hmm with hm0 | ⟨b1, b2, b3⟩
    · obtain ⟨c, hc, c1, c2, c3⟩ := hm m hm0
      refine ⟨c, by simp [hc], c1, by rw [eqCfg_opts g2 g3]; exact c2, fun k' x hk' hx => ?_⟩
      obtain ⟨x0, hx0, ex⟩ := hold k' x c (by omega) hx
      rw [ex]
      exact c3 k' x0 hk' hx0
    · refine ⟨d, by simp, b1, b2, fun k' x hk' hx => ?_⟩
      obtain ⟨x0, hx0, ex⟩ := hold k' x d (by omega) hx
      rw [ex]
      exact b3 k' x0 hk' hx0
  · subst h1
    refine ⟨⟨d, by simp, h2, h3⟩, fun m hm => ⟨d, by simp, h5 m hm, (eqCfg_opts h2 h3).trans hd, fun k' x hk' hx => ?_⟩⟩
    obtain ⟨x0, hx0, ex⟩ := hold k' x d hk' hx
    rw [ex]
    exact h6 x0 (List.mem_of_getElem? hx0)

theorem back_join (secs : List MotConfig) (hr : ∀ c ∈ secs, eqCfg c c = true) : Back secs (join secs) := by
  have h : ∀ (l done cs : List MotConfig), (∀ c ∈ l, eqCfg c c = true) → Back done cs →
      Back (done ++ l) (l.foldl addSection cs) := by
    intro l
    induction l with
    | nil => intro done cs _ h; simpa using h
    | cons d l ih =>
      intro done cs hr h
      have := ih (done ++ [d]) (addSection cs d) (fun c hc => hr c (by simp [hc])) (back_step h d (hr d (by simp)))
      simpa using this
  have := h secs [] [] hr (by intro k e h; simp at h)
  rw [List.nil_append] at this
  exact this

end Verif.Config
