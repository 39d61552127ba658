import Verif.Cand.Model
import Init.Data.Rat.Lemmas
/-!
# Candidates of a stop (C50)
-/

set_option linter.unusedSectionVars false

namespace Verif.Cand
variable {E N P : Type} [DecidableEq E] [DecidableEq N]

/-! ## Specification -/

/-- Edges continue one another at a node of degree two. -/
def Continues (g : Graph E N) (x y : E) : Prop := g.deg (g.to x) = 2 ∧ y ∈ g.out (g.to x)

/-- Edges linked by nodes of degree two. -/
inductive Linked (g : Graph E N) : E → E → Prop
  | refl (x) : Linked g x x
  | fwd {x y z} : Linked g x y → Continues g y z → Linked g x z
  | bwd {x y z} : Linked g x y → Continues g z y → Linked g x z

/-- There is a way out of and into every node that edges lead to, in particular if every edge has a reverse. -/
def NoDeadEnds (g : Graph E N) : Prop := (∀ e, g.out (g.to e) ≠ []) ∧ ∀ e, g.inn (g.fr e) ≠ []

/-- The penalty of a distance, `ShapeBuilder.cpp:1263-1275`. -/
def emPen (o : Opts) (d : Rat) : Rat :=
  if o.emMethod = .exp then d * o.distFac else if o.emMethod = .norm then (d * o.distFac) * (d * o.distFac) / 2 else d

/-- A candidate at a station. -/
structure AtStation (g : Graph E N) (o : Opts) (q : Query E N P) (nd : N) (e : E) (c : Cand E P) : Prop where
  found : nd ∈ q.nds
  near : q.nDist nd ≤ o.maxStationCandDistance
  edge : c.e = some e
  leaves : e ∈ g.out nd
  dir : g.wrong e = false
  progr : c.progr = 0
  pos : c.pos = none
  pen : ∃ name track : Rat, c.pen = emPen o (q.nDist nd) + name + track ∧
    (name = if q.similar nd = true then 0 else o.stationUnmatchedPen) ∧
    (track = if q.platform ≠ [] ∧ q.track nd = q.platform then o.platformUnmatchedPen else 0)

/-- A candidate on an edge. -/
structure OnEdge (o : Opts) (q : Query E N P) (e : E) (c : Cand E P) : Prop where
  found : e ∈ q.edgs
  near : q.eDist e ≤ o.maxSnapDistance
  edge : c.e = some e
  progr : c.progr = if q.rev e = true then 1 - q.progr e else q.progr e
  pos : c.pos = none
  pen : c.pen = emPen o (q.eDist e) + o.nonStationPen

/-! ## Reachable edges -/

theorem fwdNext_mem {g : Graph E N} {e n : E} (h : fwdNext g e = some n) : n ∈ g.out (g.to e) := by
  unfold fwdNext at h
  split at h
  case h_1 f b hf hb =>
    cases h
    split
    · exact List.mem_of_getLast? hb
    · exact List.mem_of_head? hf
  case h_2 => cases h

theorem fwd_two (g : Graph E N) (e : E) (edgs : List E) (n : Nat) :
    fwd g e edgs (n + 2) e = fwd g e edgs 2 e := by
  unfold fwd
  split <;> try rfl
  split <;> try rfl
  next next hn =>
  split <;> try rfl
  split <;> try rfl
  split <;> try rfl
  unfold fwd
  rw [hn]
  simp

theorem bwd_two (g : Graph E N) (e : E) (edgs : List E) (n : Nat) (cur : E) :
    bwd g e edgs (n + 2) cur = bwd g e edgs 2 cur := by
  unfold bwd
  split <;> try rfl
  split <;> try rfl
  next next hn =>
  split <;> try rfl
  split <;> try rfl
  split <;> try rfl
  unfold bwd
  rw [hn]
  simp

theorem fwd_result (g : Graph E N) (e : E) (edgs : List E) (he : e ∉ edgs) (hd : NoDeadEnds g) :
    (∃ r, fwd g e edgs 2 e = .found r ∧ r ∈ edgs ∧ r ≠ e ∧ Continues g e r ∧ g.wrong r = false) ∨
      ∃ cur, fwd g e edgs 2 e = .stop cur ∧ cur ∉ edgs := by
  rw [fwd]
  split
  case isFalse => exact .inr ⟨e, rfl, he⟩
  case isTrue h2 =>
    split
    case h_1 hn =>
      have := hd.1 e
      unfold fwdNext at hn
      cases hl : g.out (g.to e) with
      | nil => exact absurd hl this
      | cons a l => simp [hl, List.getLast?_cons] at hn
    case h_2 next hn =>
      split
      · exact .inr ⟨e, rfl, he⟩
      case isFalse hne =>
        split
        · exact .inr ⟨e, rfl, he⟩
        case isFalse hw =>
          split
          case isTrue hm =>
            exact .inl ⟨next, rfl, hm, fun h => hne (.inl h), ⟨h2, fwdNext_mem hn⟩, by simpa using hw⟩
          case isFalse hm =>
            right
            rw [fwd]
            split
            · refine ⟨next, ?_, hm⟩
              simp [hn]
            · exact ⟨next, rfl, hm⟩

theorem bwd_result (g : Graph E N) (e : E) (edgs : List E) (cur : E) (he : e ∉ edgs) (hc : cur ∉ edgs) (hd : NoDeadEnds g) :
    ∃ c, bwd g e edgs 2 cur = .stop c := by
  rw [bwd]
  split
  case isFalse => exact ⟨_, rfl⟩
  case isTrue h2 =>
    split
    case h_1 hn =>
      have := hd.2 e
      unfold bwdNext at hn
      cases hl : g.inn (g.fr e) with
      | nil => exact absurd hl this
      | cons a l => simp [hl, List.getLast?_cons] at hn
    case h_2 next hn =>
      split
      · exact ⟨_, rfl⟩
      split
      · exact ⟨_, rfl⟩
      rw [bwd]
      split
      · refine ⟨next, ?_⟩
        simp [hn]
      · exact ⟨_, rfl⟩

/-- **C50 (termination).** The search for a selected edge that continues another ends after at most two rounds of each loop: more
rounds change nothing, and the bound is never reached. -/
theorem C50_terminates (g : Graph E N) (hd : NoDeadEnds g) (fuel : Nat) (hf : 2 ≤ fuel) (e : E) (edgs : List E) (he : e ∉ edgs) :
    deg2reachable g fuel e edgs = deg2reachable g 2 e edgs ∧
      ((∃ r, deg2reachable g fuel e edgs = .found r) ∨ ∃ c, deg2reachable g fuel e edgs = .stop c) := by
  obtain ⟨n, rfl⟩ : ∃ n, fuel = n + 2 := ⟨fuel - 2, by omega⟩
  have e1 : deg2reachable g (n + 2) e edgs = deg2reachable g 2 e edgs := by
    unfold deg2reachable
    rw [fwd_two]
    split
    · exact bwd_two _ _ _ _ _
    · rfl
  refine ⟨e1, ?_⟩
  rw [e1]
  unfold deg2reachable
  rcases fwd_result g e edgs he hd with ⟨r, h, -⟩ | ⟨c, h, hc⟩
  · rw [h]; exact .inl ⟨r, rfl⟩
  · rw [h]; exact .inr (bwd_result g e edgs c he hc hd)

/-- **C50 (what is found).** An edge that is found is selected, different from the edge asked for, and continues it. -/
theorem C50_found (g : Graph E N) (hd : NoDeadEnds g) (fuel : Nat) (hf : 2 ≤ fuel) (e r : E) (edgs : List E) (he : e ∉ edgs)
    (h : deg2reachable g fuel e edgs = .found r) : r ∈ edgs ∧ r ≠ e ∧ Continues g e r ∧ g.wrong r = false := by
  rw [(C50_terminates g hd fuel hf e edgs he).1] at h
  unfold deg2reachable at h
  rcases fwd_result g e edgs he hd with ⟨r', h', h1, h2, h3, h4⟩ | ⟨c, h', hc⟩
  · rw [h'] at h
    cases h
    exact ⟨h1, h2, h3, h4⟩
  · rw [h'] at h
    obtain ⟨c', hb⟩ := bwd_result g e edgs c he hc hd
    change bwd g e edgs 2 c = _ at h
    rw [hb] at h
    cases h

/-! ## Selection -/

/-- The invariant of the selection after the edges `done`. -/
structure SelInv (g : Graph E N) (o : Opts) (q : Query E N P) (done : List E) (s : Sel E) : Prop where
  nodup : s.selected.Nodup
  sub : ∀ e ∈ s.selected, e ∈ done ∧ q.eDist e ≤ o.maxSnapDistance
  score : ∀ e ∈ s.selected, s.scores.get e = some (q.eDist e)
  progr : ∀ e ∈ s.selected, s.progrs.get e = some (if q.rev e = true then 1 - q.progr e else q.progr e)
  cover : ∀ e ∈ done, q.eDist e ≤ o.maxSnapDistance → ∃ f ∈ s.selected, Linked g e f ∧ q.eDist f ≤ q.eDist e

theorem selectStep_inv {g : Graph E N} {o : Opts} {q : Query E N P} {done : List E} {s : Sel E} (hd : NoDeadEnds g)
    (h : SelInv g o q done s) (edg : E) : ∃ s', selectStep g o q s edg = some s' ∧ SelInv g o q (done ++ [edg]) s' := by
  have weaken : (q.eDist edg ≤ o.maxSnapDistance → ∃ f ∈ s.selected, Linked g edg f ∧ q.eDist f ≤ q.eDist edg) →
      SelInv g o q (done ++ [edg]) s := by
    intro hc
    refine ⟨h.nodup, fun e he => ⟨by simp [(h.sub e he).1], (h.sub e he).2⟩, h.score, h.progr, fun e he hn => ?_⟩
    rcases List.mem_append.1 he with he | he
    · exact h.cover e he hn
    · simp at he; subst he; exact hc hn
  unfold selectStep
  by_cases hm : edg ∈ s.selected
  · rw [if_pos hm]
    exact ⟨s, rfl, weaken fun _ => ⟨edg, hm, .refl _, by grind⟩⟩
  rw [if_neg hm]
  have ht := C50_terminates g hd 3 (by omega) edg s.selected hm
  rcases ht.2 with ⟨r, hr⟩ | ⟨c, hc⟩
  · obtain ⟨r1, r2, r3, r4⟩ := C50_found g hd 3 (by omega) edg r s.selected hm hr
    rw [hr]
    simp only [h.score r r1, Option.getD_some]
    by_cases hmax : q.eDist edg > o.maxSnapDistance
    · rw [if_pos hmax]
      exact ⟨s, rfl, weaken fun hn => by grind⟩
    rw [if_neg hmax]
    by_cases hlt : q.eDist edg < q.eDist r
    · rw [if_pos hlt, if_pos r1]
      refine ⟨_, rfl, ?_⟩
      have hne : ∀ e ∈ s.selected, e ≠ edg := fun e he heq => hm (heq ▸ he)
      refine ⟨?_, ?_, ?_, ?_, ?_⟩
      · simp only [insertEdge]
        refine List.nodup_append.2 ⟨h.nodup.filter _, by simp, fun a ha b hb => ?_⟩
        simp only [List.mem_singleton] at hb
        subst hb
        exact hne a (List.mem_filter.1 ha).1
      · intro e he
        simp only [insertEdge, List.mem_append, List.mem_singleton] at he
        rcases he with he | rfl
        · have he := (List.mem_filter.1 he).1
          exact ⟨by simp [(h.sub e he).1], (h.sub e he).2⟩
        · exact ⟨by simp, by grind⟩
      · intro e he
        simp only [insertEdge, List.mem_append, List.mem_singleton] at he ⊢
        rw [FMap.get_put, FMap.get_erase]
        rcases he with he | rfl
        · obtain ⟨he, hr'⟩ := List.mem_filter.1 he
          have hr' : e ≠ r := by simpa using hr'
          rw [if_neg (hne e he), if_neg hr']
          exact h.score e he
        · simp
      · intro e he
        simp only [insertEdge, List.mem_append, List.mem_singleton] at he ⊢
        rw [FMap.get_put]
        rcases he with he | rfl
        · obtain ⟨he, -⟩ := List.mem_filter.1 he
          rw [if_neg (hne e he)]
          exact h.progr e he
        · simp
      · intro e he hn
        simp only [insertEdge]
        rcases List.mem_append.1 he with he | he
        · obtain ⟨f, hf, hl, hle⟩ := h.cover e he hn
          by_cases hfr : f = r
          · subst hfr
            exact ⟨edg, by simp, .bwd hl r3, by grind⟩
          · exact ⟨f, by simp [hf, hfr], hl, hle⟩
        · simp at he
          subst he
          exact ⟨e, by simp, .refl _, by grind⟩
    · rw [if_neg hlt]
      exact ⟨s, rfl, weaken fun _ => ⟨r, r1, .fwd (.refl _) r3, by grind⟩⟩
  · rw [hc]
    simp only []
    by_cases hmax : q.eDist edg > o.maxSnapDistance
    · rw [if_pos hmax]
      exact ⟨s, rfl, weaken fun hn => by grind⟩
    rw [if_neg hmax]
    refine ⟨_, rfl, ?_⟩
    have hne : ∀ e ∈ s.selected, e ≠ edg := fun e he heq => hm (heq ▸ he)
    refine ⟨?_, ?_, ?_, ?_, ?_⟩
    · simp only [insertEdge]
      refine List.nodup_append.2 ⟨h.nodup, by simp, fun a ha b hb => ?_⟩
      simp only [List.mem_singleton] at hb
      subst hb
      exact hne a ha
    · intro e he
      simp only [insertEdge, List.mem_append, List.mem_singleton] at he
      rcases he with he | rfl
      · exact ⟨by simp [(h.sub e he).1], (h.sub e he).2⟩
      · exact ⟨by simp, by grind⟩
    · intro e he
      simp only [insertEdge, List.mem_append, List.mem_singleton] at he ⊢
      rw [FMap.get_put]
      rcases he with he | rfl
      · rw [if_neg (hne e he)]
        exact h.score e he
      · simp
    · intro e he
      simp only [insertEdge, List.mem_append, List.mem_singleton] at he ⊢
      rw [FMap.get_put]
      rcases he with he | rfl
      · rw [if_neg (hne e he)]
        exact h.progr e he
      · simp
    · intro e he hn
      simp only [insertEdge]
      rcases List.mem_append.1 he with he | he
      · obtain ⟨f, hf, hl, hle⟩ := h.cover e he hn
        exact ⟨f, by simp [hf], hl, hle⟩
      · simp at he
        subst he
        exact ⟨e, by simp, .refl _, by grind⟩

theorem selectLoop_inv {g : Graph E N} {o : Opts} {q : Query E N P} (hd : NoDeadEnds g) :
    ∀ (es done : List E) (s : Sel E), SelInv g o q done s →
      ∃ s', selectLoop g o q s es = some s' ∧ SelInv g o q (done ++ es) s' := by
  intro es
  induction es with
  | nil => intro done s h; exact ⟨s, rfl, by simpa using h⟩
  | cons e es ih =>
    intro done s h
    obtain ⟨s', h1, h2⟩ := selectStep_inv hd h e
    obtain ⟨s'', h3, h4⟩ := ih _ s' h2
    refine ⟨s'', ?_, by simpa using h4⟩
    rw [selectLoop, h1, Option.bind_some, h3]

theorem emWeight_eq (o : Opts) (d : Rat) : emWeight o.emMethod o.distFac d = emPen o d := by
  unfold emWeight emPen
  cases o.emMethod
  · rfl
  · simp only [reduceCtorEq, if_false, if_true]
    grind
  · rfl

/-- **C50 (candidates).** The candidates of a stop are the fallback at the position of the stop, then candidates at stations, then
candidates on edges. The stations and edges are those in reach; no edge is taken twice in the last part. An edge in reach is left out only if
an edge that is linked to it by nodes of degree two and is no further away is taken. -/
theorem C50_candidates_partial (g : Graph E N) (o : Opts) (q : Query E N P) (hd : NoDeadEnds g) :
    ∃ (st ed : List (Cand E P)), getEdgCands g o q = some (⟨none, 0, 0, some q.pos⟩ :: (st ++ ed)) ∧
      (∀ c ∈ st, o.useStations = true ∧ ∃ nd e, AtStation g o q nd e c) ∧
      (o.useStations = true → ∀ nd ∈ q.nds, q.nDist nd ≤ o.maxStationCandDistance → ∀ e ∈ g.out nd, g.wrong e = false →
        ∃ c ∈ st, AtStation g o q nd e c) ∧
      (∀ c ∈ ed, ∃ e, OnEdge o q e c) ∧ (ed.map (·.e)).Nodup ∧
      ∀ e ∈ q.edgs, q.eDist e ≤ o.maxSnapDistance → ∃ c ∈ ed, ∃ f, c.e = some f ∧ Linked g e f ∧ q.eDist f ≤ q.eDist e := by
  obtain ⟨s, h1, h2⟩ := selectLoop_inv (g := g) (o := o) (q := q) hd q.edgs [] ⟨[], [], []⟩
    ⟨by simp, by simp, by simp, by simp, by simp⟩
  have hst : ∀ c, c ∈ stationCands g o q ↔ o.useStations = true ∧ ∃ nd e, AtStation g o q nd e c := by
    intro c
    unfold stationCands
    have etrack : ∀ nd, ((!q.platform.isEmpty && !(q.track nd).isEmpty && q.track nd == q.platform) = true) ↔
        (q.platform ≠ [] ∧ q.track nd = q.platform) := by
      intro nd
      simp only [Bool.and_eq_true, Bool.not_eq_true', List.isEmpty_eq_false_iff, beq_iff_eq]
      constructor
      · rintro ⟨⟨a, b⟩, c⟩; exact ⟨a, c⟩
      · rintro ⟨a, b⟩; exact ⟨⟨a, b ▸ a⟩, b⟩
    by_cases hu : o.useStations = true
    · rw [if_pos hu]
      simp only [hu, true_and, List.mem_flatMap]
      constructor
      · rintro ⟨nd, hnd, hc⟩
        split at hc
        · cases hc
        case isFalse hmax =>
          simp only [List.mem_filterMap] at hc
          obtain ⟨e, he, hc⟩ := hc
          split at hc
          · cases hc
          case isFalse hw =>
            cases hc
            refine ⟨nd, e, hnd, by grind, rfl, he, by simpa using hw, rfl, rfl, _, _, ?_, rfl, rfl⟩
            simp only [emWeight_eq, etrack]
      · rintro ⟨nd, e, ha⟩
        refine ⟨nd, ha.found, ?_⟩
        have hmax : ¬ q.nDist nd > o.maxStationCandDistance := by have := ha.near; grind
        rw [if_neg hmax]
        simp only [List.mem_filterMap]
        refine ⟨e, ha.leaves, ?_⟩
        rw [ha.dir]
        obtain ⟨name, track, h1, h2, h3⟩ := ha.pen
        obtain ⟨ce, cp, cq, cpos⟩ := c
        have a1 : ce = some e := ha.edge
        have a2 : cq = 0 := ha.progr
        have a3 : cpos = none := ha.pos
        simp only at h1
        subst a1 a2 a3 h1 h2 h3
        simp only [Bool.false_eq_true, if_false, emWeight_eq, etrack]
    · rw [if_neg hu]
      simp [hu]
  refine ⟨stationCands g o q, edgeCands o s, ?_, fun c hc => (hst c).1 hc, ?_, ?_, ?_, ?_⟩
  · rw [getEdgCands, h1]; rfl
  · intro hu nd hnd hn e he hw
    refine ⟨⟨some e, emPen o (q.nDist nd) + (if q.similar nd = true then 0 else o.stationUnmatchedPen) +
      (if q.platform ≠ [] ∧ q.track nd = q.platform then o.platformUnmatchedPen else 0), 0, none⟩, ?_, ?_⟩
    · refine (hst _).2 ⟨hu, nd, e, hnd, hn, rfl, he, hw, rfl, rfl, _, _, rfl, rfl, rfl⟩
    · exact ⟨hnd, hn, rfl, he, hw, rfl, rfl, _, _, rfl, rfl, rfl⟩
  · intro c hc
    simp only [edgeCands, List.mem_map] at hc
    obtain ⟨e, he, rfl⟩ := hc
    have hs := h2.sub e he
    refine ⟨e, by simpa using hs.1, hs.2, rfl, ?_, rfl, ?_⟩
    · simp only [h2.progr e he, Option.getD_some]
    · simp only [h2.score e he, Option.getD_some, emWeight_eq]
  · have : (edgeCands o s : List (Cand E P)).map (·.e) = s.selected.map some := by
      simp only [edgeCands, List.map_map]
      rfl
    rw [this]
    refine List.pairwise_map.2 (h2.nodup.imp ?_)
    intro a b h e
    exact h (Option.some.inj e)
  · intro e he hn
    obtain ⟨f, hf, hl, hle⟩ := h2.cover e (by simpa using he) hn
    exact ⟨_, List.mem_map.2 ⟨f, hf, rfl⟩, f, rfl, hl, hle⟩

/-- **C50 (direction).** If the edges come from the index, no candidate is on an edge against its direction. -/
theorem C50_direction (g : Graph E N) (o : Opts) (q : Query E N P) (hd : NoDeadEnds g) (nds : List N)
    (hi : ∀ e ∈ q.edgs, e ∈ index g o nds) :
    ∃ l, getEdgCands g o q = some l ∧ ∀ c ∈ l, ∀ e, c.e = some e → g.wrong e = false := by
  obtain ⟨st, ed, h1, h2, -, h4, -⟩ := C50_candidates_partial g o q hd
  refine ⟨_, h1, ?_⟩
  intro c hc e he
  rcases List.mem_cons.1 hc with rfl | hc
  · cases he
  rcases List.mem_append.1 hc with hc | hc
  · obtain ⟨-, nd, f, ha⟩ := h2 c hc
    have := ha.edge
    rw [he] at this
    cases this
    exact ha.dir
  · obtain ⟨f, ha⟩ := h4 c hc
    have := ha.edge
    rw [he] at this
    cases this
    have := hi _ ha.found
    simp only [index, List.mem_flatMap, List.mem_filter, Bool.and_eq_true, decide_eq_true_eq, Bool.not_eq_true'] at this
    obtain ⟨_, _, _, _, h⟩ := this
    exact h

/-- **C50 (distance).** A greater distance never has a smaller penalty. -/
theorem C50_distance (o : Opts) (hf : 0 ≤ o.distFac) (d d' : Rat) (h0 : 0 ≤ d) (h : d ≤ d') : emPen o d ≤ emPen o d' := by
  have h1 : d * o.distFac ≤ d' * o.distFac := Rat.mul_le_mul_of_nonneg_right h hf
  have h2 : 0 ≤ d * o.distFac := Rat.mul_nonneg h0 hf
  have h3 : (d * o.distFac) * (d * o.distFac) ≤ (d' * o.distFac) * (d' * o.distFac) := by
    have a := Rat.mul_le_mul_of_nonneg_right h1 h2
    have b := Rat.mul_le_mul_of_nonneg_left h1 (Rat.le_trans h2 h1)
    exact Rat.le_trans a b
  unfold emPen
  split
  · exact h1
  split
  · grind
  · exact h

/-! ### Examples and negations -/

/-- A line with the nodes 0, 1, 2: edges 0 (0→1) and 1 (1→2) with the reverse edges 2 (1→0) and 3 (2→1). -/
def exGraph : Graph Nat Nat where
  fr e := [0, 1, 1, 2][e]?.getD 9
  to e := [1, 2, 0, 1][e]?.getD 9
  out n := [[0], [1, 2], [3]][n]?.getD [9]
  inn n := [[2], [0, 3], [1]][n]?.getD [9]
  deg n := ([[0], [1, 2], [3]][n]?.getD [9]).length
  wrong _ := false
  lvl _ := 0

/-- Options. -/
def exOpts : Opts := ⟨true, 100, 50, 5, 10, 7, 20, .exp, 1⟩

/-- A stop near node 1, on platform 4, where the track of node 1 is the given one. -/
def exQuery (track edgs : List Nat) : Query Nat Nat Nat :=
  ⟨5, [4], fun _ => 3, fun e => if e = 1 then 2 else 4, fun _ => true, fun _ => track, fun _ => 1 / 4, fun e => e == 2, [1], edgs⟩

theorem exGraph_noDeadEnds : NoDeadEnds exGraph := by
  constructor
  · intro e
    match e with
    | 0 | 1 | 2 | 3 => decide
    | n + 4 => exact (by decide : ([9] : List Nat) ≠ [])
  · intro e
    match e with
    | 0 | 1 | 2 | 3 => decide
    | n + 4 => exact (by decide : ([9] : List Nat) ≠ [])

/-- All four edges are in reach: the edge 0 is left out for edge 1. -/
example : NoDeadEnds exGraph ∧ getEdgCands exGraph exOpts (exQuery [5] [1, 0]) =
    some [⟨none, 0, 0, some 5⟩, ⟨some 1, 3, 0, none⟩, ⟨some 2, 3, 0, none⟩, ⟨some 1, 22, 1 / 4, none⟩] :=
  ⟨exGraph_noDeadEnds, by decide +kernel⟩

/-- **C50 (negation).** A candidate at a station with the track of the platform is penalised, one with another track is
not: the condition in `ShapeBuilder.cpp:211-214` is the wrong way round. -/
theorem C50_negation : ∃ (g : Graph Nat Nat) (o : Opts) (q : Query Nat Nat Nat) (other : List Nat), q.platform ≠ [] ∧ NoDeadEnds g ∧
    (∀ nd ∈ q.nds, q.track nd = q.platform) ∧ other ≠ q.platform ∧ 0 < o.platformUnmatchedPen ∧
    ∃ l l', getEdgCands g o q = some l ∧ getEdgCands g o { q with track := fun _ => other } = some l' ∧
      ∃ c ∈ l, ∃ c' ∈ l', c.e = some 1 ∧ c'.e = some 1 ∧ c.pen = c'.pen + o.platformUnmatchedPen :=
  ⟨exGraph, exOpts, exQuery [4] [], [5], by decide, exGraph_noDeadEnds, by decide, by decide, by decide +kernel,
    [⟨none, 0, 0, some 5⟩, ⟨some 1, 10, 0, none⟩, ⟨some 2, 10, 0, none⟩],
    [⟨none, 0, 0, some 5⟩, ⟨some 1, 3, 0, none⟩, ⟨some 2, 3, 0, none⟩], by decide +kernel, by decide +kernel,
    ⟨some 1, 10, 0, none⟩, by decide +kernel, ⟨some 1, 3, 0, none⟩, by decide +kernel, rfl, rfl, by decide +kernel⟩

/-- **C50 (limit).** The edges are visited in the order of their addresses, and only continuations in the direction of the edge are found
(`ShapeBuilder.cpp:306`): whether the edge that is further away is left out depends on that order. -/
theorem C50_limit_order : ∃ (g : Graph Nat Nat) (o : Opts) (q : Query Nat Nat Nat) (edgs : List Nat), edgs = q.edgs.reverse ∧ NoDeadEnds g ∧
    ∃ l l', getEdgCands g o q = some l ∧ getEdgCands g o { q with edgs := edgs } = some l' ∧ l.length ≠ l'.length :=
  ⟨exGraph, { exOpts with useStations := false }, exQuery [] [1, 0], [0, 1], rfl, exGraph_noDeadEnds,
    [⟨none, 0, 0, some 5⟩, ⟨some 1, 22, 1 / 4, none⟩],
    [⟨none, 0, 0, some 5⟩, ⟨some 0, 24, 1 / 4, none⟩, ⟨some 1, 22, 1 / 4, none⟩], by decide +kernel, by decide +kernel, by decide⟩

/-- **C50 (limit).** Without edges back, an edge that enters a node with two other incoming edges only is followed into nothing: undefined. -/
theorem C50_limit_dead_end : ∃ (g : Graph Nat Nat) (o : Opts) (q : Query Nat Nat Nat), getEdgCands g o q = none :=
  ⟨{ exGraph with out := fun _ => [] }, exOpts, exQuery [] [0], by decide +kernel⟩

end Verif.Cand
