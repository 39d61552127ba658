import Verif.Area.Model
import Verif.BBoxIdx.Props
import Verif.Trie.ClusterProps
/-!
# The area of a feed (C56)
-/

set_option linter.unusedSectionVars false

namespace Verif.Area
open Verif.BBoxIdx (Pt Box InBox build treeHas)
variable {S : Type}

/-! ## Specification -/

/-- The trip is going to be shaped: it is the trip that is asked for, or no trip is asked for and it has no shape or shapes are dropped; it
has at least two stops and one of the modes. -/
def WillBeShaped (mots : List Nat) (tid : List Nat) (dropShapes : Bool) (t : Trip S) : Prop :=
  (tid = [] → t.hasShape = false ∨ dropShapes = true) ∧ (tid ≠ [] → t.id = tid) ∧ 2 ≤ t.sts.length ∧ t.mot ∈ mots

instance (mots : List Nat) (tid : List Nat) (dropShapes : Bool) (t : Trip S) : Decidable (WillBeShaped mots tid dropShapes t) := by
  unfold WillBeShaped; infer_instance

/-- Even in nine times the scheduled time and five minutes a vehicle with the greatest speed does not get from `a` to `b`. -/
def CannotReach (env : Env S) (maxSpeed : Rat) (a b : ST S) : Prop :=
  env.dist a.stop b.stop > maxSpeed * (9 * (((b.arr - a.dep : Int) : Rat) + 300))

/-- The vehicle can neither reach the stop from the one before nor reach the one after it. -/
def Outlier (env : Env S) (maxSpeed : Rat) (sts : List (ST S)) (i : Nat) : Prop :=
  ∃ prev st next, 0 < i ∧ sts[i - 1]? = some prev ∧ sts[i]? = some st ∧ sts[i + 1]? = some next ∧
    CannotReach env maxSpeed prev st ∧ CannotReach env maxSpeed st next

/-- `b` is the smallest box around the points. -/
def Around (b : Box) (ps : List Pt) : Prop :=
  (∀ p ∈ ps, InBox p b) ∧ (∃ p ∈ ps, p.x = b.x1) ∧ (∃ p ∈ ps, p.x = b.x2) ∧ (∃ p ∈ ps, p.y = b.y1) ∧ ∃ p ∈ ps, p.y = b.y2

/-! ## Lemmas -/

theorem tooFar_iff (v : Rat) (hv : 0 < v) (t : Int) (d : Rat) : tooFar v (t, d) = true ↔ d > v * (9 * ((t : Rat) + 300)) := by
  unfold tooFar
  simp only [decide_eq_true_eq, gt_iff_lt]
  rw [Rat.lt_div_iff hv]
  constructor <;> intro h <;> grind

theorem tooFar_default (v : Rat) : tooFar v (intMax, 0) = false := by
  unfold tooFar intMax
  simp only [decide_eq_false_iff_not, gt_iff_lt]
  rw [Rat.div_def, Rat.zero_mul]
  decide +kernel

theorem skipped_iff (env : Env S) (hsym : ∀ a b, env.dist a b = env.dist b a) (v : Rat) (hv : 0 < v) (sts : List (ST S)) (i : Nat) (st : ST S)
    (h : sts[i]? = some st) : skipped env v sts i st = true ↔ Outlier env v sts i := by
  unfold skipped Outlier CannotReach
  rw [Bool.and_eq_true]
  constructor
  · rintro ⟨h1, h2⟩
    unfold toPrev at h1
    unfold toNext at h2
    split at h1
    case isFalse => rw [tooFar_default] at h1; cases h1
    split at h1
    case h_2 => rw [tooFar_default] at h1; cases h1
    split at h2
    case isFalse => rw [tooFar_default] at h2; cases h2
    split at h2
    case h_2 => rw [tooFar_default] at h2; cases h2
    next hi _ prev hp hn _ next hnx =>
      rw [tooFar_iff v hv] at h1 h2
      exact ⟨prev, st, next, hi, hp, h, hnx, by rw [hsym]; exact h1, h2⟩
  · rintro ⟨prev, st', next, hi, hp, hst, hn, h1, h2⟩
    rw [h] at hst
    cases hst
    have hlt := (List.getElem?_eq_some_iff.1 hn).1
    unfold toPrev toNext
    rw [if_pos hi, if_pos (by omega), hp, hn]
    simp only [tooFar_iff v hv]
    exact ⟨by rw [hsym]; exact h1, h2⟩

/-- The kept points. -/
theorem boxLoop_spec (env : Env S) (v : Rat) (sts : List (ST S)) : ∀ (rest done : List (ST S)) (cur : Option Box) (ps : List Pt),
    sts = done ++ rest → (match cur with | none => ps = [] | some b => Around b ps) →
    ∃ qs, (match boxLoop env v sts done.length cur rest with | none => ps ++ qs = [] | some b => Around b (ps ++ qs)) ∧
      ∀ p, p ∈ qs ↔ ∃ (i : Nat) (st : ST S), done.length ≤ i ∧ sts[i]? = some st ∧ skipped env v sts i st = false ∧ p = env.pos st.stop := by
  intro rest
  induction rest with
  | nil =>
    intro done cur ps hs hc
    refine ⟨[], by simpa [boxLoop] using hc, fun p => ?_⟩
    simp only [List.not_mem_nil, false_iff]
    rintro ⟨i, st, hi, hst, -⟩
    have := (List.getElem?_eq_some_iff.1 hst).1
    rw [hs] at this
    simp at this
    omega
  | cons st rest ih =>
    intro done cur ps hs hc
    have hst : sts[done.length]? = some st := by rw [hs]; simp
    rw [boxLoop]
    have hsplit : ∀ (P : Nat → ST S → Prop), (∃ (i : Nat) (x : ST S), done.length ≤ i ∧ sts[i]? = some x ∧ P i x) ↔
        P done.length st ∨ ∃ (i : Nat) (x : ST S), (done ++ [st]).length ≤ i ∧ sts[i]? = some x ∧ P i x := by
      intro P
      constructor
      · rintro ⟨i, x, hi, hx, hp⟩
        by_cases e : i = done.length
        · subst e; rw [hst] at hx; cases hx; exact .inl hp
        · exact .inr ⟨i, x, by simp; omega, hx, hp⟩
      · rintro (hp | ⟨i, x, hi, hx, hp⟩)
        · exact ⟨_, st, Nat.le_refl _, hst, hp⟩
        · exact ⟨i, x, by simp at hi; omega, hx, hp⟩
    cases hk : skipped env v sts done.length st with
    | true =>
      rw [if_pos rfl]
      obtain ⟨qs, h1, h2⟩ := ih (done ++ [st]) cur ps (by simp [hs]) hc
      refine ⟨qs, by simpa using h1, fun p => ?_⟩
      rw [h2, hsplit]
      simp [hk]
    | false =>
      rw [if_neg (by simp)]
      have hnew : Around (extendPt (env.pos st.stop) cur) (ps ++ [env.pos st.stop]) := by
        cases cur with
        | none =>
          simp only at hc
          subst hc
          simp [Around, InBox, extendPt]
        | some b =>
          obtain ⟨h1, ⟨p1, m1, e1⟩, ⟨p2, m2, e2⟩, ⟨p3, m3, e3⟩, ⟨p4, m4, e4⟩⟩ := hc
          simp only [Around, InBox, extendPt]
          refine ⟨?_, ?_, ?_, ?_, ?_⟩
          · intro p hp
            rcases List.mem_append.1 hp with hp | hp
            · have := h1 p hp
              unfold InBox at this
              omega
            · simp at hp; subst hp; omega
          · by_cases h : (env.pos st.stop).x ≤ b.x1
            · exact ⟨env.pos st.stop, by simp, by omega⟩
            · exact ⟨p1, by simp [m1], by omega⟩
          · by_cases h : b.x2 ≤ (env.pos st.stop).x
            · exact ⟨env.pos st.stop, by simp, by omega⟩
            · exact ⟨p2, by simp [m2], by omega⟩
          · by_cases h : (env.pos st.stop).y ≤ b.y1
            · exact ⟨env.pos st.stop, by simp, by omega⟩
            · exact ⟨p3, by simp [m3], by omega⟩
          · by_cases h : b.y2 ≤ (env.pos st.stop).y
            · exact ⟨env.pos st.stop, by simp, by omega⟩
            · exact ⟨p4, by simp [m4], by omega⟩
      obtain ⟨qs, h1, h2⟩ := ih (done ++ [st]) (some (extendPt (env.pos st.stop) cur)) (ps ++ [env.pos st.stop]) (by simp [hs]) hnew
      refine ⟨env.pos st.stop :: qs, by simpa using h1, fun p => ?_⟩
      rw [List.mem_cons, h2, hsplit]
      simp [hk]

theorem looked_iff (mots : List Nat) (tid : List Nat) (dropShapes : Bool) (t : Trip S) :
    looked mots tid dropShapes t = true ↔ WillBeShaped mots tid dropShapes t := by
  unfold looked WillBeShaped
  cases tid with
  | nil =>
    cases dropShapes <;> cases t.hasShape <;> simp <;> omega
  | cons a l =>
    by_cases h : t.id = a :: l
    · simp [h]
    · simp [h]

/-! ## Properties -/

theorem tripBox (env : Env S) (hsym : ∀ a b, env.dist a b = env.dist b a) (v : Rat) (hv : 0 < v) (t : Trip S) (h2l : 2 ≤ t.sts.length) :
    ∃ b ps, boxLoop env v t.sts 0 none t.sts = some b ∧ Around b ps ∧
      ∀ p, p ∈ ps ↔ ∃ (i : Nat) (st : ST S), t.sts[i]? = some st ∧ ¬ Outlier env v t.sts i ∧ p = env.pos st.stop := by
  obtain ⟨qs, h1, h2⟩ := boxLoop_spec env v t.sts t.sts [] none [] rfl rfl
  have h2' : ∀ p, p ∈ qs ↔ ∃ (i : Nat) (st : ST S), t.sts[i]? = some st ∧ ¬ Outlier env v t.sts i ∧ p = env.pos st.stop := by
    intro p
    rw [h2]
    constructor
    · rintro ⟨i, st, -, hst, hs, hp⟩
      exact ⟨i, st, hst, (fun ho => by rw [(skipped_iff env hsym v hv _ i st hst).2 ho] at hs; cases hs), hp⟩
    · rintro ⟨i, st, hst, ho, hp⟩
      refine ⟨i, st, by simp, hst, ?_, hp⟩
      cases hk : skipped env v t.sts i st with
      | true => exact absurd ((skipped_iff env hsym v hv _ i st hst).1 hk) ho
      | false => rfl
  simp only [List.length_nil, List.nil_append] at h1
  obtain ⟨first, hf⟩ : ∃ st, t.sts[0]? = some st := ⟨_, List.getElem?_eq_getElem (by omega)⟩
  have hne : env.pos first.stop ∈ qs := (h2' _).2 ⟨0, first, hf, by rintro ⟨_, _, _, h, _⟩; omega, rfl⟩
  cases hb : boxLoop env v t.sts 0 none t.sts with
  | none =>
    rw [hb] at h1
    simp only at h1
    rw [h1] at hne
    cases hne
  | some b =>
    rw [hb] at h1
    exact ⟨b, qs, rfl, h1, h2'⟩

/-- The trips that are going to be shaped. -/
def shapedTrips (mots : List Nat) (tid : List Nat) (dropShapes : Bool) (trips : List (Trip S)) : List (Trip S) :=
  trips.filter fun t => decide (WillBeShaped mots tid dropShapes t)

theorem filter_looked (mots : List Nat) (tid : List Nat) (dropShapes : Bool) (trips : List (Trip S)) :
    shapedTrips mots tid dropShapes trips = trips.filter fun t => looked mots tid dropShapes t := by
  unfold shapedTrips
  congr
  funext t
  rw [Bool.eq_iff_iff, decide_eq_true_eq, looked_iff]

theorem boxes_eq (env : Env S) (mots : List Nat) (tid : List Nat) (dropShapes : Bool) (v : Rat) (trips : List (Trip S)) :
    gtfsBoxes env mots tid dropShapes v trips =
      (shapedTrips mots tid dropShapes trips).map (fun t => boxLoop env v t.sts 0 none t.sts) := by
  rw [filter_looked]
  unfold gtfsBoxes
  induction trips with
  | nil => rfl
  | cons t trips ih =>
    rw [List.filterMap_cons, List.filter_cons]
    cases looked mots tid dropShapes t <;> simp [ih]

/-- **C56 (boxes).** For every trip that is going to be shaped, and for no other, a box is added; it is the smallest box around its
stops without those that the vehicle can neither reach nor leave in time. -/
theorem C56_boxes (env : Env S) (hsym : ∀ a b, env.dist a b = env.dist b a) (mots : List Nat) (tid : List Nat) (dropShapes : Bool)
    (v : Rat) (hv : 0 < v) (trips : List (Trip S)) :
    (gtfsBoxes env mots tid dropShapes v trips).length = (shapedTrips mots tid dropShapes trips).length ∧
    ∀ (k : Nat) (t : Trip S) (ob : Option Box), (shapedTrips mots tid dropShapes trips)[k]? = some t →
      (gtfsBoxes env mots tid dropShapes v trips)[k]? = some ob → ∃ b ps, ob = some b ∧ Around b ps ∧
        ∀ p, p ∈ ps ↔ ∃ (i : Nat) (st : ST S), t.sts[i]? = some st ∧ ¬ Outlier env v t.sts i ∧ p = env.pos st.stop := by
  rw [boxes_eq]
  refine ⟨by simp, fun k t ob ht hb => ?_⟩
  rw [List.getElem?_map, ht] at hb
  cases hb
  have hm := List.mem_of_getElem? ht
  unfold shapedTrips at hm
  have hw : WillBeShaped mots tid dropShapes t := by simpa using (List.mem_filter.1 hm).2
  exact tripBox env hsym v hv t hw.2.2.1

/-- **C56 (area).** The area covers every stop of every trip that is going to be shaped, apart from stops that the vehicle can neither
reach nor leave in time, if padding does not make boxes smaller. -/
theorem C56_covers (env : Env S) (hsym : ∀ a b, env.dist a b = env.dist b a) (mots : List Nat) (tid : List Nat) (dropShapes : Bool)
    (v : Rat) (hv : 0 < v) (trips : List (Trip S)) (area : Box → Option Box → Int) (pad : Box → Box)
    (hpad : ∀ p b, InBox p b → InBox p (pad b)) (t : Trip S) (htm : t ∈ trips) (ht : WillBeShaped mots tid dropShapes t)
    (i : Nat) (st : ST S) (hst : t.sts[i]? = some st) (ho : ¬ Outlier env v t.sts i) :
    treeHas (env.pos st.stop) (build area ((gtfsBoxes env mots tid dropShapes v trips).filterMap fun b => b.map pad)) = true := by
  obtain ⟨b, ps, hb, ha, hp⟩ := tripBox env hsym v hv t ht.2.2.1
  refine BBoxIdx.C21_covers area _ (pad b) ?_ _ (hpad _ _ (ha.1 _ ((hp _).2 ⟨i, st, hst, ho, rfl⟩)))
  rw [boxes_eq, filter_looked]
  simp only [List.mem_filterMap, List.mem_map, List.mem_filter]
  exact ⟨some b, ⟨t, ⟨htm, (looked_iff _ _ _ _).2 ht⟩, hb⟩, rfl⟩

theorem cannotReach_mono (env : Env S) (hd : ∀ a b, 0 ≤ env.dist a b) (v w : Rat) (hv : 0 < v) (hw : v ≤ w) (a b : ST S)
    (h : CannotReach env w a b) : CannotReach env v a b := by
  unfold CannotReach at h ⊢
  have h0 := hd a.stop b.stop
  generalize (((b.arr - a.dep : Int) : Rat) + 300) = x at h ⊢
  by_cases hx : 0 ≤ x
  · have : v * (9 * x) ≤ w * (9 * x) := Rat.mul_le_mul_of_nonneg_right hw (by grind)
    grind
  · have : v * (9 * x) < v * 0 := Rat.mul_lt_mul_of_pos_left (by grind) hv
    grind

/-- **C56 (filtered file).** The area of a file that is filtered for several modes, with the greatest of all speeds and all trips, covers what
a later run for some of the modes needs. -/
theorem C56_filtered (env : Env S) (hsym : ∀ a b, env.dist a b = env.dist b a) (hd : ∀ a b, 0 ≤ env.dist a b) (mots used : List Nat)
    (hm : ∀ m ∈ used, m ∈ mots) (tid : List Nat) (dropShapes : Bool)
    (v w : Rat) (hv : 0 < v) (hw : v ≤ w) (trips : List (Trip S)) (area : Box → Option Box → Int) (pad : Box → Box)
    (hpad : ∀ p b, InBox p b → InBox p (pad b)) (t : Trip S) (htm : t ∈ trips) (ht : WillBeShaped used tid dropShapes t)
    (i : Nat) (st : ST S) (hst : t.sts[i]? = some st) (ho : ¬ Outlier env v t.sts i) :
    treeHas (env.pos st.stop) (build area ((gtfsBoxes env mots tid true w trips).filterMap fun b => b.map pad)) = true := by
  refine C56_covers env hsym mots tid true w (by grind) trips area pad hpad t htm
    ⟨fun _ => .inr rfl, ht.2.1, ht.2.2.1, hm _ ht.2.2.2⟩ i st hst ?_
  rintro ⟨a, b, c, h1, h2, h3, h4, h5, h6⟩
  exact ho ⟨a, b, c, h1, h2, h3, h4, cannotReach_mono env hd v w hv hw _ _ h5, cannotReach_mono env hd v w hv hw _ _ h6⟩

/-- **C56 (ends).** The first and the last stop of a trip are never left out. -/
theorem C56_ends (env : Env S) (v : Rat) (sts : List (ST S)) : ¬ Outlier env v sts 0 ∧ ¬ Outlier env v sts (sts.length - 1) := by
  constructor
  · rintro ⟨_, _, _, h, _⟩; omega
  · rintro ⟨_, _, _, h, _, _, hn, _⟩
    have := (List.getElem?_eq_some_iff.1 hn).1
    omega

/-- **C56 (clustering).** The trips that are clustered for shaping are trips whose stops are covered: the conditions in `clusterTrips` are not
weaker than those of the area. -/
theorem C56_clustered {P A : Type} (c : Trie.CEnv (Trip S) P A) (t : Trip S)
    (h1 : c.shapeEmpty t = !t.hasShape) (h2 : (c.stops t).length = t.sts.length) (h3 : c.mot t = t.mot)
    (hn : Trie.needsShape c t) : WillBeShaped c.mots [] c.dropShapes t := by
  unfold Trie.needsShape at hn
  refine ⟨fun _ => ?_, fun h => absurd rfl h, ?_, ?_⟩
  · rcases hn.1 with h | h
    · exact .inr h
    · left
      rw [h1] at h
      simpa using h
  · rw [← h2]; exact hn.2.1
  · rw [← h3]; exact hn.2.2.1

/-- **C56 (reading).** If a trip is going to be shaped there are stops, and the OSM data are read. -/
theorem C56_read (env : Env S) (mots : List Nat) (tid : List Nat) (dropShapes : Bool) (trips : List (Trip S)) (t : Trip S)
    (htm : t ∈ trips) (ht : WillBeShaped mots tid dropShapes t) (st : ST S) (hst : st ∈ t.sts) :
    (match env.parent st.stop with | some p => p | none => st.stop) ∈ motStops env mots tid trips := by
  unfold motStops
  refine List.mem_flatMap.2 ⟨t, htm, ?_⟩
  have h1 : (!tid.isEmpty && t.id != tid) = false := by
    by_cases h : tid = []
    · simp [h]
    · simp [ht.2.1 h]
  rw [h1, if_neg (by simp), if_pos (by simpa using ht.2.2.2)]
  refine List.mem_map.2 ⟨st, hst, ?_⟩
  cases env.parent st.stop <;> rfl

/-- **C56 (hops).** The hop distances are those of all pairs of consecutive stops of the trips to be shaped. -/
theorem C56_hops (env : Env S) (mots : List Nat) (tid : List Nat) (dropShapes : Bool) (trips : List (Trip S)) :
    hopDists env mots tid dropShapes trips = (shapedTrips mots tid dropShapes trips).flatMap fun t =>
      (t.sts.zip (t.sts.drop 1)).map fun p => env.dist p.2.stop p.1.stop := by
  have hl : ∀ l : List (ST S), hopLoop env l = (l.zip (l.drop 1)).map fun p => env.dist p.2.stop p.1.stop := by
    intro l
    induction l with
    | nil => rfl
    | cons a l ih =>
      cases l with
      | nil => rfl
      | cons b l =>
        rw [hopLoop, ih]
        simp
  rw [filter_looked]
  unfold hopDists
  induction trips with
  | nil => rfl
  | cons t trips ih =>
    rw [List.flatMap_cons, List.filter_cons, ih]
    cases looked mots tid dropShapes t
    · simp
    · simp [hl]

/-! ### Examples -/

/-- Stops on a line, numbered by their position. -/
def exEnv : Env Nat := ⟨fun s => ⟨(s : Int), 1⟩, fun a b => if a ≤ b then ((b - a : Nat) : Rat) else ((a - b : Nat) : Rat), fun _ => none⟩
/-- A trip over the stops 0, 1000, 1000000 (in the wrong place) and 2000. -/
def exTrip : Trip Nat := ⟨[1], false, 3, [⟨0, 0, 0⟩, ⟨1000, 60, 60⟩, ⟨1000000, 120, 120⟩, ⟨2000, 180, 180⟩]⟩

/-- The trip is going to be shaped. The stop in the wrong place is an outlier, its neighbours are not. -/
example : WillBeShaped [3] [] false exTrip ∧ Outlier exEnv 20 exTrip.sts 2 ∧
    gtfsBoxes exEnv [3] [] false 20 [exTrip, { exTrip with hasShape := true }] = [some ⟨0, 1, 2000, 1⟩] ∧
    hopDists exEnv [3] [] false [exTrip] = [1000, 999000, 998000] := by
  refine ⟨by decide, ⟨_, _, _, by decide, rfl, rfl, rfl, ?_, ?_⟩, by decide +kernel, by decide +kernel⟩ <;>
  · unfold CannotReach
    decide +kernel

end Verif.Area
