import Verif.Main.Model
/-!
# The main program (C54)
-/

set_option linter.unusedSimpArgs false

namespace Verif.Main

/-! ## Specification -/

/-- The feed is only written in the end, not when OSM data, a query or filter rules are asked for. -/
def Matching (x : In) : Bool := !x.writeOsm && !x.writeOverpass && !x.writeOsmfilter

/-- Configuration `c` has work to do: one of its modes was asked for, and it is the mode of the single trip, if there is
one. -/
def Serves (x : In) (c : MotCfg) : Bool :=
  c.mots.any fun m => x.mots.any fun n => m = n && (!x.tripGiven || x.trip = some m)

/-- What can fail with a configuration, and the return code. -/
def cfgSteps (c : MotCfg) : List (Bool × Nat) :=
  [(!c.noStops && !c.osmOk, 7), (!c.simiKnown, 1), (!c.methodKnown, 1)]

/-- The configurations used. For a single trip, it is the first one. -/
def usedCfgs (x : In) (cfgs : List MotCfg) : List MotCfg :=
  let s := cfgs.filter (Serves x)
  if x.tripGiven then s.take 1 else s

/-- Is the feed written in the end? Not if a single trip was matched. -/
def Writes (x : In) : Bool :=
  Matching x && !(x.tripGiven && (x.cfgs.getD []).any (Serves x))

/-- **All steps that can fail**, in order, with the return codes. -/
def steps (x : In) : List (Bool × Nat) :=
  [(x.cfgs.isNone, 6),
   (!x.osmPath && !x.writeOverpass && !x.writeOsmfilter, 5),
   ((x.cfgs.getD []).isEmpty, 9),
   (decide (x.feeds.length > 1) && !x.writeOsm && !x.writeOverpass, 2),
   (x.feeds.any (fun ok => !ok), 4),
   (x.tripGiven && x.feeds.isEmpty, 1),
   (x.tripGiven && x.trip.isNone, 3),
   (x.writeOsm && !x.filterOk, 7),
   (Matching x && x.feeds.isEmpty, 1)] ++
  (if Matching x then (usedCfgs x (x.cfgs.getD [])).flatMap cfgSteps else []) ++
  [(Writes x && !x.outputOk, 8)]

/-- The code of the first step that fails, or 0. -/
def firstFailure : List (Bool × Nat) → Nat
  | [] => 0
  | (failed, code) :: l => if failed then code else firstFailure l

/-! ## Proofs -/

@[simp] theorem num_success : Code.success.num = 0 := rfl
@[simp] theorem num_noInputFeed : Code.noInputFeed.num = 1 := rfl
@[simp] theorem num_multFeeds : Code.multFeeds.num = 2 := rfl
@[simp] theorem num_tripNotFound : Code.tripNotFound.num = 3 := rfl
@[simp] theorem num_gtfsParse : Code.gtfsParse.num = 4 := rfl
@[simp] theorem num_noOsm : Code.noOsm.num = 5 := rfl
@[simp] theorem num_motCfgParse : Code.motCfgParse.num = 6 := rfl
@[simp] theorem num_osmParse : Code.osmParse.num = 7 := rfl
@[simp] theorem num_gtfsWrite : Code.gtfsWrite.num = 8 := rfl
@[simp] theorem num_noMotCfg : Code.noMotCfg.num = 9 := rfl
@[simp] theorem num_one : Code.one.num = 1 := rfl

theorem isect_mem (a b : List Nat) (m : Nat) : m ∈ motISect a b ↔ m ∈ a ∧ m ∈ b := by
  simp [motISect]

theorem serves_none (x : In) (c : MotCfg) (h : x.tripGiven = false) :
    Serves x c = !(motISect c.mots x.mots).isEmpty := by
  rw [Bool.eq_iff_iff]
  simp only [Serves, h, Bool.not_false, Bool.true_or, Bool.and_true, List.any_eq_true, decide_eq_true_eq, Bool.not_eq_true',
    Bool.eq_false_iff, ne_eq, List.isEmpty_iff]
  constructor
  · rintro ⟨m, hm, n, hn, rfl⟩ e
    have := (isect_mem c.mots x.mots m).2 ⟨hm, hn⟩
    rw [e] at this
    cases this
  · intro h
    obtain ⟨m, hm⟩ := List.exists_mem_of_ne_nil _ h
    obtain ⟨h1, h2⟩ := (isect_mem _ _ _).1 hm
    exact ⟨m, h1, m, h2, rfl⟩

theorem serves_some (x : In) (c : MotCfg) (t : Nat) (h : x.tripGiven = true) (ht : x.trip = some t) :
    Serves x c = (motISect c.mots x.mots).contains t := by
  rw [Bool.eq_iff_iff]
  simp only [Serves, h, ht, Bool.not_true, Bool.false_or, List.any_eq_true, decide_eq_true_eq, Bool.and_eq_true,
    List.contains_iff_mem, isect_mem, Option.some.injEq]
  constructor
  · rintro ⟨m, hm, n, hn, rfl, rfl⟩
    exact ⟨hm, hn⟩
  · rintro ⟨h1, h2⟩
    exact ⟨t, h1, t, h2, rfl, rfl⟩

/-- What is done for the configurations of a run that matches all trips. -/
def cfgEffs (x : In) : List MotCfg → Nat → List Eff
  | [], _ => []
  | c :: cs, i =>
    (if Serves x c then (if c.noStops then [] else [.readOsm i]) ++ [.shapeify i] else []) ++ cfgEffs x cs (i + 1)

theorem loop_all (x : In) (h : x.tripGiven = false) : ∀ (cs : List MotCfg) (i : Nat) (es : List Eff),
    (cfgLoop x none cs i es).1.num = firstFailure ((cs.filter (Serves x)).flatMap cfgSteps ++ [(!x.outputOk, 8)]) ∧
    (((cs.filter (Serves x)).flatMap cfgSteps).any (·.1) = false →
      (cfgLoop x none cs i es).2 = es ++ cfgEffs x cs i ++ [.output]) ∧
    (((cs.filter (Serves x)).flatMap cfgSteps).any (·.1) = true → .output ∉ es → .output ∉ (cfgLoop x none cs i es).2) := by
  intro cs
  induction cs with
  | nil =>
    intro i es
    cases ho : x.outputOk <;> simp [cfgLoop, ho, firstFailure, cfgEffs]
  | cons c cs ih =>
    intro i es
    have hs := serves_none x c h
    cases hu : (motISect c.mots x.mots).isEmpty with
    | true =>
      rw [hu] at hs
      simp only [cfgLoop, hu, if_true, List.filter_cons, hs, Bool.not_true, cfgEffs, Bool.false_eq_true, if_false,
        List.nil_append]
      exact ih (i + 1) es
    | false =>
      rw [hu] at hs
      simp only [cfgLoop, hu, List.filter_cons, hs, Bool.not_false, cfgEffs, Bool.false_eq_true, if_false, if_true,
        List.flatMap_cons, List.append_assoc]
      generalize (cs.filter (Serves x)).flatMap cfgSteps = L at ih ⊢
      have e : ∀ o, (cfgSteps c ++ L).any (·.1) = o ↔
          ((!c.noStops && !c.osmOk) || !c.simiKnown || !c.methodKnown || L.any (·.1)) = o := by
        intro o
        simp only [cfgSteps, List.cons_append, List.nil_append, List.any_cons, Bool.or_assoc]
      rw [e, e]
      cases h1 : c.noStops <;> cases h2 : c.osmOk <;> cases h3 : c.simiKnown <;> cases h4 : c.methodKnown <;>
        first
        | (have := ih (i + 1) (es ++ [Eff.readOsm i] ++ [Eff.shapeify i])
           simp [cfgSteps, h1, h2, h3, h4, firstFailure] at this ⊢; exact this)
        | (have := ih (i + 1) (es ++ [Eff.shapeify i])
           simp [cfgSteps, h1, h2, h3, h4, firstFailure] at this ⊢; exact this)
        | (simp [cfgSteps, h1, h2, h3, h4, firstFailure]; done)

theorem loop_trip (x : In) (t : Nat) (h : x.tripGiven = true) (ht : x.trip = some t) :
    ∀ (cs : List MotCfg) (i : Nat) (es : List Eff),
    (cfgLoop x (some t) cs i es).1.num =
      firstFailure (((cs.filter (Serves x)).take 1).flatMap cfgSteps ++ [(!cs.any (Serves x) && !x.outputOk, 8)]) ∧
    (.output ∉ es → (.output ∈ (cfgLoop x (some t) cs i es).2 ↔ cs.any (Serves x) = false)) := by
  intro cs
  induction cs with
  | nil =>
    intro i es
    cases ho : x.outputOk <;> simp [cfgLoop, ho, firstFailure]
  | cons c cs ih =>
    intro i es
    have hs := serves_some x c t h ht
    cases hu : (motISect c.mots x.mots).contains t with
    | false =>
      rw [hu] at hs
      have e : cfgLoop x (some t) (c :: cs) i es = cfgLoop x (some t) cs (i + 1) es := by
        simp only [cfgLoop, hu, Bool.not_false, if_true, ite_self]
      rw [e]
      simp only [List.filter_cons, hs, Bool.false_eq_true, if_false, List.any_cons, Bool.false_or]
      exact ih (i + 1) es
    | true =>
      rw [hu] at hs
      have hne : (motISect c.mots x.mots).isEmpty = false := by
        cases hl : motISect c.mots x.mots with
        | nil => rw [hl] at hu; simp at hu
        | cons a l => rfl
      simp only [cfgLoop, hu, hne, List.filter_cons, hs, if_true, Bool.not_true, Bool.false_eq_true, if_false,
        List.any_cons, Bool.true_or, List.take_succ_cons, List.take_zero, List.flatMap_cons, List.flatMap_nil, List.append_nil,
        Bool.false_and]
      cases h1 : c.noStops <;> cases h2 : c.osmOk <;> cases h3 : c.simiKnown <;> cases h4 : c.methodKnown <;>
        simp [cfgSteps, h1, h2, h3, h4, firstFailure]

theorem readFeeds_eq : ∀ (fs : List Bool) (i : Nat) (es : List Eff),
    (fs.any (fun ok => !ok) = true → ∃ out, readFeeds fs i es = .inl out ∧ out.1 = .gtfsParse ∧
      (.output ∉ es → .output ∉ out.2)) ∧
    (fs.any (fun ok => !ok) = false → ∃ es', readFeeds fs i es = .inr es' ∧ (.output ∉ es → .output ∉ es')) := by
  intro fs
  induction fs with
  | nil => intro i es; simp [readFeeds]
  | cons f fs ih =>
    intro i es
    cases f with
    | false => simp [readFeeds]
    | true =>
      have := ih (i + 1) (es ++ [.readFeed i])
      simpa [readFeeds] using this

/-- The steps after the feeds have been read. -/
def lateSteps (x : In) (cfgs : List MotCfg) : List (Bool × Nat) :=
  [(x.tripGiven && x.feeds.isEmpty, 1),
   (x.tripGiven && x.trip.isNone, 3),
   (x.writeOsm && !x.filterOk, 7),
   (Matching x && x.feeds.isEmpty, 1)] ++
  (if Matching x then (usedCfgs x cfgs).flatMap cfgSteps else []) ++
  [((Matching x && !(x.tripGiven && cfgs.any (Serves x))) && !x.outputOk, 8)]

theorem after_code (x : In) (cfgs : List MotCfg) (es : List Eff) :
    (afterFeeds x cfgs es).1.num = firstFailure (lateSteps x cfgs) := by
  unfold afterFeeds lateSteps
  cases hf : x.feeds with
  | nil =>
    cases h1 : x.tripGiven <;> cases h2 : x.writeOsm <;> cases h3 : x.writeOverpass <;> cases h4 : x.writeOsmfilter <;>
      cases h5 : x.filterOk <;> cases h6 : x.trip <;>
      simp [firstFailure, Matching, h1, h2, h3, h4, h5, h6]
  | cons f fs =>
    cases h2 : x.writeOsm <;> cases h3 : x.writeOverpass <;> cases h4 : x.writeOsmfilter
    case false.false.false =>
      cases h1 : x.tripGiven with
      | false =>
        have := (loop_all x h1 cfgs 0 es).1
        simp [firstFailure, Matching, h1, h2, h3, h4, usedCfgs, this]
      | true =>
        cases h6 : x.trip with
        | none => simp [firstFailure, h1, h2, h3, h4]
        | some t =>
          have := (loop_trip x t h1 h6 cfgs 0 es).1
          simp [firstFailure, Matching, h1, h2, h3, h4, usedCfgs, this]
    all_goals
      cases h1 : x.tripGiven <;> cases h5 : x.filterOk <;> cases h6 : x.trip <;>
        simp [firstFailure, Matching, h1, h2, h3, h4, h5, h6]

/-- **C54 (return code).** The program ends with the code of the first step that fails, in this fixed order, and with 0 if
none fails. -/
theorem C54_code (x : In) : (main x).1.num = firstFailure (steps x) := by
  cases hc : x.cfgs with
  | none => simp [main, steps, hc, firstFailure]
  | some cfgs =>
    have hs : firstFailure (steps x) = firstFailure ([(!x.osmPath && !x.writeOverpass && !x.writeOsmfilter, 5),
        (cfgs.isEmpty, 9), (decide (x.feeds.length > 1) && !x.writeOsm && !x.writeOverpass, 2),
        (x.feeds.any (fun ok => !ok), 4)] ++ lateSteps x cfgs) := by
      simp [steps, lateSteps, hc, firstFailure, Writes]
    rw [hs]
    simp only [main, hc, List.cons_append, List.nil_append, firstFailure]
    by_cases ho : (!x.osmPath && !x.writeOverpass && !x.writeOsmfilter) = true
    · rw [if_pos ho, if_pos ho]; rfl
    rw [if_neg ho, if_neg ho]
    by_cases he : cfgs.isEmpty = true
    · rw [if_pos he, if_pos he]; rfl
    rw [if_neg he, if_neg he]
    have ha := after_code x cfgs
    match hf : x.feeds with
    | [ok] => cases ok <;> simp [hf, ha]
    | [] =>
      cases h2 : x.writeOsm <;> cases h3 : x.writeOverpass <;> simp [hf, readFeeds, ha]
    | f :: g :: fs =>
      have hr := readFeeds_eq (f :: g :: fs) 0 []
      cases hb : (f :: g :: fs).any (fun ok => !ok) with
      | true =>
        obtain ⟨out, e, eo, -⟩ := hr.1 hb
        cases h2 : x.writeOsm <;> cases h3 : x.writeOverpass <;> simp [hf, e, eo]
      | false =>
        obtain ⟨es', e, -⟩ := hr.2 hb
        cases h2 : x.writeOsm <;> cases h3 : x.writeOverpass <;> simp [hf, e, ha]

theorem ff_zero (l : List (Bool × Nat)) (h : ∀ p ∈ l, p.2 ≠ 0) : firstFailure l = 0 ↔ ∀ p ∈ l, p.1 = false := by
  induction l with
  | nil => simp [firstFailure]
  | cons p l ih =>
    obtain ⟨f, c⟩ := p
    have hc := h _ List.mem_cons_self
    have ih := ih (fun q hq => h q (List.mem_cons_of_mem _ hq))
    cases f
    · rw [firstFailure, if_neg (by simp), ih]
      simp
    · rw [firstFailure, if_pos rfl]
      simp only [List.forall_mem_cons, Bool.true_eq_false, false_and, iff_false]
      exact hc

/-- **C54 (success).** The program ends with 0 if and only if no step failed. -/
theorem C54_success (x : In) : (main x).1.num = 0 ↔ ∀ p ∈ steps x, p.1 = false := by
  rw [C54_code]
  refine ff_zero _ ?_
  intro p hp
  simp only [steps, List.mem_append, List.mem_cons, List.not_mem_nil, or_false] at hp
  rcases hp with (h | h) | h
  · rcases h with h | h | h | h | h | h | h | h | h <;> (subst h; simp)
  · split at h
    · obtain ⟨c, -, h⟩ := List.mem_flatMap.1 h
      simp only [cfgSteps, List.mem_cons, List.not_mem_nil, or_false] at h
      rcases h with h | h | h <;> (subst h; simp)
    · cases h
  · subst h; simp

theorem after_output (x : In) (cfgs : List MotCfg) (es : List Eff) (hes : .output ∉ es) :
    .output ∈ (afterFeeds x cfgs es).2 ↔
      (Matching x && !(x.tripGiven && cfgs.any (Serves x))) = true ∧ ∀ p ∈ (lateSteps x cfgs).dropLast, p.1 = false := by
  unfold lateSteps
  rw [List.dropLast_append_of_ne_nil (by simp)]
  simp only [List.dropLast_singleton, List.append_nil]
  unfold afterFeeds
  cases hf : x.feeds with
  | nil =>
    cases h1 : x.tripGiven <;> cases h2 : x.writeOsm <;> cases h3 : x.writeOverpass <;> cases h4 : x.writeOsmfilter <;>
      cases h6 : x.trip <;> simp [Matching, h1, h2, h3, h4, h6, hes]
  | cons f fs =>
    cases h2 : x.writeOsm <;> cases h3 : x.writeOverpass <;> cases h4 : x.writeOsmfilter
    case false.false.false =>
      cases h1 : x.tripGiven with
      | false =>
        obtain ⟨-, ha, hb⟩ := loop_all x h1 cfgs 0 es
        generalize hL : (cfgs.filter (Serves x)).flatMap cfgSteps = L at ha hb
        have hp : L.any (·.1) = false ↔ ∀ p ∈ L, p.1 = false := by simp
        cases hc : L.any (·.1) with
        | false =>
          have := hp.1 hc
          simp [Matching, h1, h2, h3, h4, usedCfgs, ha hc, hL]
          exact fun b hb => by simpa using this _ hb
        | true =>
          have h' : ¬ ∀ p ∈ L, p.1 = false := fun h => by rw [hp.2 h] at hc; cases hc
          have := hb hc hes
          simp only [h1, Bool.false_and, Bool.false_eq_true, if_false, List.isEmpty_cons, Matching, h2, h3, h4,
            Bool.not_false, Bool.and_self, if_true, usedCfgs, hL, this, false_iff, not_and, true_implies, Bool.and_false,
            List.forall_mem_append]
          intro _ h
          exact h' h
      | true =>
        cases h6 : x.trip with
        | none => simp [h1, h2, h3, h4, hes]
        | some t =>
          have := (loop_trip x t h1 h6 cfgs 0 es).2 hes
          simp only [h1, Option.isNone, List.isEmpty_cons, Bool.and_false, Bool.false_eq_true, if_false, if_true, this,
            Matching, h2, h3, h4, Bool.not_false, Bool.and_self, Bool.true_and, usedCfgs]
          constructor
          · intro h
            have hn : cfgs.filter (Serves x) = [] := by
              rw [List.filter_eq_nil_iff]
              intro c hc hs
              rw [List.any_eq_false] at h
              exact h c hc hs
            simp [h, hn]
          · rintro ⟨h, -⟩
            simpa using h
    all_goals
      cases h1 : x.tripGiven <;> cases h5 : x.filterOk <;> cases h6 : x.trip <;>
        simp [Matching, h1, h2, h3, h4, h5, h6, hes]

/-- **C54 (output).** The output feed is written if and only if the program was not asked for something else and every step before
has succeeded. -/
theorem C54_output (x : In) :
    .output ∈ (main x).2 ↔ Writes x = true ∧ ∀ p ∈ (steps x).dropLast, p.1 = false := by
  cases hc : x.cfgs with
  | none => simp [main, steps, hc, List.dropLast]
  | some cfgs =>
    have hs : steps x = [(false, 6), (!x.osmPath && !x.writeOverpass && !x.writeOsmfilter, 5),
        (cfgs.isEmpty, 9), (decide (x.feeds.length > 1) && !x.writeOsm && !x.writeOverpass, 2),
        (x.feeds.any (fun ok => !ok), 4)] ++ lateSteps x cfgs := by
      simp [steps, lateSteps, hc, Writes]
    have hw : Writes x = (Matching x && !(x.tripGiven && cfgs.any (Serves x))) := by simp [Writes, hc]
    rw [hs, List.dropLast_append_of_ne_nil (by simp [lateSteps]), hw]
    simp only [main, hc, List.cons_append, List.nil_append, List.forall_mem_cons, true_and]
    by_cases ho : (!x.osmPath && !x.writeOverpass && !x.writeOsmfilter) = true
    · rw [if_pos ho]; simp [ho]
    rw [if_neg ho]
    by_cases he : cfgs.isEmpty = true
    · rw [if_pos he]; simp [he]
    rw [if_neg he]
    rw [Bool.not_eq_true] at ho he
    simp only [ho, he, true_and]
    have ha := after_output x cfgs
    match hf : x.feeds with
    | [ok] =>
      cases ok
      · simp [hf]
      · have := ha [.readFeed 0] (by simp)
        simp only [if_true, this, true_and]
        simp
    | [] =>
      have := ha [] (by simp)
      cases h2 : x.writeOsm <;> cases h3 : x.writeOverpass <;>
        simp only [readFeeds, Bool.or_self, Bool.or_true, Bool.or_false, if_true, Bool.false_eq_true, if_false, List.length_nil, this, true_and,
          gt_iff_lt, Nat.not_lt_zero, decide_false, Bool.false_and, List.any_nil]
    | f :: g :: fs =>
      have hr := readFeeds_eq (f :: g :: fs) 0 []
      cases hb : (f :: g :: fs).any (fun ok => !ok) with
      | true =>
        obtain ⟨out, e, eo, en⟩ := hr.1 hb
        have en := en (by simp)
        cases h2 : x.writeOsm <;> cases h3 : x.writeOverpass <;> simp [hf, e, eo, en]
      | false =>
        obtain ⟨es', e, en⟩ := hr.2 hb
        have := ha es' (en (by simp))
        cases h2 : x.writeOsm <;> cases h3 : x.writeOverpass <;>
          simp only [e, Bool.or_self, Bool.or_true, Bool.or_false, if_true, Bool.false_eq_true, if_false, this, true_and,
            Bool.not_true, Bool.and_false, Bool.false_and]
        · simp

/-- **C54 (all modes).** If all trips were to be matched and the program returns 0, then exactly the
configurations with work to do have been processed, each once, in their order, and the feed has been written last. -/
theorem C54_served (x : In) (cfgs : List MotCfg) (hc : x.cfgs = some cfgs) (hm : Matching x = true) (ht : x.tripGiven = false)
    (h0 : (main x).1.num = 0) :
    (main x).2 = .readFeed 0 :: cfgEffs x cfgs 0 ++ [.output] ∧
    ∀ (i : Nat), .shapeify i ∈ (main x).2 ↔ ∃ c, cfgs[i]? = some c ∧ Serves x c = true := by
  have hall := (C54_success x).1 h0
  have main_eq : (main x).2 = .readFeed 0 :: cfgEffs x cfgs 0 ++ [.output] := by
    simp only [steps, hc, Option.getD_some, hm, if_true, usedCfgs, ht, Bool.false_eq_true, if_false,
      List.forall_mem_append, List.forall_mem_cons] at hall
    obtain ⟨⟨⟨-, h5, h9, h2, h4, -, -, -, h1, -⟩, hL⟩, -⟩ := hall
    have hL : ((cfgs.filter (Serves x)).flatMap cfgSteps).any (·.1) = false := by
      rw [List.any_eq_false]
      intro p hp hq
      rw [hL p hp] at hq
      cases hq
    have hw : x.writeOsm = false ∧ x.writeOverpass = false ∧ x.writeOsmfilter = false := by
      simpa [Matching, and_assoc] using hm
    obtain ⟨w1, w2, w3⟩ := hw
    match hf : x.feeds, h1, h2, h4 with
    | [], h1, _, _ => simp at h1
    | f :: g :: fs, _, h2, _ => simp [w1, w2] at h2
    | [ok], _, _, h4 =>
      have hok : ok = true := by simpa using h4
      subst hok
      have h9' : cfgs.isEmpty = false := h9
      simp only [main, hc, h5, Bool.false_eq_true, if_false, h9', hf, if_true]
      simp only [afterFeeds, ht, Bool.false_and, Bool.false_eq_true, if_false, w1, w2, w3, hf, List.isEmpty_cons]
      rw [(loop_all x ht cfgs 0 [.readFeed 0]).2.1 hL]
      rfl
  refine ⟨main_eq, ?_⟩
  rw [main_eq]
  have key : ∀ (cs : List MotCfg) (k i : Nat), .shapeify i ∈ cfgEffs x cs k ↔
      ∃ j c, i = k + j ∧ cs[j]? = some c ∧ Serves x c = true := by
    intro cs
    induction cs with
    | nil => intro k i; simp [cfgEffs]
    | cons c cs ih =>
      intro k i
      rw [cfgEffs, List.mem_append, ih]
      constructor
      · rintro (h | ⟨j, d, rfl, h1, h2⟩)
        · split at h
          case isTrue hs =>
            rcases List.mem_append.1 h with h | h
            · split at h <;> simp at h
            · simp at h
              exact ⟨0, c, by omega, rfl, hs⟩
          · cases h
        · exact ⟨j + 1, d, by omega, by simpa using h1, h2⟩
      · rintro ⟨j, d, rfl, h1, h2⟩
        cases j with
        | zero =>
          simp at h1
          subst h1
          left
          rw [if_pos h2]
          simp
        | succ j => exact .inr ⟨j, d, by omega, by simpa using h1, h2⟩
  intro i
  simp only [List.cons_append, List.mem_cons, List.mem_append, reduceCtorEq, false_or, List.not_mem_nil, or_false]
  rw [key]
  constructor
  · rintro ⟨j, c, rfl, h1, h2⟩
    exact ⟨c, by simpa using h1, h2⟩
  · rintro ⟨c, h1, h2⟩
    exact ⟨i, c, by omega, h1, h2⟩

/-! ## Examples -/

/-- Three configurations, the second one has no mode that was asked for, the third one no stops. -/
def exIn : In where
  cfgs := some [⟨[0, 1], false, true, true, true⟩, ⟨[2], false, false, true, true⟩, ⟨[3, 4], true, false, true, true⟩]
  mots := [1, 3]
  feeds := [true]
  osmPath := true
  writeOsm := false
  writeOverpass := false
  writeOsmfilter := false
  tripGiven := false
  trip := none
  filterOk := true
  outputOk := true

example : main exIn = (.success, [.readFeed 0, .readOsm 0, .shapeify 0, .shapeify 2, .output]) ∧ Matching exIn = true := by
  decide
example : main { exIn with outputOk := false } =
    (.gtfsWrite, [.readFeed 0, .readOsm 0, .shapeify 0, .shapeify 2, .output]) := by decide
example : main { exIn with mots := [2, 3] } = (.osmParse, [.readFeed 0, .readOsm 1]) := by decide
example : main { exIn with feeds := [true, false], mots := [] } = (.multFeeds, []) := by decide
example : main { exIn with feeds := [true, false], writeOverpass := true } = (.gtfsParse, [.readFeed 0, .readFeed 1]) := by
  decide
example : main { exIn with tripGiven := true, trip := some 3 } = (.success, [.readFeed 0, .shapeTrip 2]) := by decide

/-- **C54 (limit).** The return code does not tell which step failed: an unknown similarity method in a configuration gives the code of a
missing feed. -/
theorem C54_limit_ambiguous : ∃ x y : In, (main x).1 = .noInputFeed ∧ (main y).1 = .one ∧
    (main x).1.num = (main y).1.num ∧ x.feeds = [] ∧ y.feeds = [true] ∧ (main y).2 = [.readFeed 0, .readOsm 0] :=
  ⟨{ exIn with feeds := [] }, { exIn with cfgs := some [⟨[1], false, true, false, true⟩] }, by decide⟩

/-- **C54 (limit).** If a single trip is asked for and none of the configurations has its mode, no trip is matched, the program
writes the whole feed, and returns 0. -/
theorem C54_limit_single_trip : ∃ x : In, x.tripGiven = true ∧ main x = (.success, [.readFeed 0, .output]) :=
  ⟨{ exIn with tripGiven := true, trip := some 7 }, by decide⟩

/-- **C54 (limit).** Filter rules for `osmfilter` do not depend on feeds, but two of them are an error. -/
theorem C54_limit_osmfilter : ∃ x : In, x.writeOsmfilter = true ∧ x.feeds = [true, true] ∧ (main x).1 = .multFeeds ∧
    (main { x with feeds := [] }) = (.success, [.osmfilter]) :=
  ⟨{ exIn with feeds := [true, true], writeOsmfilter := true }, by decide⟩

end Verif.Main
