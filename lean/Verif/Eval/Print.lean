import Verif.Eval.Hops
/-!
# What the evaluation (shapevl) prints (C96)

How the stream prints a `double` is a parameter (`fmt`), as are the ids of trips (`name`).
-/
namespace Verif.Eval

/-! ## Model -/

/-- Collector.cpp:352-383: a share in percent. -/
def Coll.pct (c : Coll) (n : Nat) : Rat := (n : Rat) / (c.results.length : Rat) * 100

/-- Collector.cpp:350-385 (`printShortStats`). -/
def Coll.shortText (fmt : Rat → String) (c : Coll) : String :=
  if c.results.length = 0 then ""
  else
    fmt (c.pct c.an0) ++ "," ++ fmt (c.pct c.an5) ++ "," ++ fmt (c.pct c.an10) ++ "," ++ fmt (c.pct c.an20) ++ "," ++
      fmt (c.pct c.an30) ++ "," ++ fmt (c.pct c.an50) ++ "," ++ fmt (c.pct c.an70) ++ "," ++ fmt (c.pct c.an90)

/-- `std::setw(50)` with the fill character ' ': the next string is padded on its left. -/
def setw50 (s : String) : String := String.ofList (List.replicate (50 - s.length) ' ') ++ s

/-- Collector.cpp:407-412 and so on. -/
def pctLine (fmt : Rat → String) (label : String) (q : Rat) : String := label ++ fmt q ++ " %" ++ "\n"

/-- Collector.cpp:387-459 (`printStats`). The results are a set: `begin()` is the first, `--end()` the last one. The average is that of line 336. -/
def Coll.longText (fmt : Rat → String) (name : Nat → String) (c : Coll) : String :=
  setw50 "  # of trips: " ++ toString c.trips ++ "\n" ++
  setw50 "  # of trips new shapes were matched for: " ++ toString c.results.length ++ "\n" ++
  setw50 "  # of trips without input shapes: " ++ toString c.noOrig ++ "\n" ++
  (match c.results.head?, c.results.getLast? with
  | some lo, some hi =>
    setw50 "  highest avg frechet distance to input shapes: " ++ fmt hi.1 ++ " (on trip #" ++ name hi.2 ++ ")\n" ++
    setw50 "  lowest distance to input shapes: " ++ fmt lo.1 ++ " (on trip #" ++ name lo.2 ++ ")\n" ++
    setw50 "  averaged avg frechet distance: " ++ fmt (c.accFdSum / (c.results.length : Rat)) ++ "\n" ++
    "\n" ++
    pctLine fmt "  an-0: " (c.pct c.an0) ++ pctLine fmt "  an-5: " (c.pct c.an5) ++ pctLine fmt "  an-10: " (c.pct c.an10) ++
    pctLine fmt "  an-20: " (c.pct c.an20) ++ pctLine fmt "  acc-30: " (c.pct c.an30) ++ pctLine fmt "  acc-50: " (c.pct c.an50) ++
    pctLine fmt "  acc-70: " (c.pct c.an70) ++ pctLine fmt "  acc-90: " (c.pct c.an90)
  | _, _ => "") ++
  "\n"

/-- Collector.cpp:461-512 (`getStats`), in the order in which the keys are set; `none` is 0/0. -/
def Coll.stats (c : Coll) : List (String × Option Rat) :=
  [("median-dist-diff", some c.median), ("avg-hop-dist", some c.avgHop), ("num-trips", some (c.trips : Rat)),
   ("num-trips-matched", some (c.results.length : Rat)), ("num-trips-wo-shapes", some (c.noOrig : Rat)), ("avg-fr", c.avgDist),
   ("max-avg-frech-dist", some c.maxDist), ("an-0", c.percent c.an0), ("an-5", c.percent c.an5), ("an-10", c.percent c.an10),
   ("an-20", c.percent c.an20), ("an-30", c.percent c.an30), ("an-50", c.percent c.an50), ("an-70", c.percent c.an70),
   ("an-90", c.percent c.an90)]

/-- ShapevlMain.cpp:271-274: `getStats()[k]`, which is 0 for a key that is not there; `none` is NaN. -/
def Coll.stat (c : Coll) (k : String) : Option Rat :=
  match c.stats.find? (fun e => e.1 == k) with
  | some e => e.2
  | none => some 0

/-- Addition of `double`s: NaN stays NaN. -/
def plusNaN (a b : Option Rat) : Option Rat :=
  match a, b with
  | some x, some y => some (x + y)
  | _, _ => none

/-- ShapevlMain.cpp:264-278 (`--json --avg`): the averages of several collectors. -/
def meanStat (cs : List Coll) (k : String) : Option Rat :=
  (cs.foldl (fun s c => plusNaN s (c.stat k)) (some 0)).map (· / (cs.length : Rat))

/-- ShapevlMain.cpp:286-298: without `--json`. `std::endl` is a line feed. -/
def printText (fmt : Rat → String) (name : Nat → String) (summarize : Bool) : List (String × Coll) → String
  | [] => ""
  | (p, c) :: rest =>
    (if summarize then p ++ ": " ++ c.shortText fmt ++ "\n"
    else " == Evaluation results for " ++ p ++ " ===" ++ "\n" ++ c.longText fmt name) ++ printText fmt name summarize rest

/-! ## Specification -/

/-- The thresholds: at most this share of the segments of a trip is not matched. -/
def limits : List Rat := [1 / 10000, 5 / 100, 10 / 100, 20 / 100, 30 / 100, 50 / 100, 70 / 100, 90 / 100]

/-- `q` is the percentage of the lines of the report with at most the share `t`. -/
def ShareOf (rows : List Row) (t q : Rat) : Prop := q * (rows.length : Rat) = 100 * ((rows.filter fun r => decide (r.an ≤ t)).length : Rat)

/-- The shares for all thresholds. -/
def Shares (rows : List Row) (qs : List Rat) : Prop :=
  qs.length = limits.length ∧ ∀ (i : Nat) (t q : Rat), limits[i]? = some t → qs[i]? = some q → ShareOf rows t q

/-- A label that is 50 characters long, with spaces on its left. -/
def Label (s l : String) : Prop := l.length = 50 ∧ ∃ n, l = String.ofList (List.replicate n ' ') ++ s

/-! ## Lemmas -/

section
variable {S : Type}

theorem setw50_label (s : String) (h : s.length ≤ 50) : Label s (setw50 s) := by
  refine ⟨?_, _, rfl⟩
  simp only [setw50, String.length_append, String.length_ofList, List.length_replicate]
  omega

theorem head_least (l : List (Rat × Nat)) (x : Rat × Nat) (h : l.head? = some x) (hs : l.Pairwise fun a b => resLt a b = true) :
    ∀ y ∈ l, x.1 ≤ y.1 := by
  cases l with
  | nil => cases h
  | cons a l =>
    cases h
    intro y hy
    rcases List.mem_cons.1 hy with rfl | hy
    · exact Rat.le_refl
    · have := (List.pairwise_cons.1 hs).1 y hy
      simp only [resLt, Bool.or_eq_true, decide_eq_true_eq, Bool.and_eq_true] at this
      grind

/-- The shares are those of the lines of the report. -/
theorem shares_of (g : Geo S) (asserts : Bool) (xs : List (Cmp S)) (hn : (xs.map fun x => x.1.id).Nodup) (c : Coll)
    (h : run g asserts {} xs = some c) (hr : c.rows ≠ []) :
    Shares c.rows [c.pct c.an0, c.pct c.an5, c.pct c.an10, c.pct c.an20, c.pct c.an30, c.pct c.an50, c.pct c.an70, c.pct c.an90] := by
  obtain ⟨a0, a5, a10, a20, a30, a50, a70, a90, _, hp⟩ := C44_report g asserts xs hn c h
  have hlen : c.results.length = c.rows.length := by simpa using hp.length_eq
  have hq : (c.rows.length : Rat) ≠ 0 := by
    have : (0 : Rat) < (c.rows.length : Rat) := by exact_mod_cast List.length_pos_iff.2 hr
    grind
  have key : ∀ (n : Nat) (t : Rat), n = (c.rows.countP fun r => decide (r.an ≤ t)) → ShareOf c.rows t (c.pct n) := by
    intro n t e
    unfold ShareOf Coll.pct
    rw [← List.countP_eq_length_filter, ← e, hlen, Rat.mul_assoc, Rat.mul_comm 100, ← Rat.mul_assoc, Rat.div_mul_cancel hq, Rat.mul_comm]
  refine ⟨rfl, fun i t q hi hj => ?_⟩
  match i, hi, hj with
  | 0, hi, hj => cases hi; cases hj; exact key _ _ a0
  | 1, hi, hj => cases hi; cases hj; exact key _ _ a5
  | 2, hi, hj => cases hi; cases hj; exact key _ _ a10
  | 3, hi, hj => cases hi; cases hj; exact key _ _ a20
  | 4, hi, hj => cases hi; cases hj; exact key _ _ a30
  | 5, hi, hj => cases hi; cases hj; exact key _ _ a50
  | 6, hi, hj => cases hi; cases hj; exact key _ _ a70
  | 7, hi, hj => cases hi; cases hj; exact key _ _ a90
  | i + 8, hi, _ => cases hi

theorem rows_results (g : Geo S) (asserts : Bool) (xs : List (Cmp S)) (hn : (xs.map fun x => x.1.id).Nodup) (c : Coll)
    (h : run g asserts {} xs = some c) : c.results.length = c.rows.length := by
  obtain ⟨_, _, _, _, _, _, _, _, _, hp⟩ := C44_report g asserts xs hn c h
  simpa using hp.length_eq

/-! ## Property C96 -/

/-- **C96 (summary).** The summary of a feed has eight numbers, separated by commas: for each threshold the percentage of the lines of the report
with at most that share of segments that are not matched. Without any result it is empty. -/
theorem C96_short (fmt : Rat → String) (g : Geo S) (asserts : Bool) (xs : List (Cmp S)) (hn : (xs.map fun x => x.1.id).Nodup) (c : Coll)
    (h : run g asserts {} xs = some c) :
    (c.rows = [] → c.shortText fmt = "") ∧
    (c.rows ≠ [] → ∃ q0 q5 q10 q20 q30 q50 q70 q90 : Rat, Shares c.rows [q0, q5, q10, q20, q30, q50, q70, q90] ∧
      c.shortText fmt = fmt q0 ++ "," ++ fmt q5 ++ "," ++ fmt q10 ++ "," ++ fmt q20 ++ "," ++ fmt q30 ++ "," ++ fmt q50 ++ "," ++ fmt q70 ++
        "," ++ fmt q90) := by
  have hlen := rows_results g asserts xs hn c h
  refine ⟨fun hr => ?_, fun hr => ⟨_, _, _, _, _, _, _, _, shares_of g asserts xs hn c h hr, ?_⟩⟩
  · rw [hr] at hlen
    unfold Coll.shortText
    exact if_pos hlen
  · have : 0 < c.rows.length := List.length_pos_iff.2 hr
    unfold Coll.shortText
    rw [if_neg (by omega)]

/-- **C96 (results).** The printed results of a feed: the number of trips, of trips that were compared and of the others; if any were compared, the
trip with the highest and the one with the lowest average distance, the average of the average distances, and for each threshold the
percentage of trips with at most that share of segments that are not matched. -/
theorem C96_long (fmt : Rat → String) (name : Nat → String) (g : Geo S) (asserts : Bool) (xs : List (Cmp S))
    (hn : (xs.map fun x => x.1.id).Nodup) (c : Coll) (h : run g asserts {} xs = some c) :
    ∃ (l1 l2 l3 body : String) (rest : Nat), Label "  # of trips: " l1 ∧ Label "  # of trips new shapes were matched for: " l2 ∧
      Label "  # of trips without input shapes: " l3 ∧ rest + c.rows.length = xs.length ∧
      c.longText fmt name = l1 ++ toString xs.length ++ "\n" ++ l2 ++ toString c.rows.length ++ "\n" ++ l3 ++ toString rest ++ "\n" ++ body ++ "\n" ∧
      (c.rows = [] → body = "") ∧
      (c.rows ≠ [] → ∃ (l4 l5 l6 : String) (lo hi : Row) (avg q0 q5 q10 q20 q30 q50 q70 q90 : Rat),
        Label "  highest avg frechet distance to input shapes: " l4 ∧ Label "  lowest distance to input shapes: " l5 ∧
        Label "  averaged avg frechet distance: " l6 ∧ lo ∈ c.rows ∧ hi ∈ c.rows ∧ (∀ r ∈ c.rows, lo.avgFd ≤ r.avgFd ∧ r.avgFd ≤ hi.avgFd) ∧
        avg * (c.rows.length : Rat) = sumOf (c.rows.map (·.avgFd)) ∧ Shares c.rows [q0, q5, q10, q20, q30, q50, q70, q90] ∧
        body = l4 ++ fmt hi.avgFd ++ " (on trip #" ++ name hi.trip ++ ")\n" ++ (l5 ++ fmt lo.avgFd ++ " (on trip #" ++ name lo.trip ++ ")\n") ++
          (l6 ++ fmt avg ++ "\n") ++ "\n" ++ ("  an-0: " ++ fmt q0 ++ " %\n") ++ ("  an-5: " ++ fmt q5 ++ " %\n") ++
          ("  an-10: " ++ fmt q10 ++ " %\n") ++ ("  an-20: " ++ fmt q20 ++ " %\n") ++ ("  acc-30: " ++ fmt q30 ++ " %\n") ++
          ("  acc-50: " ++ fmt q50 ++ " %\n") ++ ("  acc-70: " ++ fmt q70 ++ " %\n") ++ ("  acc-90: " ++ fmt q90 ++ " %\n")) := by
  have hlen := rows_results g asserts xs hn c h
  obtain ⟨hi, h1, l, h2, h3⟩ := inv_run g asserts xs {} c h inv_empty
  have ht : c.trips = xs.length := by simpa using h1
  have hsum := hi.sum
  by_cases hr : c.rows = []
  · have hres : c.results = [] := List.length_eq_zero_iff.1 (by rw [hlen, hr]; rfl)
    refine ⟨_, _, _, "", c.noOrig, setw50_label _ (by decide), setw50_label _ (by decide), setw50_label _ (by decide), by omega, ?_,
      fun _ => rfl, fun h' => absurd hr h'⟩
    unfold Coll.longText
    rw [hres, ht, hr]
    simp only [List.head?_nil, List.length_nil, String.append_assoc]
  · have hne : c.results ≠ [] := by
      intro h0
      rw [h0] at hlen
      exact hr (List.length_eq_zero_iff.1 hlen.symm)
    obtain ⟨x, hx⟩ : ∃ x, c.results.head? = some x := by
      cases hc : c.results with
      | nil => exact absurd hc hne
      | cons x l => exact ⟨x, rfl⟩
    have hy := List.getLast?_eq_some_getLast hne
    obtain ⟨lo, hlo, elo⟩ := List.mem_map.1 ((hi.mem _).1 (List.mem_of_mem_head? hx))
    obtain ⟨hiR, hhi, ehi⟩ := List.mem_map.1 ((hi.mem _).1 (List.getLast_mem hne))
    obtain ⟨_, _, hmax, _⟩ := C44_stats g asserts xs hn c h hr
    have emax : c.maxDist = hiR.avgFd := by
      unfold Coll.maxDist
      rw [hy, ← ehi]
      rfl
    have hq : (c.rows.length : Rat) ≠ 0 := by
      have : (0 : Rat) < (c.rows.length : Rat) := by exact_mod_cast List.length_pos_iff.2 hr
      grind
    refine ⟨_, _, _, _, c.noOrig, setw50_label _ (by decide), setw50_label _ (by decide), setw50_label _ (by decide), by omega, ?_,
      fun h' => absurd h' hr, fun _ => ⟨_, _, _, lo, hiR, c.accFdSum / (c.results.length : Rat), _, _, _, _, _, _, _, _,
        setw50_label _ (by decide), setw50_label _ (by decide), setw50_label _ (by decide), hlo, hhi, fun r hr' => ⟨?_, ?_⟩, ?_,
        shares_of g asserts xs hn c h hr, rfl⟩⟩
    · unfold Coll.longText
      rw [hx, hy, ← elo, ← ehi, ht, hlen]
      have e : " %" ++ "\n" = " %\n" := by decide +kernel
      simp only [keyOf, pctLine, String.append_assoc, e]
    · have := head_least _ _ hx hi.sorted (keyOf r) ((hi.mem _).2 (List.mem_map_of_mem hr'))
      rw [← elo] at this
      exact this
    · rw [← emax]
      exact hmax r hr'
    · rw [hlen, Rat.div_mul_cancel hq, hi.acc]

/-- **C96 (all feeds).** Without `--json`, the results of the feeds are printed one after the other, each below a line with the name of its feed,
or behind this name with `-s`. -/
theorem C96_text (fmt : Rat → String) (name : Nat → String) (summarize : Bool) (l : List (String × Coll)) :
    ∃ blocks : List String, printText fmt name summarize l = blocks.foldr (· ++ ·) "" ∧ blocks.length = l.length ∧
      ∀ (i : Nat) (p : String) (c : Coll), l[i]? = some (p, c) →
        (summarize = true → blocks[i]? = some (p ++ ": " ++ c.shortText fmt ++ "\n")) ∧
        (summarize = false → blocks[i]? = some (" == Evaluation results for " ++ p ++ " ===\n" ++ c.longText fmt name)) := by
  induction l with
  | nil => exact ⟨[], rfl, rfl, fun i p c h => by cases h⟩
  | cons x l ih =>
    obtain ⟨p, c⟩ := x
    obtain ⟨bs, h1, h2, h3⟩ := ih
    have e : " ===" ++ "\n" = " ===\n" := by decide +kernel
    refine ⟨(if summarize then p ++ ": " ++ c.shortText fmt ++ "\n"
      else " == Evaluation results for " ++ p ++ " ===" ++ "\n" ++ c.longText fmt name) :: bs, ?_, by simp [h2], fun i p' c' hi => ?_⟩
    · rw [printText, h1]
      rfl
    · cases i with
      | zero =>
        cases hi
        constructor
        · rintro rfl
          rfl
        · rintro rfl
          simp only [Bool.false_eq_true, if_false, List.getElem?_cons_zero, String.append_assoc, ← e]
      | succ i => exact h3 i p' c' hi

/-- **C96 (statistics).** The statistics of a feed with at least one trip that was compared are those of the report, and they are the numbers that
are printed without `--json`. -/
theorem C96_stats (g : Geo S) (asserts : Bool) (xs : List (Cmp S)) (hn : (xs.map fun x => x.1.id).Nodup) (c : Coll)
    (h : run g asserts {} xs = some c) (hr : c.rows ≠ []) :
    ∃ avg top q0 q5 q10 q20 q30 q50 q70 q90 : Rat, ∃ rest : Nat,
      c.stat "num-trips" = some (xs.length : Rat) ∧ c.stat "num-trips-matched" = some (c.rows.length : Rat) ∧
      c.stat "num-trips-wo-shapes" = some (rest : Rat) ∧ rest + c.rows.length = xs.length ∧
      c.stat "avg-fr" = some avg ∧ avg * (c.rows.length : Rat) = sumOf (c.rows.map (·.avgFd)) ∧
      c.stat "max-avg-frech-dist" = some top ∧ (∃ r ∈ c.rows, r.avgFd = top) ∧ (∀ r ∈ c.rows, r.avgFd ≤ top) ∧
      Shares c.rows [q0, q5, q10, q20, q30, q50, q70, q90] ∧
      c.stat "an-0" = some q0 ∧ c.stat "an-5" = some q5 ∧ c.stat "an-10" = some q10 ∧ c.stat "an-20" = some q20 ∧
      c.stat "an-30" = some q30 ∧ c.stat "an-50" = some q50 ∧ c.stat "an-70" = some q70 ∧ c.stat "an-90" = some q90 := by
  have hlen := rows_results g asserts xs hn c h
  obtain ⟨hi, h1, l, h2, h3⟩ := inv_run g asserts xs {} c h inv_empty
  have ht : c.trips = xs.length := by simpa using h1
  have hsum := hi.sum
  obtain ⟨havg, ⟨r, hr1, hr2⟩, hmax, _⟩ := C44_stats g asserts xs hn c h hr
  have hpos : 0 < c.rows.length := List.length_pos_iff.2 hr
  have hq : (c.rows.length : Rat) ≠ 0 := by
    have : (0 : Rat) < (c.rows.length : Rat) := by exact_mod_cast hpos
    grind
  have hp : ∀ n, c.percent n = some (c.pct n) := fun n => by
    unfold Coll.percent Coll.pct
    rw [if_neg (by omega)]
  have e0 : c.stat "num-trips" = some (c.trips : Rat) := rfl
  have e1 : c.stat "num-trips-matched" = some (c.results.length : Rat) := rfl
  refine ⟨_, c.maxDist, _, _, _, _, _, _, _, _, c.noOrig, by rw [e0, ht], by rw [e1, hlen], rfl, by omega, havg, ?_, rfl, ⟨r, hr1, hr2.symm⟩,
    hmax, shares_of g asserts xs hn c h hr, hp _, hp _, hp _, hp _, hp _, hp _, hp _, hp _⟩
  rw [Rat.div_mul_cancel hq]

theorem mean_sum (k : String) : ∀ (cs : List Coll) (vs : List Rat) (a : Rat), cs.map (·.stat k) = vs.map some →
    cs.foldl (fun s c => plusNaN s (c.stat k)) (some a) = some (vs.foldl (· + ·) a) := by
  intro cs
  induction cs with
  | nil =>
    intro vs a h
    cases vs with
    | nil => rfl
    | cons v vs => cases h
  | cons c cs ih =>
    intro vs a h
    cases vs with
    | nil => cases h
    | cons v vs =>
      simp only [List.map_cons, List.cons.injEq] at h
      rw [List.foldl_cons, h.1]
      exact ih vs (a + v) h.2

theorem mean_nan (k : String) : ∀ (cs : List Coll), cs.foldl (fun s c => plusNaN s (c.stat k)) none = none := by
  intro cs
  induction cs with
  | nil => rfl
  | cons c cs ih => exact ih

theorem mean_some_nan (k : String) : ∀ (cs : List Coll) (s : Option Rat), (∃ c ∈ cs, c.stat k = none) →
    cs.foldl (fun s c => plusNaN s (c.stat k)) s = none := by
  intro cs
  induction cs with
  | nil => rintro s ⟨c, hc, _⟩; cases hc
  | cons c cs ih =>
    rintro s ⟨d, hd, hk⟩
    rcases List.mem_cons.1 hd with rfl | hd
    · rw [List.foldl_cons, hk]
      have : plusNaN s none = none := by cases s <;> rfl
      rw [this]
      exact mean_nan k cs
    · exact ih _ ⟨d, hd, hk⟩

/-- **C96 (averages), partial.** With `--json --avg` the average of several feeds is printed: if every feed has a value, the average times the number of the
feeds is their sum. In each feed at least one trip has to have been compared for that (`C96_stats`, `C96_negation_average`). -/
theorem C96_average_partial (k : String) (cs : List Coll) (hc : cs ≠ []) (vs : List Rat) (h : cs.map (·.stat k) = vs.map some) :
    ∃ m, meanStat cs k = some m ∧ m * (cs.length : Rat) = sumOf vs := by
  have hq : (cs.length : Rat) ≠ 0 := by
    have : (0 : Rat) < (cs.length : Rat) := by exact_mod_cast List.length_pos_iff.2 hc
    grind
  refine ⟨sumOf vs / (cs.length : Rat), ?_, Rat.div_mul_cancel hq⟩
  unfold meanStat
  rw [mean_sum k cs vs 0 h]
  rfl

/-- **C96 (averages), negation.** A single feed without any trip that could be compared makes the averages of all feeds meaningless (NaN), except
those of the numbers of trips and of the distances that have -1 as value then. -/
theorem C96_negation_average (cs : List Coll) (c : Coll) (hc : c ∈ cs) (hr : c.results = []) :
    ∀ k ∈ ["avg-fr", "an-0", "an-5", "an-10", "an-20", "an-30", "an-50", "an-70", "an-90"], meanStat cs k = none := by
  have hp : ∀ n, c.percent n = none := fun n => by
    unfold Coll.percent
    rw [hr]
    rfl
  have ha : c.avgDist = none := by
    unfold Coll.avgDist
    rw [hr]
    rfl
  intro k hk
  unfold meanStat
  rw [mean_some_nan k cs _ ⟨c, hc, ?_⟩]
  · rfl
  · simp only [List.mem_cons, List.not_mem_nil, or_false] at hk
    rcases hk with rfl | rfl | rfl | rfl | rfl | rfl | rfl | rfl | rfl
    · exact ha
    all_goals exact hp _

/-- Four comparisons, two of them with a result (see `exRun`). -/
example : ∃ c, run exGrid true {} exRun = some c ∧ c.rows ≠ [] ∧ (exRun.map fun x => x.1.id).Nodup ∧
    c.shortText (fun q => toString q.num) = "50,50,50,50,50,100,100,100" ∧ c.stat "an-30" = some 50 ∧ c.stat "num-trips-wo-shapes" = some 2 ∧
    c.stat "max-avg-frech-dist" = some (147 / 20) := by
  refine ⟨_, (Option.some_get (by decide +kernel)).symm, by decide +kernel, by decide, by decide +kernel, by decide +kernel, by decide +kernel,
    by decide +kernel⟩

/-- The average of the feed of these comparisons with itself; with an empty feed it is not a number. -/
example : ∃ c, run exGrid true {} exRun = some c ∧ meanStat [c, c] "an-0" = some 50 ∧ meanStat [c, {}] "an-0" = none ∧
    meanStat [c, {}] "num-trips" = some 2 := by
  refine ⟨_, (Option.some_get (by decide +kernel)).symm, by decide +kernel, by decide +kernel, by decide +kernel⟩

/-- The first feed has no trips at all. -/
example : printText (fun q => toString q.num) toString true [("a", {}), ("b", {})] = "a: \nb: \n" := by decide +kernel

end
end Verif.Eval
