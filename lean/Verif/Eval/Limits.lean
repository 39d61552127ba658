import Verif.Eval.Indep
/-!
# Examples for C44 and C64, and where they end
-/
namespace Verif.Eval

/-- A geometry that simplifies to full degrees. -/
def exGrid : Geo Nat := { exGeo with simplify := fun _ l => l.map fun p => ((p.1.floor : Rat), (p.2.floor : Rat)) }

theorem far_of_floor (a b c d : Int) (h : (a, b) ≠ (c, d)) :
    (1 / 100000 : Rat) * (1 / 100000) < ((a : Rat) - c) * ((a : Rat) - c) + ((b : Rat) - d) * ((b : Rat) - d) := by
  have h1 : 1 ≤ (a - c) * (a - c) + (b - d) * (b - d) := by
    have sq : ∀ x : Int, 0 ≤ x * x := fun x => by
      rcases Int.le_total 0 x with h | h
      · exact Int.mul_nonneg h h
      · exact Int.mul_nonneg_of_nonpos_of_nonpos h h
    have sq1 : ∀ x : Int, x ≠ 0 → 1 ≤ x * x := fun x hx => by
      have := sq x
      have : x * x ≠ 0 := fun h0 => hx ((Int.mul_eq_zero.1 h0).elim id id)
      omega
    have s1 := sq (a - c)
    have s2 := sq (b - d)
    by_cases hac : a = c
    · have hbd : b ≠ d := fun hbd => h (by rw [hac, hbd])
      have := sq1 (b - d) (by omega)
      omega
    · have := sq1 (a - c) (by omega)
      omega
  have h2 : (1 : Rat) ≤ ((a : Rat) - c) * ((a : Rat) - c) + ((b : Rat) - d) * ((b : Rat) - d) := by exact_mod_cast h1
  have h3 : (1 / 100000 : Rat) * (1 / 100000) < 1 := by decide +kernel
  grind

theorem exGrid_separated : Separated exGrid := by
  intro p q l m
  change l.map _ = m.map _ ∨ Apart (l.map _) (m.map _)
  by_cases hl : l.length = m.length
  · by_cases he : l.map (fun p => (p.1.floor, p.2.floor)) = m.map (fun p => (p.1.floor, p.2.floor))
    · left
      have := congrArg (List.map fun z : Int × Int => ((z.1 : Rat), (z.2 : Rat))) he
      simpa [List.map_map, Function.comp_def] using this
    · right; right
      apply Classical.byContradiction
      intro hno
      apply he
      apply List.ext_getElem?
      intro i
      by_cases hi : i < l.length
      · have e1 : l[i]? = some l[i] := List.getElem?_eq_getElem hi
        have e2 : m[i]? = some (m[i]'(by omega)) := List.getElem?_eq_getElem (by omega)
        rw [List.getElem?_map, List.getElem?_map, e1, e2]
        apply Classical.byContradiction
        intro hne
        apply hno
        refine ⟨i, _, _, by rw [List.getElem?_map, e1]; rfl, by rw [List.getElem?_map, e2]; rfl, ?_⟩
        apply far_of_floor
        intro h0
        apply hne
        simpa using h0
      · rw [List.getElem?_eq_none (by simpa using hi), List.getElem?_eq_none (by simp; omega)]
  · right; left
    simpa using hl

/-- A shape at latitude `y`, from longitude 0 to 10 and 20. -/
def exLine (y : Rat) : Shp := [((0, y), 0), ((10, y), 5), ((20, y), 8)]

/-- A trip with three stops. -/
def exTrip (id : Nat) (s : Option Shp) : Trip Nat := ⟨id, 3, [(0, 0), (9, 5), (17, 8)], s⟩

/-- Four comparisons: without shape, equal shapes, one segment of two far away, and a shape that is too short. -/
def exRun : List (Cmp Nat) :=
  [(exTrip 1 none, exTrip 1 none, exLine 3),
   (exTrip 2 (some (exLine 3)), exTrip 2 none, exLine 5),
   (exTrip 3 (some (exLine 3)), exTrip 3 none, [((0, 0), 0), ((10, 0), 5), ((20, 150), 8)]),
   (exTrip 4 (some [((0, 0), 0), ((1, 0), 5), ((4, 0), 8)]), exTrip 4 none, exLine 5)]

theorem exLine_sorted (y : Rat) : Sorted (exLine y) := by
  intro i j a b hi hj hij
  have h1 := (List.getElem?_eq_some_iff.1 hj).1
  simp only [exLine, List.length_cons, List.length_nil] at h1
  obtain rfl | rfl : j = 1 ∨ j = 2 := by omega
  · obtain rfl : i = 0 := by omega
    simp [exLine] at hi hj; subst hi; subst hj; change (0 : Rat) ≤ 5; decide +kernel
  · obtain rfl | rfl : i = 0 ∨ i = 1 := by omega
    · simp [exLine] at hi hj; subst hi; subst hj; change (0 : Rat) ≤ 8; decide +kernel
    · simp [exLine] at hi hj; subst hi; subst hj; change (5 : Rat) ≤ 8; decide +kernel

/-- The hypotheses of C44 and C64 are met. -/
example : (exRun.map fun x => x.1.id).Nodup ∧ (run exGrid true {} exRun).isSome ∧
    (∀ x ∈ exRun.take 2, SortedCmp x) ∧ Separated exGrid := by
  refine ⟨by decide, by decide +kernel, ?_, exGrid_separated⟩
  intro x hx
  simp only [exRun, List.take_succ_cons, List.take_zero, List.mem_cons, List.not_mem_nil, or_false] at hx
  rcases hx with rfl | rfl
  · exact ⟨by simp [exTrip], exLine_sorted 3⟩
  · exact ⟨by simp only [exTrip, Option.some.injEq]; rintro s rfl; exact exLine_sorted 3, exLine_sorted 5⟩

example : ((run exGrid true {} exRun).map fun c => (c.trips, c.noOrig, c.an0, c.an30, c.an50, c.an90)) = some (4, 2, 1, 1, 2, 2) := by
  decide +kernel

example : ((run exGrid true {} exRun).map fun c => c.rows) = some [⟨2, 0, 0, 1 / 10⟩, ⟨3, 1 / 2, 1 / 2, 147 / 20⟩] := by
  decide +kernel

example : ((run exGrid true {} exRun).map fun c => (c.results, c.maxDist, c.avgDist, c.percent c.an0)) =
    some ([(1 / 10, 2), (147 / 20, 3)], 147 / 20, some (149 / 40), some 50) := by
  decide +kernel

/-- **C44 (limit).** A trip that is compared twice with the same distance is one result: results are a set. -/
theorem C44_limit_twice : ∃ (g : Geo Nat) (x : Cmp Nat) (c : Coll), run g true {} [x, x] = some c ∧ c.trips ≠ c.noOrig + c.results.length := by
  refine ⟨exGrid, (exTrip 2 (some (exLine 3)), exTrip 2 none, exLine 5), _, (Option.some_get (by decide +kernel)).symm, ?_⟩
  decide +kernel

/-- **C44 (limit).** A trip with a shape and fewer than two stops is undefined behaviour (the front of an empty line). -/
theorem C44_limit_one_stop {S : Type} (g : Geo S) (asserts : Bool) (c : Coll) (o n : Trip S) (oldS newS : Shp)
    (ho : o.shape = some oldS) (hl : o.sts.length < 2) (h0 : ∀ st ∈ o.sts, 0 ≤ st.2) (h1 : ∀ st ∈ n.sts, 0 ≤ st.2)
    (h2 : oldS ≠ [] ∧ g.len (oldS.map (·.1)) ≤ 1000 * (oldS.length : Rat))
    (h3 : newS ≠ [] ∧ g.len (newS.map (·.1)) ≤ 1000 * (newS.length : Rat)) :
    add g asserts c o n newS = none := by
  have hseg : segmentize g o.sts (oldS.map (·.1)) (oldS.map (·.2)) = some ([], []) := by
    match o.sts, hl with
    | [], _ => rfl
    | [_], _ => rfl
  unfold add
  simp only [ho, (noDist_iff _).2 h0, (noDist_iff _).2 h1, (sparse_iff _ _ h2.1).2 h2.2, (sparse_iff _ _ h3.1).2 h3.2, hseg,
    Bool.false_eq_true, if_false]
  cases segmentize g n.sts (newS.map (·.1)) (newS.map (·.2)) with
  | none => rfl
  | some r => rfl

/-- **C44 (limit).** If the trip of the feed has fewer stops than that of the ground truth, an assertion fails or a line is used that is not
there. -/
theorem C44_limit_stops : ∀ asserts : Bool, add exGrid asserts {} (exTrip 2 (some (exLine 3))) ⟨2, 3, [(0, 0), (17, 8)], none⟩ (exLine 5) = none := by
  intro asserts
  cases asserts
  · decide +kernel
  · decide +kernel

/-- **C44 (limit).** The median and the average hop are those of the evaluated trips, not those of the ground truth
(`newLenDists` and `oldLenDists` are exchanged, Collector.cpp:87-96). -/
theorem C44_limit_exchanged : ∃ c, add exGrid true {} (exTrip 2 (some (exLine 3))) ⟨2, 3, [(0, 0), (1, 5), (2, 8)], none⟩ (exLine 5) = some c ∧
    c.hopDists = [1, 1] ∧ c.hopDists ≠ [9, 8] := by
  refine ⟨_, (Option.some_get (by decide +kernel)).symm, ?_, ?_⟩
  · decide +kernel
  · decide +kernel

/-- **C64 (negation).** A result depends on the trips compared before: shapes that differ by less than .00001 share a value in the cache. The second
trip is less than 100 m away from the ground truth, but is reported as unmatched because the first one was. -/
theorem C64_negation : ∃ (g : Geo Nat) (a b : Cmp Nat) (c c' : Coll), a.1.id ≠ b.1.id ∧ run g true {} [a, b] = some c ∧ run g true {} [b] = some c' ∧
    (∃ r ∈ c.rows, r.trip = b.1.id ∧ r.an = 1) ∧ (∃ r ∈ c'.rows, r.trip = b.1.id ∧ r.an = 0) := by
  refine ⟨exGeo, (exTrip 1 (some (exLine 3)), exTrip 1 none, exLine 103), (exTrip 2 (some (exLine 3)), exTrip 2 none, exLine (103 - 1 / 1000000)),
    _, _, by decide, (Option.some_get (by decide +kernel)).symm, (Option.some_get (by decide +kernel)).symm, ⟨⟨2, 1, 1, 5⟩, ?_, ?_, ?_⟩, ⟨⟨2, 0, 0, 99999999 / 20000000⟩, ?_, ?_, ?_⟩⟩
  all_goals decide +kernel

/-- **C64 (limit).** The order of lines used for the caches is not transitive, so the behaviour of the maps is undefined. -/
theorem C64_limit_order : ∃ a b c : Ln, lineLt a b = true ∧ lineLt b c = true ∧ lineLt c a = true := by
  refine ⟨[(0, 0), (5, 0)], [(-9 / 1000000, 0), (6, 0)], [(-18 / 1000000, 0), (7, 0)], ?_, ?_, ?_⟩
  all_goals decide +kernel

end Verif.Eval
