import Verif.Share.Props
import Verif.Build.Example

/-!
# Which trips share a shape: an example for C97

Feed, map and router are those of the example of C87. There is one mode configuration for buses and trains, with times compared. The last trip runs
like the second one, an hour later.
-/

namespace Verif.Share
open Verif.Build (Mode ModeOk exMode exC noShort noPend view view_items exPts2 mruns mrun items_ok mruns_some Spread EncOk Apart StopsOk exGen exPath Item)
open Verif.Line (exGeo exGeo_ok exG_ok)
open Verif.Result (Done start exSrc)
open Verif.Dists (exTables exRows exEnc exEncD)

def exLines (middle : Option Int) : Trie.CEnv Nat Nat (Nat × List Nat) :=
  { exC [2, 3] true fun _ => false with
    stops := fun t =>
      let s (n : String) (p : Nat) (x : Int) : Trie.StopTime Nat := ⟨n, "", p, some x, some (x + 10)⟩
      match t with
      | 0 => [s "A" 0 90, s "B" 1 200, s "C" 2 300]
      | 3 => [s "A" 0 4690, ⟨"B", "", 1, middle.map (· + 3600), some 4910⟩]
      | _ => [s "A" 0 1090, ⟨"B", "", 1, middle, some 1310⟩]
    rAttrs := fun _ => (0, [])
    timeEx := true }

def exShareMode : Mode Nat (Option Nat) Rat Nat Unit Nat (Nat × List Nat) :=
  { exMode [2, 3] true (fun _ => false) 1 (List.replicate 16 0) [[(7, [0]), (0, [1, 3])]] with c := exLines (some 1300) }

theorem exShare_ok : ModeOk exShareMode 4 := by
  have h1 : noShort exShareMode 4 = true := by decide +kernel
  have h2 : noPend exShareMode 4 = true := by decide +kernel
  refine { near := ?near, lt := ?lt, thr := ?thr, done := ?done, ecm := ?ecm, laws := ?laws, finite := ?finite, cands := ?cands, progr := ?progr,
           geom := ?geom, paths := ?paths, times := ?times, forward := ?forward }
  case near => intro p; simp [exShareMode, exLines, exC]
  case lt => exact ⟨by simp [exShareMode, exLines, exC], by simp [exShareMode, exLines, exC]; omega, by simp [exShareMode, exLines, exC]; omega⟩
  case thr => exact Nat.zero_lt_two
  case done =>
    intro s hs i l hl
    simp only [noPend, hs, List.all_eq_true, List.mem_range, decide_eq_true_eq] at h2
    have := h2 i (List.getElem?_eq_some_iff.mp hl).1
    rw [hl] at this
    exact this
  case ecm => intro _ _ _; rfl
  case laws => intro _ _ _; exact Router.exCost_laws
  case finite => intro _ _ _; exact Router.exCost_finite
  case cands =>
    intro _ _ _
    refine ⟨rfl, fun i => ?_, fun _ _ => rfl⟩
    match i with
    | 1 => exact ⟨_, _, rfl, rfl, rfl⟩
    | 2 => exact ⟨_, _, rfl, rfl, rfl⟩
    | 0 => exact ⟨_, _, rfl, rfl, rfl⟩
    | _ + 3 => exact ⟨_, _, rfl, rfl, rfl⟩
  case progr =>
    intro _ i c hc he
    match i with
    | 0 | _ + 3 =>
      simp only [exShareMode, exMode, exGen, List.mem_singleton] at hc
      subst hc
      exact absurd rfl he
    | 1 | 2 =>
      simp only [exShareMode, exMode, exGen, List.mem_cons, List.not_mem_nil, or_false] at hc
      rcases hc with rfl | rfl
      · exact absurd rfl he
      · exact ⟨by decide +kernel, by decide +kernel⟩
  case geom => exact exG_ok
  case paths =>
    intro _ _ _ _ e e' _ _ hne
    by_cases h : e = 0 ∧ e' = 2
    · obtain ⟨rfl, rfl⟩ := h
      exact ⟨rfl, rfl, ⟨rfl, rfl, trivial⟩, by show ∀ x ∈ [2, 1, 0], Line.exG.geom x ≠ none; decide +kernel⟩
    · exact absurd (if_neg h) hne
  case times =>
    intro fs hfs f hf tr htr e
    simp only [noShort, hfs, List.all_eq_true] at h1
    have := h1 f hf tr htr
    rw [e] at this
    cases this
  case forward =>
    intro fs hfs pre tr post hf ecm he s _ nid hops hlt hne hr h hh
    simp only [noShort, hfs, List.all_eq_true] at h1
    have := h1 _ hf tr (by simp)
    rw [he] at this
    simp only [List.all_eq_true, List.mem_range] at this
    have := this nid hlt
    cases ht : tr.ndTrips nid with
    | nil => exact absurd ht hne
    | cons t ts =>
      rw [ht, hr] at this
      simp only [List.all_eq_true, decide_eq_true_eq] at this
      exact fun _ _ _ _ _ _ h1 => absurd h1 (this h hh)

def exShareJobs : List (List Shapes.Workers.Leaf) :=
  [[⟨3, [0], Dists.exShp.pts.map exEnc⟩, ⟨3, [1, 3], [⟨[5], [5], [0]⟩, ⟨[32], [32], [27]⟩]⟩]]

/-- One line is found for the second and the last trip together. -/
theorem exShareView : view exShareMode = some (exShareJobs, [(7, [0]), (0, [1, 3])], [9, 2]) := by decide +kernel

theorem exShareDone (a : Bool) {rs : List (Dists.MRun (List Nat))} (h : mruns exGeo exEnc exEncD 4 [exShareMode] = some rs) :
    Done 100 a 4 (rs.map (·.run)) (start exTables.trips exSrc) := by
  obtain ⟨i1, h1, _⟩ := items_ok exGeo_ok exShare_ok
  have e : rs = [mrun exEnc exEncD exShareMode i1] := by
    simp only [mruns, Content.collect, h1, Option.map_some] at h
    cases h
    rfl
  subst e
  have e1 : (mrun exEnc exEncD exShareMode i1).run = ⟨exShareJobs, exShareMode.W, exShareMode.sched, exShareMode.keep, exShareMode.threads⟩ := by
    simp only [mrun, (view_items exShareView h1).1]
  simp only [List.map_cons, List.map_nil, e1]
  refine ⟨⟨by decide, by decide, ?_⟩, trivial⟩
  intro w hw
  match w, hw, a with
  | 0, _, true => decide +kernel
  | 0, _, false => decide +kernel

/-- The second and the last trip ask for the same line. -/
theorem exSame : Same exShareMode.c 1 3 := by
  refine ⟨by decide, by decide +kernel, fun _ => ⟨3600, by unfold Later; decide +kernel, .inr ?_⟩⟩
  have h : (exShareMode.c.stops 1).all (fun s => s.arr.isSome && s.dep.isSome) = true := by decide +kernel
  intro s hs
  have := List.all_eq_true.mp h s hs
  rw [Bool.and_eq_true] at this
  exact ⟨fun e => (by rw [e] at this; exact absurd this.1 (by decide)), fun e => by rw [e] at this; exact absurd this.2 (by decide)⟩

/-- The hypotheses of `C97_drop_partial` hold, and two trips with other times ask for the same line. -/
theorem exShare_holds : (∀ m ∈ [exShareMode], ModeOk m exTables.trips.length) ∧ (∀ m ∈ [exShareMode], Starts m.c exTables.trips.length) ∧
    EncOk exGeo exEnc exEncD Shapes.w1 4 [exShareMode] ∧ Spread exGeo 0 4 [exShareMode] ∧ Apart [exShareMode] ∧
    StopsOk [exShareMode] exTables.trips exRows ∧
    (∃ rs, mruns exGeo exEnc exEncD 4 [exShareMode] = some rs ∧ ∀ a, Done 100 a 4 (rs.map (·.run)) (start exTables.trips exSrc)) ∧
    Trie.needsShape exShareMode.c 0 ∧ Trie.needsShape exShareMode.c 1 ∧ Trie.needsShape exShareMode.c 3 ∧ Same exShareMode.c 1 3 := by
  have one : ∀ m ∈ [exShareMode], m = exShareMode := fun m hm => List.mem_singleton.mp hm
  refine ⟨fun m hm => one m hm ▸ exShare_ok, fun m hm => ?_, ?_, ?_, List.pairwise_singleton .., ?_, ?_, by decide +kernel, by decide +kernel,
    by decide +kernel, exSame⟩
  · rw [one m hm]
    intro h
    exact absurd h (by decide)
  · refine ⟨fun _ => rfl, fun _ => ⟨rfl, rfl, rfl⟩, ?_⟩
    intro m hm its hi it hit
    rw [one m hm] at hi
    have h : ∀ x ∈ its.flatten.map (·.shp.pts.length), x < 256 ^ 8 := by rw [(view_items exShareView hi).2.2]; decide
    exact h _ (List.mem_map.mpr ⟨it, hit, rfl⟩)
  · intro m hm its hi
    rw [one m hm] at hi ⊢
    exact List.Perm.of_eq (view_items exShareView hi).2.1.symm
  · intro m hm k t ht
    rw [one m hm]
    have h : ∀ k, k < 4 → ∀ t ∈ exTables.trips[k]?, (exShareMode.c.stops k).length = (exRows.filter fun r => r.trip = t.id).length := by decide +kernel
    exact h k (List.getElem?_eq_some_iff.mp ht).1 t ht
  · obtain ⟨rs, h⟩ := mruns_some exGeo_ok exEnc exEncD (ms := [exShareMode]) (n := 4) fun m hm => one m hm ▸ exShare_ok
    exact ⟨rs, h, fun a => exShareDone a h⟩

/-- The new shapes: the first trip has one of its own; the others share one. -/
example : (Result.allRuns 100 true 4 [⟨exShareJobs, 1, List.replicate 16 0, fun _ => false, []⟩] (start exTables.trips exSrc)).shape 1 = Shapes.shapeId 3 2 ∧
    (Result.allRuns 100 true 4 [⟨exShareJobs, 1, List.replicate 16 0, fun _ => false, []⟩] (start exTables.trips exSrc)).shape 3 = Shapes.shapeId 3 2 ∧
    (Result.allRuns 100 true 4 [⟨exShareJobs, 1, List.replicate 16 0, fun _ => false, []⟩] (start exTables.trips exSrc)).shape 0 = Shapes.shapeId 3 1 := by
  decide +kernel

/-- **C97 (negation for empty times).** If times are compared and the arrival at a stop is empty, a trip that runs the same way an hour later does not
share the line: an empty time counts as the time of the first departure, which is not relative (TripTrie.tpp:57-61). Without the empty time they share it. -/
theorem C97_negation_empty_time : Later 3600 ((exLines none).stops 1) ((exLines none).stops 3) ∧
    ((exLines none).stops 1).map (fun s => (s.name, s.platform, s.pos)) = ((exLines none).stops 3).map (fun s => (s.name, s.platform, s.pos)) ∧
    (exLines none).rAttrs 1 = (exLines none).rAttrs 3 ∧
    (Build.items exGeo { exShareMode with c := exLines none } 4).map (fun its => its.flatten.map (·.trips)) = some [[0], [1], [3]] ∧
    (Build.items exGeo exShareMode 4).map (fun its => its.flatten.map (·.trips)) = some [[0], [1, 3]] := by
  refine ⟨by unfold Later; decide +kernel, by decide +kernel, rfl, by decide +kernel, by decide +kernel⟩

end Verif.Share
