import Verif.Threads.Props
import Verif.Share.Example

/-!
# Other threads: an example for C99

Feed, map and router are those of the example of C97. In the second run, one thread does the clustering, and two threads take turns at the rest.
-/

namespace Verif.Threads
open Verif.Build (Mode ModeOk noPend view view_items mruns mrun items_ok mruns_some Spread EncOk Apart StopsOk)
open Verif.Share (exShareMode exShare_ok exShare_holds exShareJobs exShareDone)
open Verif.Line (exGeo exGeo_ok)
open Verif.Result (Done start exSrc allRuns)
open Verif.Dists (exTables exRows exEnc exEncD)

def exOther : Mode Nat (Option Nat) Rat Nat Unit Nat (Nat × List Nat) :=
  { exShareMode with thr := 1, csched := List.replicate 8 0, W := 2, sched := (List.replicate 16 [1, 0]).flatten, threads := [[(0, [1, 3])], [(7, [0])]] }

theorem exOther_returns : Returns exOther 4 := by
  have h2 : noPend exOther 4 = true := by decide +kernel
  refine ⟨Nat.zero_lt_one, fun s hs i l hl => ?_⟩
  simp only [noPend, hs, List.all_eq_true, List.mem_range, decide_eq_true_eq] at h2
  have := h2 i (List.getElem?_eq_some_iff.mp hl).1
  rw [hl] at this
  exact this

theorem exOther_ok : ModeOk exOther 4 := ok_like rfl exShare_ok exOther_returns

theorem exOtherView : view exOther = some (exShareJobs, [(7, [0]), (0, [1, 3])], [9, 2]) := by decide +kernel

theorem exOtherDone (a : Bool) {rs : List (Dists.MRun (List Nat))} (h : mruns exGeo exEnc exEncD 4 [exOther] = some rs) :
    Done 100 a 4 (rs.map (·.run)) (start exTables.trips exSrc) := by
  obtain ⟨i1, h1, _⟩ := items_ok exGeo_ok exOther_ok
  have e : rs = [mrun exEnc exEncD exOther i1] := by
    simp only [mruns, Content.collect, h1, Option.map_some] at h
    cases h
    rfl
  subst e
  have e1 : (mrun exEnc exEncD exOther i1).run = ⟨exShareJobs, exOther.W, exOther.sched, exOther.keep, exOther.threads⟩ := by
    simp only [mrun, (view_items exOtherView h1).1]
  simp only [List.map_cons, List.map_nil, e1]
  refine ⟨⟨by decide, by decide, ?_⟩, trivial⟩
  intro w hw
  match w, hw, a with
  | 0, _, true => decide +kernel
  | 0, _, false => decide +kernel
  | 1, _, true => decide +kernel
  | 1, _, false => decide +kernel

/-- The hypotheses of `C99_drop_partial` hold for both runs (for the first one see `Share.exShare_holds`). -/
example : LikeAll [exShareMode] [exOther] ∧ (∀ m ∈ [exShareMode], ModeOk m exTables.trips.length) ∧
    (∀ m ∈ [exOther], Returns m exTables.trips.length) ∧ EncOk exGeo exEnc exEncD Shapes.w1 4 [exShareMode] ∧ Spread exGeo 0 4 [exShareMode] ∧
    Spread exGeo 0 4 [exOther] ∧ Apart [exShareMode] ∧ StopsOk [exShareMode] exTables.trips exRows ∧
    (∃ rs, mruns exGeo exEnc exEncD 4 [exShareMode] = some rs ∧ ∀ a, Done 100 a 4 (rs.map (·.run)) (start exTables.trips exSrc)) ∧
    (∃ rs, mruns exGeo exEnc exEncD 4 [exOther] = some rs ∧ ∀ a, Done 100 a 4 (rs.map (·.run)) (start exTables.trips exSrc)) ∧
    exOther.thr ≠ exShareMode.thr ∧ exOther.W ≠ exShareMode.W ∧ Trie.needsShape exShareMode.c 1 := by
  obtain ⟨h1, _, h2, h3, h4, h5, h6, _, h7, _⟩ := exShare_holds
  refine ⟨.cons rfl .nil, h1, ?_, h2, h3, ?_, h4, h5, h6, ?_, by decide, by decide, h7⟩
  · intro m hm
    rw [List.mem_singleton.mp hm]
    exact exOther_returns
  · intro m hm its hi
    rw [List.mem_singleton.mp hm] at hi ⊢
    exact (List.Perm.swap ..).trans (List.Perm.of_eq (view_items exOtherView hi).2.1.symm)
  · obtain ⟨rs, h⟩ := mruns_some exGeo_ok exEnc exEncD (ms := [exOther]) (n := 4) fun m hm => List.mem_singleton.mp hm ▸ exOther_ok
    exact ⟨rs, h, fun a => exOtherDone a h⟩

/-- Two forests, and two threads that look for shapes. -/
def exTwo (sched : List Nat) : Result.Run := ⟨[[⟨3, [0], [⟨[1], [1], [0]⟩]⟩], [⟨3, [1], [⟨[2], [2], [0]⟩]⟩]], 2, sched, fun _ => false, []⟩

/-- **C99 (negation for ids).** The ids of new shapes do depend on the timing: the thread that comes first takes the first number. With the same work, a
trip has the shape `shp_3_1` under one schedule and `shp_3_2` under another one; all threads return in both. -/
theorem C99_negation_ids : ∃ s s' : List Nat,
    Done 100 true 4 [exTwo s] (start exTables.trips exSrc) ∧ Done 100 true 4 [exTwo s'] (start exTables.trips exSrc) ∧
    (allRuns 100 true 4 [exTwo s] (start exTables.trips exSrc)).shape 1 = Shapes.shapeId 3 2 ∧
    (allRuns 100 true 4 [exTwo s'] (start exTables.trips exSrc)).shape 1 = Shapes.shapeId 3 1 := by
  refine ⟨List.replicate 16 0 ++ List.replicate 16 1, 0 :: List.replicate 16 1 ++ List.replicate 16 0, ⟨⟨by decide, by decide, ?_⟩, trivial⟩,
    ⟨⟨by decide, by decide, ?_⟩, trivial⟩, by decide +kernel, by decide +kernel⟩
  · intro w hw
    match w, hw with
    | 0, _ => decide +kernel
    | 1, _ => decide +kernel
  · intro w hw
    match w, hw with
    | 0, _ => decide +kernel
    | 1, _ => decide +kernel

end Verif.Threads
