import Verif.More.Props
import Verif.Build.Example

/-!
# Further trips: an example for C100

Map and router are those of the example of C87, with one mode configuration for buses and trains. The first feed has three trips, the second one has four. The
lines of the trips have different names.
-/

namespace Verif.More
open Verif.Build (Mode ModeOk exMode exMode_ok noShort noPend items items_ok mruns mrun mruns_some Item Spread EncOk Apart StopsOk exPts2)
open Verif.Line (exGeo exGeo_ok)
open Verif.Content (Tables)
open Verif.Out (StRow)
open Verif.Result (Done start exSrc)
open Verif.Dists (exTables exRows exEnc exEncD SmallSeqs readTimes)
open Verif.Threads (LikeAll)

def exFew : Tables Unit Unit Unit (Shapes.Row ⊕ (StRow (List Nat) Unit ⊕ Unit)) := { exTables with trips := exTables.trips.take 3 }

def exFewRows : List (StRow (List Nat) Unit) := exRows.filter fun r => decide (r.trip ≠ [68])

def exFewMode : Mode Nat (Option Nat) Rat Nat Unit Nat (Nat × List Nat) :=
  exMode [2, 3] true (fun _ => false) 1 (List.replicate 16 0) [[(7, [0]), (7, [1])]]

def exMoreMode : Mode Nat (Option Nat) Rat Nat Unit Nat (Nat × List Nat) :=
  exMode [2, 3] true (fun _ => false) 2 (List.replicate 16 [1, 0]).flatten [[(7, [0]), (7, [1])], [(7, [3])]]

theorem exFewValid : Content.Valid exFew where
  routes := by decide
  named := by decide
  trips := by decide
  tripRoute := by decide
  fares := by decide
  ruleFare := by decide
  ruleRoute := by decide
  freqTrip := by decide

theorem exFew_ok : ModeOk exFewMode 3 := exMode_ok (by decide +kernel) (by decide +kernel)

theorem exMore_ok : ModeOk exMoreMode 4 := exMode_ok (by decide +kernel) (by decide +kernel)

/-- What is needed of the items: they are computed. -/
def viewOf (n : Nat) (m : Mode Nat (Option Nat) Rat Nat Unit Nat (Nat × List Nat)) :
    Option (List (List Shapes.Workers.Leaf) × List (Nat × List Nat) × List Nat) :=
  (items exGeo m n).map fun its =>
    (its.map (·.map (Item.leaf exEnc)), its.flatten.map (Item.color 0), its.flatten.map (·.shp.pts.length))

theorem viewOf_items {n : Nat} {m : Mode Nat (Option Nat) Rat Nat Unit Nat (Nat × List Nat)} {v} (h : viewOf n m = some v) {its}
    (hi : items exGeo m n = some its) :
    its.map (·.map (Item.leaf exEnc)) = v.1 ∧ its.flatten.map (Item.color 0) = v.2.1 ∧ its.flatten.map (·.shp.pts.length) = v.2.2 := by
  rw [viewOf, hi] at h
  cases h
  exact ⟨rfl, rfl, rfl⟩

def exFewJobs : List (List Shapes.Workers.Leaf) := [[⟨3, [0], Dists.exShp.pts.map exEnc⟩], [⟨3, [1], exPts2⟩]]

def exMoreJobs : List (List Shapes.Workers.Leaf) := exFewJobs ++ [[⟨3, [3], exPts2⟩]]

theorem exFewView : viewOf 3 exFewMode = some (exFewJobs, [(7, [0]), (7, [1])], [9, 7]) := by decide +kernel

theorem exMoreView : viewOf 4 exMoreMode = some (exMoreJobs, [(7, [0]), (7, [1]), (7, [3])], [9, 7, 7]) := by decide +kernel

theorem run_of {n : Nat} {m : Mode Nat (Option Nat) Rat Nat Unit Nat (Nat × List Nat)} (ok : ModeOk m n) {v} (hv : viewOf n m = some v)
    {rs : List (Dists.MRun (List Nat))} (h : mruns exGeo exEnc exEncD n [m] = some rs) :
    rs.map (·.run) = [⟨v.1, m.W, m.sched, m.keep, m.threads⟩] := by
  obtain ⟨i1, h1, _⟩ := items_ok exGeo_ok ok
  have e : rs = [mrun exEnc exEncD m i1] := by
    simp only [mruns, Content.collect, h1, Option.map_some] at h
    cases h
    rfl
  subst e
  have e1 : (mrun exEnc exEncD m i1).run = ⟨v.1, m.W, m.sched, m.keep, m.threads⟩ := by
    simp only [mrun, (viewOf_items hv h1).1]
  simp only [List.map_cons, List.map_nil, e1]

theorem exFewDone (a : Bool) : Done 100 a 3 [⟨exFewJobs, exFewMode.W, exFewMode.sched, exFewMode.keep, exFewMode.threads⟩] (start exFew.trips exSrc) := by
  refine ⟨⟨by decide, by decide, ?_⟩, trivial⟩
  intro w hw
  match w, hw, a with
  | 0, _, true => decide +kernel
  | 0, _, false => decide +kernel

theorem exMoreDone (a : Bool) : Done 100 a 4 [⟨exMoreJobs, exMoreMode.W, exMoreMode.sched, exMoreMode.keep, exMoreMode.threads⟩]
    (start exTables.trips exSrc) := by
  refine ⟨⟨by decide, by decide, ?_⟩, trivial⟩
  intro w hw
  match w, hw, a with
  | 0, _, true => decide +kernel
  | 0, _, false => decide +kernel
  | 1, _, true => decide +kernel
  | 1, _, false => decide +kernel

theorem enc_of {n : Nat} {m : Mode Nat (Option Nat) Rat Nat Unit Nat (Nat × List Nat)} {v} (hv : viewOf n m = some v) (h : ∀ x ∈ v.2.2, x < 256 ^ 8) :
    EncOk exGeo exEnc exEncD Shapes.w1 n [m] := by
  refine ⟨fun _ => rfl, fun _ => ⟨rfl, rfl, rfl⟩, ?_⟩
  intro m' hm its hi it hit
  rw [List.mem_singleton.mp hm] at hi
  rw [← (viewOf_items hv hi).2.2] at h
  exact h _ (List.mem_map.mpr ⟨it, hit, rfl⟩)

/-- The hypotheses of `C100_drop_partial` hold (for those on the larger feed alone see the example of C86), and the further trip needs a shape. -/
example : exTables.trips = exFew.trips ++ [⟨[68], [1], [], ()⟩] ∧ LikeAll [exFewMode] [exMoreMode] ∧
    Others exFew.trips.length exTables.trips.length [exFewMode] ∧ (∀ m ∈ [exFewMode], ModeOk m exFew.trips.length) ∧
    (∀ m ∈ [exMoreMode], ModeOk m exTables.trips.length) ∧ EncOk exGeo exEnc exEncD Shapes.w1 3 [exFewMode] ∧
    EncOk exGeo exEnc exEncD Shapes.w1 4 [exMoreMode] ∧ Spread exGeo 0 3 [exFewMode] ∧ Spread exGeo 0 4 [exMoreMode] ∧ Apart [exFewMode] ∧
    Content.Valid exFew ∧ Result.RefsOk exFew.trips exSrc ∧ SmallSeqs exFewRows ∧ (∃ ts0, readTimes exFew.trips exFewRows = some ts0) ∧
    StopsOk [exFewMode] exFew.trips exFewRows ∧ StopsOk [exMoreMode] exTables.trips exRows ∧
    (∃ rs, mruns exGeo exEnc exEncD 3 [exFewMode] = some rs ∧ ∀ a, Done 100 a 3 (rs.map (·.run)) (start exFew.trips exSrc)) ∧
    (∃ rs, mruns exGeo exEnc exEncD 4 [exMoreMode] = some rs ∧ ∀ a, Done 100 a 4 (rs.map (·.run)) (start exTables.trips exSrc)) ∧
    Trie.needsShape exFewMode.c 0 ∧ Trie.needsShape exFewMode.c 1 ∧ Trie.needsShape exFewMode.c 3 := by
  refine ⟨rfl, .cons rfl .nil, ?_, ?_, ?_, enc_of exFewView (by decide), enc_of exMoreView (by decide), ?_, ?_, List.pairwise_singleton .., exFewValid,
    ⟨by decide, by decide⟩, by unfold SmallSeqs; decide, ⟨_, rfl⟩, ?_, ?_, ?_, ?_, by decide +kernel, by decide +kernel, by decide +kernel⟩
  · intro m hm k k' h1 h2 _ _ _
    rw [List.mem_singleton.mp hm]
    refine .inl (decide_eq_true ?_)
    show k < k'
    omega
  · exact fun m hm => List.mem_singleton.mp hm ▸ exFew_ok
  · exact fun m hm => List.mem_singleton.mp hm ▸ exMore_ok
  · intro m hm its hi
    rw [List.mem_singleton.mp hm] at hi ⊢
    exact List.Perm.of_eq (viewOf_items exFewView hi).2.1.symm
  · intro m hm its hi
    rw [List.mem_singleton.mp hm] at hi ⊢
    exact List.Perm.of_eq (viewOf_items exMoreView hi).2.1.symm
  · intro m hm k t ht
    rw [List.mem_singleton.mp hm]
    have h : ∀ k, k < 3 → ∀ t ∈ exFew.trips[k]?, (exFewMode.c.stops k).length = (exFewRows.filter fun r => r.trip = t.id).length := by decide +kernel
    exact h k (List.getElem?_eq_some_iff.mp ht).1 t ht
  · intro m hm k t ht
    rw [List.mem_singleton.mp hm]
    have h : ∀ k, k < 4 → ∀ t ∈ exTables.trips[k]?, (exMoreMode.c.stops k).length = (exRows.filter fun r => r.trip = t.id).length := by decide +kernel
    exact h k (List.getElem?_eq_some_iff.mp ht).1 t ht
  · obtain ⟨rs, h⟩ := mruns_some exGeo_ok exEnc exEncD (ms := [exFewMode]) (n := 3) fun m hm => List.mem_singleton.mp hm ▸ exFew_ok
    exact ⟨rs, h, fun a => by rw [run_of exFew_ok exFewView h]; exact exFewDone a⟩
  · obtain ⟨rs, h⟩ := mruns_some exGeo_ok exEnc exEncD (ms := [exMoreMode]) (n := 4) fun m hm => List.mem_singleton.mp hm ▸ exMore_ok
    exact ⟨rs, h, fun a => by rw [run_of exMore_ok exMoreView h]; exact exMoreDone a⟩

end Verif.More
