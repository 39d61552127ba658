import Verif.Single.Props
import Verif.Tour.Example

/-!
# Matching a single trip: an example for C89

The town is that of the example of C88.
-/

namespace Verif.Single
open Verif.Tour

/-- The trie can be routed, and no hop is within one edge. -/
def good (m : Mode0) (k : Nat) : Bool :=
  match Trie.history m.c.toEnv [op m k] with
  | none => true
  | some (tr, _) => noShort m none [tr]

theorem exTrip_ok {m : Mode0} {cfgMots : List Nat} {drop : Bool} {shapeEmpty : Nat → Bool} {W : Nat} {sched : List Nat}
    {threads : List (List (Nat × List Nat))} (hm : exMode cfgMots drop shapeEmpty W sched threads = m) {k : Nat} (hk : 2 ≤ (m.c.stops k).length)
    (h : good (exRun m) k = true) : TripOk { m with map := exMap } (fun tr ecm => exNet (key m.c tr) ecm) k where
  stops := hk
  small := by
    intro tr log _ ecm he
    have hgen : m.gen tr = exGen := by subst hm; rfl
    rw [show ({ m with map := exMap } : Mode0).gen tr = exGen from hgen] at he
    exact ⟨100, exSmall _ he⟩
  times := by
    intro tr log hh
    have hh : Trie.history (exRun m).c.toEnv [op (exRun m) k] = some (tr, log) := hh
    rw [good, hh] at h
    exact noShort_ecm (m := exRun m) h tr (List.mem_singleton.mpr rfl)
  forward := by
    intro tr log hh ecm he o nid ho hops hr
    have hnear : ∀ p, m.c.near p p = true := by subst hm; intro p; simp [exMode, Build.exC]
    obtain ⟨I, _⟩ := Router.history_facts m.c.toEnv hnear _ hh
    have hh : Trie.history (exRun m).c.toEnv [op (exRun m) k] = some (tr, log) := hh
    rw [good, hh] at h
    refine noShort_at (m := exRun m) (pre := []) (post := []) h rfl he (I.lt _ ho) ?_ hr
    rw [I.ndTrips]
    intro e
    have := List.map_eq_nil_iff.mp e
    have hin : (o, nid) ∈ log.filter fun p => p.2 = nid := List.mem_filter.mpr ⟨ho, by simp⟩
    rw [this] at hin
    cases hin

theorem exOne_ok {m : Mode0} {cfgMots : List Nat} {drop : Bool} {shapeEmpty : Nat → Bool} {W : Nat} {sched : List Nat}
    {threads : List (List (Nat × List Nat))} (hm : exMode cfgMots drop shapeEmpty W sched threads = m) {n k : Nat} (ok : TownOk (exTown m) n)
    (hk : 2 ≤ (m.c.stops k).length) (h : good (exRun m) k = true) : OneOk (exTown m) k where
  toMapOk := ok.toMapOk
  find := ok.run.toFindOk
  trip := by
    have e : (exTown m).mode0 = { m with map := exMap } := by
      show ({ m with map := mapOf exGraph } : Mode0) = _
      rw [exMap_eq]
    rw [e, exNet_eq]
    exact exTrip_ok hm hk h

/-- The hypotheses of `C89_single_partial` hold, for the first trip (with three stops) and the second one. -/
example : OneOk exTown1 0 ∧ OneOk exTown1 1 ∧ Line.GeoOk exGeo exPt :=
  ⟨exOne_ok rfl (exTowns_ok exTown1 (List.mem_cons_self ..)) (by decide) (by decide +kernel),
    exOne_ok rfl (exTowns_ok exTown1 (List.mem_cons_self ..)) (by decide) (by decide +kernel), exGeo_ok⟩

/-- What is written: one line for each hop. The first trip goes through the crossing (2) and back from the end of a street (3). -/
example : shapeL exGeo exTown1.mode none 0 = some [[1, 2, 2, 2], [2, 3, 3, 2, 2, 4]] ∧ shapeL exGeo exTown1.mode none 1 = some [[1, 2, 2, 2]] := by
  rw [exTown1, exMode_eq]; decide +kernel

/-- The town with a trip that has only the first stop of the first trip. -/
def exShort : Town Nat Nat Nat Int (Option Nat) Nat A0 :=
  { exTown1 with m := { exTown1.m with c := { exTown1.m.c with stops := fun k => (exTown1.m.c.stops k).take 1 } } }

/-- The hypothesis of `C89_limit_stops` holds for a trip with one stop. -/
example : (exShort.mode.c.stops 0).length = 1 ∧ ∀ tr ecm s, (exShort.mode.env tr ecm s).ecm = ecm :=
  ⟨by decide, fun _ _ _ => rfl⟩

end Verif.Single
