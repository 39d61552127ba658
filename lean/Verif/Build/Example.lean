import Verif.Build.Props

/-!
# Matching all trips of a feed: an example for C87

The feed is that of the example of C86. Two mode configurations: the first one matches the first two trips, the other one the last trip; the third
trip is of a type that no configuration has. The map is that of the example of C46.
-/

namespace Verif.Build
open Verif.Router (CostOps Ecm exCost)
open Verif.Line (Pos exGeo exGeo_ok exG exG_ok exPt)
open Verif.Result (Done start exSrc)
open Verif.Dists (exTables exRows exRead exEnc exEncD)

deriving instance DecidableEq for Verif.Shapes.Workers.Leaf

def exC (cfgMots : List Nat) (drop : Bool) (shapeEmpty : Nat → Bool) : Trie.CEnv Nat Nat (Nat × List Nat) where
  stops := fun t =>
    let s (n : String) (p : Nat) (x : Int) : Trie.StopTime Nat := ⟨n, "", p, some x, some (x + 10)⟩
    match t with
    | 0 => [s "A" 0 90, s "B" 1 200, s "C" 2 300]
    | _ => [s "A" 0 1090, s "B" 1 1300]
  near := fun a b => a == b
  merge := fun a b => (a.1, (a.2 ++ b.2).eraseDups)
  emptySecs := 3660
  rootPos := 0
  rootAttrs := (0, [])
  lt := fun a b => decide (a.1 < b.1)
  rAttrs := fun t => (t, [])
  shapeEmpty := shapeEmpty
  mot := fun t => match t with | 0 => 3 | 1 => 3 | 2 => 7 | 3 => 2 | _ => 0
  dropShapes := drop
  mots := [2, 3, 7]
  cfgMots := cfgMots
  timeEx := false
  noTrie := false

/-- The stops: the middle of edge 0, a tenth of edge 2, and a position without edge. -/
def exGen : Router.Gen Nat (Option Nat) (Pos Rat) where
  cands := fun i => match i with
    | 1 => [⟨none, some 100, ⟨0, 5⟩⟩, ⟨some 0, some 1, ⟨1/2, 0⟩⟩]
    | 2 => [⟨none, some 100, ⟨0, 31⟩⟩, ⟨some 2, some 1, ⟨1/10, 0⟩⟩]
    | _ => [⟨none, some 100, ⟨0, 32⟩⟩]
  timePen := fun _ _ => some 0
  add := exCost.add

def exPath (e e' : Nat) : List Nat := if e = 0 ∧ e' = 2 then [2, 1, 0] else []

def exEnv (ecm : Ecm Nat (Option Nat) (Pos Rat)) : Router.Env Nat (Option Nat) (Pos Rat × Int) Nat Unit where
  ops := exCost
  ecm := ecm
  maxCost0 := fun _ => 5
  hops := fun _ nid _ _ => (if nid = 2 then [⟨1, 1, 7, 0⟩] else [], ())
  weight := fun _ e => some e.c.toNat
  path := fun _ => exPath

def exMode (cfgMots : List Nat) (drop : Bool) (shapeEmpty : Nat → Bool) (W : Nat) (sched : List Nat) (threads : List (List (Nat × List Nat))) :
    Mode Nat (Option Nat) Rat Nat Unit Nat (Nat × List Nat) where
  c := exC cfgMots drop shapeEmpty
  thr := 2
  csched := [1, 0, 0, 1, 0]
  gen := fun _ => exGen
  env := fun _ ecm _ => exEnv ecm
  cache := ()
  map := exG
  cols := fun _ => exG.cols
  routeTy := fun _ => 3
  W := W
  sched := sched
  keep := fun _ => false
  threads := threads

/-- No hop is within one edge. -/
def noShort (m : Mode Nat (Option Nat) Rat Nat Unit Nat (Nat × List Nat)) (n : Nat) : Bool :=
  match cluster m n with
  | none => false
  | some fs => fs.all fun f => f.all fun tr =>
    match Router.getECM (m.gen tr) tr.nds with
    | none => false
    | some ecm => (List.range tr.nds.length).all fun nid =>
      match tr.ndTrips nid, Router.route (m.env tr ecm ()) tr.nds () nid with
      | _ :: _, some hops => hops.all fun h => h.edges.length ≠ 1
      | _, _ => true

def noPend (m : Mode Nat (Option Nat) Rat Nat Unit Nat (Nat × List Nat)) (n : Nat) : Bool :=
  match Trie.cinit m.c m.thr (List.range n) with
  | none => true
  | some s => (List.range s.pend.length).all fun i => (s.pend[i]?.map (·.length)).getD 0 ≤ m.csched.count i

theorem exMode_ok {cfgMots : List Nat} {drop : Bool} {shapeEmpty : Nat → Bool} {W : Nat} {sched : List Nat} {threads : List (List (Nat × List Nat))}
    {n : Nat} (h1 : noShort (exMode cfgMots drop shapeEmpty W sched threads) n = true)
    (h2 : noPend (exMode cfgMots drop shapeEmpty W sched threads) n = true) : ModeOk (exMode cfgMots drop shapeEmpty W sched threads) n := by
  refine { near := ?near, lt := ?lt, thr := ?thr, done := ?done, ecm := ?ecm, laws := ?laws, finite := ?finite, cands := ?cands, progr := ?progr,
           geom := ?geom, paths := ?paths, times := ?times, forward := ?forward }
  case near => intro p; simp [exMode, exC]
  case lt => exact ⟨by simp [exMode, exC], by simp [exMode, exC]; omega, by simp [exMode, exC]; omega⟩
  case thr => exact Nat.zero_lt_two
  case done =>
    intro s hs i l hl
    simp only [noPend, hs, List.all_eq_true, List.mem_range, decide_eq_true_eq] at h2
    have := h2 i (List.getElem?_eq_some_iff.mp hl).1
    rw [hl] at this
    exact this
  case ecm => intro _ _ _; rfl
  case laws => intro _ _ _; exact Router.exCost_laws
  case finite => intro _ _ _; exact Router.exCost_finite
  case cands =>
    intro _ _ _
    refine ⟨rfl, fun i => ?_, fun _ _ => rfl⟩
    match i with
    | 1 => exact ⟨_, _, rfl, rfl, rfl⟩
    | 2 => exact ⟨_, _, rfl, rfl, rfl⟩
    | 0 => exact ⟨_, _, rfl, rfl, rfl⟩
    | _ + 3 => exact ⟨_, _, rfl, rfl, rfl⟩
  case progr =>
    intro _ i c hc he
    match i with
    | 0 | _ + 3 =>
      simp only [exMode, exGen, List.mem_singleton] at hc
      subst hc
      exact absurd rfl he
    | 1 | 2 =>
      simp only [exMode, exGen, List.mem_cons, List.not_mem_nil, or_false] at hc
      rcases hc with rfl | rfl
      · exact absurd rfl he
      · exact ⟨by decide +kernel, by decide +kernel⟩
  case geom => exact exG_ok
  case paths =>
    intro _ _ _ _ e e' _ _ hne
    by_cases h : e = 0 ∧ e' = 2
    · obtain ⟨rfl, rfl⟩ := h
      exact ⟨rfl, rfl, ⟨rfl, rfl, trivial⟩, by show ∀ x ∈ [2, 1, 0], exG.geom x ≠ none; decide +kernel⟩
    · exact absurd (if_neg h) hne
  case times =>
    intro fs hfs f hf tr htr e
    simp only [noShort, hfs, List.all_eq_true] at h1
    have := h1 f hf tr htr
    rw [e] at this
    cases this
  case forward =>
    intro fs hfs pre tr post hf ecm he s _ nid hops hlt hne hr h hh
    simp only [noShort, hfs, List.all_eq_true] at h1
    have := h1 _ hf tr (by simp)
    rw [he] at this
    simp only [List.all_eq_true, List.mem_range] at this
    have := this nid hlt
    cases ht : tr.ndTrips nid with
    | nil => exact absurd ht hne
    | cons t ts =>
      rw [ht, hr] at this
      simp only [List.all_eq_true, decide_eq_true_eq] at this
      exact fun _ _ _ _ _ _ h1 => absurd h1 (this h hh)

/-! ## With `--drop-shapes` -/

def exMode1 := exMode [3] true (fun _ => false) 2 [0, 0, 0, 1, 1, 1, 0, 1, 0, 1, 0, 1, 0, 1] [[(7, [0])], [(7, [1])]]
def exMode2 := exMode [2] true (fun _ => false) 1 (List.replicate 6 0) [[(7, [3])]]
def exModes := [exMode1, exMode2]

theorem exModes_ok : ∀ m ∈ exModes, ModeOk m 4 := by
  intro m hm
  simp only [exModes, List.mem_cons, List.not_mem_nil, or_false] at hm
  rcases hm with rfl | rfl
  · exact exMode_ok (by decide +kernel) (by decide +kernel)
  · exact exMode_ok (by decide +kernel) (by decide +kernel)

/-- What is needed of the items: they are computed. -/
def view (m : Mode Nat (Option Nat) Rat Nat Unit Nat (Nat × List Nat)) :
    Option (List (List Shapes.Workers.Leaf) × List (Nat × List Nat) × List Nat) :=
  (items exGeo m 4).map fun its =>
    (its.map (·.map (Item.leaf exEnc)), its.flatten.map (Item.color 0), its.flatten.map (·.shp.pts.length))

def exPts2 : List Shapes.Point := [⟨[5], [5], [0]⟩, ⟨[10], [10], [5]⟩, ⟨[10], [10], [5]⟩, ⟨[18], [18], [13]⟩, ⟨[30], [30], [25]⟩, ⟨[30], [30], [25]⟩,
  ⟨[31], [31], [26]⟩]

/-- The line of the first trip is that of the example of C46; the others have no third stop. -/
def exJobs1 : List (List Shapes.Workers.Leaf) := [[⟨3, [0], Dists.exShp.pts.map exEnc⟩], [⟨3, [1], exPts2⟩]]
def exJobs2 : List (List Shapes.Workers.Leaf) := [[⟨3, [3], exPts2⟩]]

theorem exView1 : view exMode1 = some (exJobs1, [(7, [0]), (7, [1])], [9, 7]) := by decide +kernel
theorem exView2 : view exMode2 = some (exJobs2, [(7, [3])], [7]) := by decide +kernel

theorem view_items {m : Mode Nat (Option Nat) Rat Nat Unit Nat (Nat × List Nat)} {v} (h : view m = some v) {its} (hi : items exGeo m 4 = some its) :
    its.map (·.map (Item.leaf exEnc)) = v.1 ∧ its.flatten.map (Item.color 0) = v.2.1 ∧ its.flatten.map (·.shp.pts.length) = v.2.2 := by
  rw [view, hi] at h
  cases h
  exact ⟨rfl, rfl, rfl⟩

theorem exSpread : Spread exGeo 0 4 exModes := by
  intro m hm its hi
  simp only [exModes, List.mem_cons, List.not_mem_nil, or_false] at hm
  rcases hm with rfl | rfl
  · exact List.Perm.of_eq (view_items exView1 hi).2.1.symm
  · exact List.Perm.of_eq (view_items exView2 hi).2.1.symm

theorem exEncOk : EncOk exGeo exEnc exEncD Shapes.w1 4 exModes := by
  refine ⟨fun _ => rfl, fun _ => ⟨rfl, rfl, rfl⟩, ?_⟩
  intro m hm its hi it hit
  have key : ∀ l : List Nat, its.flatten.map (·.shp.pts.length) = l → (∀ x ∈ l, x < 256 ^ 8) → it.shp.pts.length < 256 ^ 8 :=
    fun l e h => h _ (by rw [← e]; exact List.mem_map.mpr ⟨it, hit, rfl⟩)
  simp only [exModes, List.mem_cons, List.not_mem_nil, or_false] at hm
  rcases hm with rfl | rfl
  · exact key _ (view_items exView1 hi).2.2 (by decide)
  · exact key _ (view_items exView2 hi).2.2 (by decide)

theorem exStops : StopsOk exModes exTables.trips exRows := by
  have h : ∀ m ∈ exModes, ∀ k, k < 4 → ∀ t ∈ exTables.trips[k]?, (m.c.stops k).length = (exRows.filter fun r => r.trip = t.id).length := by
    intro m hm
    simp only [exModes, List.mem_cons, List.not_mem_nil, or_false] at hm
    rcases hm with rfl | rfl <;> decide +kernel
  intro m hm k t ht
  exact h m hm k (List.getElem?_eq_some_iff.mp ht).1 t ht

theorem exDone (a : Bool) {rs : List (Dists.MRun (List Nat))} (h : mruns exGeo exEnc exEncD 4 exModes = some rs) :
    Done 100 a 4 (rs.map (·.run)) (start exTables.trips exSrc) := by
  obtain ⟨i1, h1, _⟩ := items_ok exGeo_ok (exModes_ok exMode1 (List.mem_cons_self ..))
  obtain ⟨i2, h2, _⟩ := items_ok exGeo_ok (exModes_ok exMode2 (List.mem_cons_of_mem _ (List.mem_cons_self ..)))
  have e : rs = [mrun exEnc exEncD exMode1 i1, mrun exEnc exEncD exMode2 i2] := by
    simp only [mruns, exModes, Content.collect, h1, h2, Option.map_some] at h
    cases h
    rfl
  subst e
  have e1 : (mrun exEnc exEncD exMode1 i1).run = ⟨exJobs1, exMode1.W, exMode1.sched, exMode1.keep, exMode1.threads⟩ := by
    simp only [mrun, (view_items exView1 h1).1]
  have e2 : (mrun exEnc exEncD exMode2 i2).run = ⟨exJobs2, exMode2.W, exMode2.sched, exMode2.keep, exMode2.threads⟩ := by
    simp only [mrun, (view_items exView2 h2).1]
  simp only [List.map_cons, List.map_nil, e1, e2]
  refine ⟨⟨by decide, by decide, ?_⟩, ⟨by decide, by decide, ?_⟩, trivial⟩
  · intro w hw
    match w, hw, a with
    | 0, _, true => decide +kernel
    | 1, _, true => decide +kernel
    | 0, _, false => decide +kernel
    | 1, _, false => decide +kernel
  · intro w hw
    match w, hw, a with
    | 0, _, true => decide +kernel
    | 0, _, false => decide +kernel

/-- The hypotheses of `C87_items` and `C87_drop_partial` hold. -/
example : (∀ m ∈ exModes, ModeOk m exTables.trips.length) ∧ EncOk exGeo exEnc exEncD Shapes.w1 4 exModes ∧ Spread exGeo 0 4 exModes ∧ Apart exModes ∧
    (∀ t ∈ exTables.trips, ∀ ty x, t.shape ≠ Shapes.shapeId ty x) ∧ StopsOk exModes exTables.trips exRows ∧
    Dists.readTimes exTables.trips exRows = some exRead ∧
    (∃ rs, mruns exGeo exEnc exEncD 4 exModes = some rs ∧ ∀ a, Done 100 a 4 (rs.map (·.run)) (start exTables.trips exSrc)) := by
  refine ⟨exModes_ok, exEncOk, exSpread, ?_, ?_, exStops, by decide +kernel, ?_⟩
  · refine List.pairwise_cons.mpr ⟨?_, List.pairwise_singleton ..⟩
    intro m hm
    rw [List.mem_singleton] at hm
    subst hm
    exact ⟨rfl, by decide⟩
  · intro t ht ty x e
    have h : ∀ t ∈ exTables.trips, t.shape.length ≤ 1 := by decide
    have := h t ht
    rw [e] at this
    simp [Shapes.shapeId] at this
  · obtain ⟨rs, h⟩ := mruns_some exGeo_ok exEnc exEncD exModes_ok
    exact ⟨rs, h, fun a => exDone a h⟩

/-- Which trips need a shape, for each configuration; the third trip never does. -/
example : (List.range 4).map (fun k => exModes.map fun m => decide (Trie.needsShape m.c k)) =
    [[true, false], [true, false], [false, false], [false, true]] := by decide +kernel

/-! ## Without `--drop-shapes` -/

/-- Only the last trip has no shape. Both configurations have its type: the second one does not match it again. -/
def exKeep1 := exMode [2] false (fun k => k = 3) 1 (List.replicate 6 0) [[(7, [3])]]
def exKeep2 := exMode [2, 3] false (fun _ => false) 1 [0] []

theorem exKeeps_ok : ∀ m ∈ [exKeep1, exKeep2], ModeOk m 4 := by
  intro m hm
  simp only [List.mem_cons, List.not_mem_nil, or_false] at hm
  rcases hm with rfl | rfl
  · exact exMode_ok (by decide +kernel) (by decide +kernel)
  · exact exMode_ok (by decide +kernel) (by decide +kernel)

/-- The hypotheses of `C87_no_drop_partial` about the configurations hold. -/
example : ∃ rs, mruns exGeo exEnc exEncD 4 [exKeep1, exKeep2] = some rs ∧ Done 100 true 4 (rs.map (·.run)) (start exTables.trips exSrc) ∧
    Follows 100 true 4 [exKeep1, exKeep2] rs (start exTables.trips exSrc) ∧ Spread exGeo 0 4 [exKeep1, exKeep2] ∧
    ∀ m ∈ [exKeep1, exKeep2], m.c.dropShapes = false := by
  obtain ⟨rs, h⟩ := mruns_some exGeo_ok exEnc exEncD exKeeps_ok
  have v1 : view exKeep1 = some (exJobs2, [(7, [3])], [7]) := by decide +kernel
  have v2 : view exKeep2 = some ([], [], []) := by decide +kernel
  obtain ⟨i1, h1, _⟩ := items_ok exGeo_ok (exKeeps_ok exKeep1 (List.mem_cons_self ..))
  obtain ⟨i2, h2, _⟩ := items_ok exGeo_ok (exKeeps_ok exKeep2 (List.mem_cons_of_mem _ (List.mem_cons_self ..)))
  have e : rs = [mrun exEnc exEncD exKeep1 i1, mrun exEnc exEncD exKeep2 i2] := by
    simp only [mruns, Content.collect, h1, h2, Option.map_some] at h
    cases h
    rfl
  subst e
  have e1 : (mrun exEnc exEncD exKeep1 i1).run = ⟨exJobs2, exKeep1.W, exKeep1.sched, exKeep1.keep, exKeep1.threads⟩ := by
    simp only [mrun, (view_items v1 h1).1]
  have e2 : (mrun exEnc exEncD exKeep2 i2).run = ⟨[], exKeep2.W, exKeep2.sched, exKeep2.keep, exKeep2.threads⟩ := by
    simp only [mrun, (view_items v2 h2).1]
  refine ⟨_, h, ?_, ?_, ?_, by intro m hm; simp only [List.mem_cons, List.not_mem_nil, or_false] at hm; rcases hm with rfl | rfl <;> rfl⟩
  · simp only [List.map_cons, List.map_nil, e1, e2]
    refine ⟨⟨by decide, by decide, ?_⟩, ⟨by decide, by decide, ?_⟩, trivial⟩ <;>
    · intro w hw
      match w, hw with
      | 0, _ => decide +kernel
  · simp only [Follows, e1]
    exact ⟨by decide +kernel, by decide +kernel, trivial⟩
  · intro m hm its hi
    simp only [List.mem_cons, List.not_mem_nil, or_false] at hm
    rcases hm with rfl | rfl
    · exact List.Perm.of_eq (view_items v1 hi).2.1.symm
    · exact List.Perm.of_eq (view_items v2 hi).2.1.symm

end Verif.Build
