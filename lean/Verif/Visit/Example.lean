import Verif.Visit.Props
import Verif.Single.Example

/-!
# Candidates of stops on the map of an OSM file: an example for C90

The feed and the file are those of the example of C88. Stop A is near the middle of the edge from 1 to 3, B near the middle of that to 4, and C near the
end of that to 5. The grids return all edges that were put into them, and no nodes.
-/

namespace Verif.Visit
open Verif.Tour

abbrev E0 := _root_.Fin exGraph.es.length

def exAll : List E0 := List.finRange exGraph.es.length

def exOut (u : Nat) : List E0 := exAll.filter fun e => exGraph.es[e].src = u
def exInn (u : Nat) : List E0 := exAll.filter fun e => exGraph.es[e].dst = u

def exPlace (s : Nat) : Rat := match s with
  | 0 => 5/4
  | 1 => 9/4
  | _ => 17/4

/-- Distance of a stop and a point. -/
def exFar (s p : Nat) : Rat := if exPlace s ≤ p then p - exPlace s else exPlace s - p

def exProgr (s : Nat) : Rat := match s with
  | 0 => 1/2
  | 1 => 1/2
  | _ => 1

def exAsk (s : Nat) : Cand.Query E0 Nat Nat where
  pos := (exPlace s).floor.toNat
  platform := []
  nDist u := exFar s (exGraph.pos u)
  eDist e := exFar s (exPt (exGraph.es[e].geom.getD []) (exProgr s))
  similar _ := true
  track _ := []
  progr _ := exProgr s
  rev e := exGraph.es[e].a.rev
  nds := []
  edgs := exAll.filter fun e => exGraph.es[e].a.oneWay ≠ 2

def exLook : Lookup exGraph (Option Nat) Nat where
  o := ⟨true, 1, 1/2, 7, 0, 0, 0, .exp, 4⟩
  out := exOut
  inn := exInn
  deg u := (exOut u).length
  ask _ _ := exAsk
  origin := 0
  ofRat r := some r.floor.toNat
  timePen _ _ := some 0
  add := Router.exCost.add

def exCands (s : Nat) : List (Router.Cand0 Nat (Option Nat) (Line.Pos Nat)) := match s with
  | 0 => [⟨none, some 0, ⟨0, 1⟩⟩, ⟨some 0, some 1, ⟨1/2, 0⟩⟩, ⟨some 3, some 1, ⟨1/2, 0⟩⟩]
  | 1 => [⟨none, some 0, ⟨0, 2⟩⟩, ⟨some 1, some 1, ⟨1/2, 0⟩⟩]
  | _ => [⟨none, some 0, ⟨0, 4⟩⟩, ⟨some 2, some 1, ⟨1, 0⟩⟩, ⟨some 5, some 1, ⟨0, 0⟩⟩]

deriving instance DecidableEq for Line.Pos, Router.Cand0

theorem exCands_eq (name platform : String) (s : Nat) : exLook.cands name platform s = exCands s := by
  have h : exLook.cands name platform 0 = exCands 0 ∧ exLook.cands name platform 1 = exCands 1 ∧ exLook.cands name platform 2 = exCands 2 := by
    show exLook.cands "" "" 0 = exCands 0 ∧ exLook.cands "" "" 1 = exCands 1 ∧ exLook.cands "" "" 2 = exCands 2
    decide +kernel
  match s with
  | 0 => exact h.1
  | 1 => exact h.2.1
  | n + 2 => exact h.2.2

/-- The candidates as tables. -/
def exG (tr : Trie.Trie Nat Nat A0) : Router.Gen Nat (Option Nat) (Line.Pos Nat) where
  cands i := match tr.nds[i]? with
    | some nd => exCands nd.pos
    | none => exCands 0
  timePen _ _ := some 0
  add := Router.exCost.add

theorem exG_eq : (exLook.gen 0 : Trie.Trie Nat Nat A0 → _) = exG := by
  funext tr
  unfold Lookup.gen exG
  congr 1
  funext i
  cases tr.nds[i]? <;> exact exCands_eq _ _ _

def exSite (m : Mode0) : Site Nat Nat Nat Int (Option Nat) Nat A0 := ⟨exTown m, exLook⟩

theorem exCands_in (s : Nat) : ∀ c ∈ exCands s, (0 ≤ c.x.progr ∧ c.x.progr ≤ 1) ∧ ∀ e, c.e = some e → e < 6 := by
  intro c hc
  unfold exCands at hc
  split at hc
  all_goals
    simp only [List.mem_cons, List.not_mem_nil, or_false] at hc
    first
    | (rcases hc with rfl | rfl | rfl <;> exact ⟨by decide +kernel, fun e he => by cases he; try decide⟩)
    | (rcases hc with rfl | rfl <;> exact ⟨by decide +kernel, fun e he => by cases he; try decide⟩)

theorem exG_in (tr : Trie.Trie Nat Nat A0) (j : Nat) : ∀ c ∈ (exG tr).cands j, (0 ≤ c.x.progr ∧ c.x.progr ≤ 1) ∧ ∀ e, c.e = some e → e < 6 := by
  unfold exG
  dsimp only
  split
  · exact exCands_in _
  · exact exCands_in _

theorem exG_small (a : A0) {tr : Trie.Trie Nat Nat A0} {ecm} (he : Router.getECM (exG tr) tr.nds = some ecm) : Full.Small (exNet a ecm) 100 := by
  refine Full.small_of (n := exNet a ecm) he (fun x => x.progr) (fun _ => rfl) (fun j c hc => (exG_in tr j c hc).1) ?_
    (fun _ => (by decide : 8 * (100 : UInt32).toNat + 2 * 100 < 4294967295)) (fun _ => (by decide : 2 ≤ (100 : UInt32).toNat))
  intro j c hc e hce
  obtain ⟨⟨k0, k1⟩, k2⟩ := exG_in tr j c hc
  have k3 := exCosts_le a e
  show ((((exCosts a).getD e 0).toNat : Nat) : Rat) * c.x.progr ≤ ((100 : Nat) : Rat)
  generalize ((exCosts a).getD e 0).toNat = y at k3
  have k4 : (y : Rat) ≤ ((100 : Nat) : Rat) := by exact_mod_cast k3
  have k5 : (y : Rat) * c.x.progr ≤ ((100 : Nat) : Rat) * c.x.progr := Rat.mul_le_mul_of_nonneg_right k4 k0
  grind

section
variable {m : Mode0} {cfgMots : List Nat} {drop : Bool} {shapeEmpty : Nat → Bool} {W : Nat} {sched : List Nat} {threads : List (List (Nat × List Nat))}

theorem exDrive (hm : exMode cfgMots drop shapeEmpty W sched threads = m) :
    DriveOk { m with gen := exG, map := exMap } (fun tr ecm => exNet (key m.c tr) ecm) (fun a => Journey.turn exGraph (exFare a)) where
  near := by subst hm; intro p; simp [exMode, Build.exC]
  ecm _ _ := rfl
  laws _ _ := Router.exCost_laws
  finite _ _ := Router.exCost_finite
  slow _ _ := rfl
  search tr ecm := Table.searchOk (exWalk_ok (key m.c tr)) (exNet (key m.c tr) ecm).h rfl
  walk tr _ := exWalk_ok (key m.c tr)

theorem exPlan (hm : exMode cfgMots drop shapeEmpty W sched threads = m) {n : Nat} (h : good (exRun { m with gen := exG }) n = true) :
    PlanOk { m with gen := exG, map := exMap } (fun tr ecm => exNet (key m.c tr) ecm) n := by
  simp only [good, Bool.and_eq_true] at h
  obtain ⟨h1, h2⟩ := h
  refine { lt := ?lt, thr := ?thr, done := ?done, merge := ?merge, small := ?small, cache := ?cache, times := ?times, forward := ?forward }
  case lt => subst hm; exact ⟨by simp [exMode, Build.exC], by simp [exMode, Build.exC]; omega, by simp [exMode, Build.exC]; omega⟩
  case thr => subst hm; exact Nat.zero_lt_two
  case done =>
    intro s hs i l hl
    rw [show Trie.cinit (exRun { m with gen := exG }).c (exRun { m with gen := exG }).thr (List.range n) = some s from hs] at h2
    simp only [List.all_eq_true, List.mem_range, decide_eq_true_eq] at h2
    have := h2 i (List.getElem?_eq_some_iff.mp hl).1
    rw [hl] at this
    exact this
  case merge => subst hm; intro t; simp [exMode, Build.exC]
  case small => exact fun fs _ f _ tr _ ecm he => ⟨100, exG_small _ he⟩
  case cache => subst hm; exact Or.inr rfl
  case times =>
    intro fs hfs f hf tr htr
    rw [show Build.cluster (exRun { m with gen := exG }) n = some fs from hfs] at h1
    simp only [List.all_eq_true] at h1
    exact noShort_ecm (h1 f hf) tr htr
  case forward =>
    intro fs hfs pre tr post hf ecm he s hs nid hops hlt hne hr
    rw [show Build.cluster (exRun { m with gen := exG }) n = some fs from hfs] at h1
    simp only [List.all_eq_true] at h1
    exact noShort_at (m := exRun { m with gen := exG }) (h1 _ hf) (after_stateOf hs) he hlt hne hr

theorem exFile (m : Mode0) : FileOk (exTown m) where
  filter := Turns.exKeep_ok
  opts := Whole.exOpts_flagged
  order _ _ := .refl _
  nodes _ _ := List.mem_range
  simplify _ := ⟨rfl, rfl⟩
  doc := Whole.exCross_ok
  tidy := exTidy
  loops := by
    have : ∀ e ∈ exGraph.es, e.src ≠ e.dst := by decide +kernel
    exact fun e he hs => absurd hs (this e he)
  fare := exFare_ok

theorem exEdges : ∀ e ∈ (exAsk 0).edgs, e ∈ exLook.edges := by decide +kernel

theorem exOut_mem (u : Nat) (e : E0) : e ∈ exOut u ↔ exGraph.es[e].src = u := by simp [exOut, exAll]

theorem exInn_mem (u : Nat) (e : E0) : e ∈ exInn u ↔ exGraph.es[e].dst = u := by simp [exInn, exAll]

theorem exEdge_far (s : Nat) (i : E0) (l : List Nat) (h : exGraph.es[i].geom = some l) : exFar s (exPt l (exProgr s)) ≤ (exAsk s).eDist i := by
  show exFar s (exPt l (exProgr s)) ≤ exFar s (exPt (exGraph.es[i].geom.getD []) (exProgr s))
  rw [h]
  exact Rat.le_refl

theorem exNode_far (s u : Nat) : exFar s (exGraph.pos u) ≤ (exAsk s).nDist u := by
  show exFar s (exGraph.pos u) ≤ exFar s (exGraph.pos u)
  generalize exFar s (exGraph.pos u) = x
  exact Rat.le_refl

theorem exRev (s : Nat) (e : E0) : (exAsk s).rev e = exGraph.es[e].a.rev := rfl

attribute [local irreducible] Whole.build

theorem exLook_ok (m : Mode0) : LookOk (exSite m) where
  out := exOut_mem
  inn := exInn_mem
  edgs _ _ _ := exEdges
  nds name platform s u h := by
    have h : u ∈ (exAsk s).nds := h
    have e : (exAsk s).nds = [] := by rfl
    rw [e] at h
    cases h
  progr _ _ s _ := by
    show 0 ≤ exProgr s ∧ exProgr s ≤ 1
    unfold exProgr
    split <;> decide +kernel
  rev _ _ := exRev
  zero tr ecm := by
    show ((exTown m).net tr ecm).ops.lt (some (0 : Rat).floor.toNat) ((exTown m).net tr ecm).ops.inf = true
    rw [exNet_eq]
    show Router.exCost.lt _ Router.exCost.inf = true
    decide +kernel
  add tr ecm := by
    show Router.exCost.add = ((exTown m).net tr ecm).ops.add
    rw [exNet_eq]
    rfl
  time tr ecm _ _ := by
    show ((exTown m).net tr ecm).ops.lt (some 0) ((exTown m).net tr ecm).ops.inf = true
    rw [exNet_eq]
    rfl

theorem exSeen (hm : exMode cfgMots drop shapeEmpty W sched threads = m) : (exSite m).seen = exTown { m with gen := exG } := by
  have : m.c.rootPos = 0 := by subst hm; rfl
  show exTown { m with gen := exLook.gen m.c.rootPos } = _
  rw [this, exG_eq]

theorem exSite_ok (hm : exMode cfgMots drop shapeEmpty W sched threads = m) {n : Nat} (h : good (exRun { m with gen := exG }) n = true) :
    SiteOk (exSite m) n := by
  have e : (exSite m).seen.mode0 = { m with gen := exG, map := exMap } := by
    rw [exSeen hm]
    show ({ m with gen := exG, map := mapOf exGraph } : Mode0) = _
    rw [exMap_eq]
  have e' : (exSite m).seen.net = fun tr ecm => exNet (key m.c tr) ecm := by
    rw [exSeen hm, exNet_eq]
  refine { toFileOk := exFile m, toLookOk := exLook_ok m, drive := ?_, plan := ?_ }
  · rw [e, e']; exact exDrive hm
  · rw [e, e']; exact exPlan hm h

end

theorem exPt_turned (l : List Nat) (y : Rat) : exPt l.reverse (1 - y) = exPt l y := by
  have e1 : l.reverse.headD 0 = l.getLastD 0 := by simp [List.headD_eq_head?_getD, List.getLastD_eq_getLast?]
  have e2 : l.reverse.getLastD 0 = l.headD 0 := by simp [List.headD_eq_head?_getD, List.getLastD_eq_getLast?]
  unfold exPt
  rw [e1, e2]
  generalize l.headD 0 = a
  generalize l.getLastD 0 = b
  by_cases h1 : y ≤ 0
  · rw [if_neg (by grind), if_pos (by grind), if_pos h1]
  · by_cases h2 : 1 ≤ y
    · rw [if_pos (by grind), if_neg h1, if_pos h2]
    · rw [if_neg (by grind), if_neg (by grind), if_neg h1, if_neg h2]
      congr 2
      grind

attribute [local irreducible] Whole.build in
theorem exFar_ok (m : Mode0) : FarOk exPt exFar (exSite m) := by
  constructor
  · intro name platform s u
    have e1 : (exSite m).town.graph.pos u = exGraph.pos u := by rfl
    have e2 : ((exSite m).look.ask name platform s).nDist u = (exAsk s).nDist u := by rfl
    rw [e1, e2]
    exact exNode_far s u
  · intro name platform s i l h
    have h := exEdge_far s i l h
    have e1 : ((exSite m).look.ask name platform s).progr i = exProgr s := by rfl
    have e2 : ((exSite m).look.ask name platform s).eDist i = (exAsk s).eDist i := by rfl
    rw [e1, e2]
    exact h
  · exact exPt_turned

/-! ## With `--drop-shapes` -/

def exM1 : Mode0 := exMode [3] true (fun _ => false) 2 [0, 0, 0, 1, 1, 1, 0, 1, 0, 1, 0, 1, 0, 1] [[(7, [0])], [(7, [1])]]
def exM2 : Mode0 := exMode [2] true (fun _ => false) 1 (List.replicate 6 0) [[(7, [3])]]
def exSites := [exSite exM1, exSite exM2]

theorem exSites_ok : ∀ x ∈ exSites, SiteOk x 4 := by
  intro m hm
  simp only [exSites, List.mem_cons, List.not_mem_nil, or_false] at hm
  rcases hm with rfl | rfl
  · exact exSite_ok rfl (by decide +kernel)
  · exact exSite_ok rfl (by decide +kernel)

theorem exSeen1 : (exSite exM1).seen.mode = exRun { exM1 with gen := exG } := by
  rw [exSeen (m := exM1) rfl, exMode_eq]

theorem exSeen2 : (exSite exM2).seen.mode = exRun { exM2 with gen := exG } := by
  rw [exSeen (m := exM2) rfl, exMode_eq]

set_option synthInstance.maxSize 1024 in
/-- The first trip rides from stop A through the crossing to B, to the end of the street there and back, and through the crossing to C. -/
theorem exView1 : view (exSite exM1).seen.mode = some (exJobs1, [(7, [0]), (7, [1])], [10, 4], [[[2, 4, 1], [1, 0]], [[1, 0]]]) := by
  rw [exSeen1]; decide +kernel
set_option synthInstance.maxSize 1024 in
theorem exView2 : view (exSite exM2).seen.mode = some (exJobs2, [(7, [3])], [4], [[[1, 0]]]) := by
  rw [exSeen2]; decide +kernel

abbrev exModes := (exSites.map Site.seen).map Town.mode

theorem exModes_in {m : Mode0} (hm : m ∈ exModes) : m = (exSite exM1).seen.mode ∨ m = (exSite exM2).seen.mode := by
  simpa only [exModes, exSites, List.map_cons, List.map_nil, List.mem_cons, List.not_mem_nil, or_false] using hm

theorem exSpread : Build.Spread exGeo 7 4 exModes := by
  intro m hm its hi
  rcases exModes_in hm with rfl | rfl
  · exact List.Perm.of_eq (view_items exView1 hi).2.1.symm
  · exact List.Perm.of_eq (view_items exView2 hi).2.1.symm

theorem exEncOk : Build.EncOk exGeo exEnc Dists.exEncD Shapes.w1 4 exModes := by
  refine ⟨fun _ => rfl, fun _ => ⟨rfl, rfl, rfl⟩, ?_⟩
  intro m hm its hi it hit
  have key : ∀ l : List Nat, its.flatten.map (·.shp.pts.length) = l → (∀ x ∈ l, x < 256 ^ 8) → it.shp.pts.length < 256 ^ 8 :=
    fun l e h => h _ (by rw [← e]; exact List.mem_map.mpr ⟨it, hit, rfl⟩)
  rcases exModes_in hm with rfl | rfl
  · exact key _ (view_items exView1 hi).2.2 (by decide)
  · exact key _ (view_items exView2 hi).2.2 (by decide)

theorem exStops : Build.StopsOk exModes Dists.exTables.trips Dists.exRows := by
  have h : ∀ q ∈ [exM1, exM2], ∀ k, k < 4 → ∀ t ∈ Dists.exTables.trips[k]?, (q.c.stops k).length = (Dists.exRows.filter fun r => r.trip = t.id).length := by
    intro m hm
    simp only [List.mem_cons, List.not_mem_nil, or_false] at hm
    rcases hm with rfl | rfl <;> decide +kernel
  intro m hm k t ht
  rcases exModes_in hm with rfl | rfl
  · exact h exM1 (by simp) k (List.getElem?_eq_some_iff.mp ht).1 t ht
  · exact h exM2 (by simp) k (List.getElem?_eq_some_iff.mp ht).1 t ht

theorem exDone (a : Bool) {rs : List (Dists.MRun (List Nat))} (h : Build.mruns exGeo exEnc Dists.exEncD 4 exModes = some rs) :
    Result.Done 100 a 4 (rs.map (·.run)) (Result.start Dists.exTables.trips Result.exSrc) := by
  have ok := modes_ok (seen_ok exSites_ok)
  obtain ⟨i1, h1, _⟩ := Build.items_ok exGeo_ok (ok (exSite exM1).seen.mode (List.mem_cons_self ..))
  obtain ⟨i2, h2, _⟩ := Build.items_ok exGeo_ok (ok (exSite exM2).seen.mode (List.mem_cons_of_mem _ (List.mem_cons_self ..)))
  have e : rs = [Build.mrun exEnc Dists.exEncD (exSite exM1).seen.mode i1, Build.mrun exEnc Dists.exEncD (exSite exM2).seen.mode i2] := by
    simp only [Build.mruns, exModes, exSites, List.map_cons, List.map_nil, Content.collect, h1, h2, Option.map_some] at h
    cases h
    rfl
  subst e
  have e1 : (Build.mrun exEnc Dists.exEncD (exSite exM1).seen.mode i1).run = ⟨exJobs1, exM1.W, exM1.sched, exM1.keep, exM1.threads⟩ := by
    simp only [Build.mrun, (view_items exView1 h1).1]
    rfl
  have e2 : (Build.mrun exEnc Dists.exEncD (exSite exM2).seen.mode i2).run = ⟨exJobs2, exM2.W, exM2.sched, exM2.keep, exM2.threads⟩ := by
    simp only [Build.mrun, (view_items exView2 h2).1]
    rfl
  simp only [List.map_cons, List.map_nil, e1, e2]
  refine ⟨⟨by decide, by decide, ?_⟩, ⟨by decide, by decide, ?_⟩, trivial⟩
  · intro w hw
    match w, hw, a with
    | 0, _, true => decide +kernel
    | 1, _, true => decide +kernel
    | 0, _, false => decide +kernel
    | 1, _, false => decide +kernel
  · intro w hw
    match w, hw, a with
    | 0, _, true => decide +kernel
    | 0, _, false => decide +kernel

/-- The hypotheses of `C90_drop_partial` hold (those about the feed alone are shown with C86), and those of the other theorems. -/
example : (∀ x ∈ exSites, SiteOk x Dists.exTables.trips.length) ∧ (∀ x ∈ exSites, FarOk exPt exFar x) ∧ Line.GeoOk exGeo exPt ∧
    Build.EncOk exGeo exEnc Dists.exEncD Shapes.w1 4 exModes ∧ Build.Spread exGeo 7 4 exModes ∧
    Build.Apart exModes ∧ (∀ t ∈ Dists.exTables.trips, ∀ ty x, t.shape ≠ Shapes.shapeId ty x) ∧
    Build.StopsOk exModes Dists.exTables.trips Dists.exRows ∧ Dists.readTimes Dists.exTables.trips Dists.exRows = some Dists.exRead ∧
    (∃ rs, Build.mruns exGeo exEnc Dists.exEncD 4 exModes = some rs ∧
      ∀ a, Result.Done 100 a 4 (rs.map (·.run)) (Result.start Dists.exTables.trips Result.exSrc)) := by
  refine ⟨exSites_ok, ?_, exGeo_ok, exEncOk, exSpread, ?_, ?_, exStops, by decide +kernel, ?_⟩
  · intro x hx
    simp only [exSites, List.mem_cons, List.not_mem_nil, or_false] at hx
    rcases hx with rfl | rfl <;> exact exFar_ok _
  · refine List.pairwise_cons.mpr ⟨?_, List.pairwise_singleton ..⟩
    intro m hm
    have hm : m = (exSite exM2).seen.mode := List.mem_singleton.mp hm
    subst hm
    exact ⟨rfl, (by decide : ∀ x ∈ [3], x ∉ [2])⟩
  · intro t ht ty x e
    have h : ∀ t ∈ Dists.exTables.trips, t.shape.length ≤ 1 := by decide
    have := h t ht
    rw [e] at this
    simp [Shapes.shapeId] at this
  · obtain ⟨rs, h⟩ := Build.mruns_some exGeo_ok exEnc Dists.exEncD (modes_ok (seen_ok exSites_ok))
    exact ⟨rs, h, fun a => exDone a h⟩

/-- The candidates of the stops: A is on both directions of its street, B on one, and C at the end of one direction and the start of the other. -/
example : (exLook.cands "A" "" 0).map (fun c => (c.e, c.x.progr)) = [(none, 0), (some 0, 1/2), (some 3, 1/2)] ∧
    (exLook.cands "B" "" 1).map (fun c => (c.e, c.x.progr)) = [(none, 0), (some 1, 1/2)] ∧
    (exLook.cands "C" "" 2).map (fun c => (c.e, c.x.progr)) = [(none, 0), (some 2, 1), (some 5, 0)] := by
  simp only [exCands_eq]
  decide +kernel

theorem exTrip_ok {m : Mode0} {cfgMots : List Nat} {drop : Bool} {shapeEmpty : Nat → Bool} {W : Nat} {sched : List Nat}
    {threads : List (List (Nat × List Nat))} (hm : exMode cfgMots drop shapeEmpty W sched threads = m) {k : Nat} (hk : 2 ≤ (m.c.stops k).length)
    (h : Single.good (exRun { m with gen := exG }) k = true) :
    Single.TripOk { m with gen := exG, map := exMap } (fun tr ecm => exNet (key m.c tr) ecm) k where
  stops := hk
  small := fun tr log _ ecm he => ⟨100, exG_small _ he⟩
  times := by
    intro tr log hh
    have hh : Trie.history (exRun { m with gen := exG }).c.toEnv [Single.op (exRun { m with gen := exG }) k] = some (tr, log) := hh
    rw [Single.good, hh] at h
    exact noShort_ecm (m := exRun { m with gen := exG }) h tr (List.mem_singleton.mpr rfl)
  forward := by
    intro tr log hh ecm he o nid ho hops hr
    have hnear : ∀ p, m.c.near p p = true := by subst hm; intro p; simp [exMode, Build.exC]
    obtain ⟨I, _⟩ := Router.history_facts m.c.toEnv hnear _ hh
    have hh : Trie.history (exRun { m with gen := exG }).c.toEnv [Single.op (exRun { m with gen := exG }) k] = some (tr, log) := hh
    rw [Single.good, hh] at h
    refine noShort_at (m := exRun { m with gen := exG }) (pre := []) (post := []) h rfl he (I.lt _ ho) ?_ hr
    rw [I.ndTrips]
    intro e
    have := List.map_eq_nil_iff.mp e
    have hin : (o, nid) ∈ log.filter fun p => p.2 = nid := List.mem_filter.mpr ⟨ho, by simp⟩
    rw [this] at hin
    cases hin

theorem exSeen_trip {m : Mode0} {cfgMots : List Nat} {drop : Bool} {shapeEmpty : Nat → Bool} {W : Nat} {sched : List Nat}
    {threads : List (List (Nat × List Nat))} (hm : exMode cfgMots drop shapeEmpty W sched threads = m) {k : Nat} (hk : 2 ≤ (m.c.stops k).length)
    (h : Single.good (exRun { m with gen := exG }) k = true) : Single.TripOk (exSite m).seen.mode0 (exSite m).seen.net k := by
  have e : (exSite m).seen.mode0 = { m with gen := exG, map := exMap } := by
    rw [exSeen hm]
    show ({ m with gen := exG, map := mapOf exGraph } : Mode0) = _
    rw [exMap_eq]
  have e' : (exSite m).seen.net = fun tr ecm => exNet (key m.c tr) ecm := by
    rw [exSeen hm, exNet_eq]
  rw [e, e']
  exact exTrip_ok hm hk h

/-- The hypotheses of `C90_single_partial` hold for the first trip (with three stops). -/
example : SiteOk (exSite exM1) 4 ∧ FarOk exPt exFar (exSite exM1) ∧ Single.TripOk (exSite exM1).seen.mode0 (exSite exM1).seen.net 0 :=
  ⟨exSites_ok _ (List.mem_cons_self ..), exFar_ok _, exSeen_trip rfl (by decide) (by decide +kernel)⟩

end Verif.Visit
