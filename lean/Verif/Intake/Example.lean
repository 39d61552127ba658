import Verif.Intake.Props
import Verif.Visit.Example

/-!
# From the rows of the feed to the clustering: an example for C91

The file and the mode configurations are those of the example of C90. Three routes, of the types 3, 7 and 2; no configuration is for type 7.
-/

namespace Verif.Intake
open Verif.Out (StRow)
open Verif.Content (Tables TripRow)
open Verif.Visit (Site exSite exSites exM1 exM2 exModes)
open Verif.Tour (Mode0)

/-- Type, short name and long name of a route. -/
abbrev R0 := Nat × String × String

/-- Stop, arrival and departure. -/
abbrev S0 := Shapes.Str × Option Int × Option Int

def exF : Fields R0 Unit S0 := ⟨(·.1), (·.2.1), (·.2.2), fun _ => "", (·.1), (·.2.1), (·.2.2)⟩

def exI : Tables R0 Unit Unit (Shapes.Row ⊕ (StRow (List Nat) S0 ⊕ Unit)) where
  routes := [⟨[3], 0, 0, (2, "", "Rail")⟩, ⟨[1], 0, 0, (3, "1", "")⟩, ⟨[2], 0, 0, (7, "2", "")⟩]
  trips := [⟨[65], [1], [120], ()⟩, ⟨[66], [1], [120], ()⟩, ⟨[67], [2], [121], ()⟩, ⟨[68], [3], [], ()⟩]
  fares := []
  rules := []
  freqs := []

def exStops : List (StopRow Nat) := [⟨[12], "C", "", 2⟩, ⟨[11], "B", "", 1⟩, ⟨[10], "A", "", 0⟩, ⟨[13], "D", "", 7⟩]

/-- The rows of a trip are not together, nor in order. -/
def exRows : List (StRow (List Nat) S0) :=
  [⟨[65], 5, [99], ([12], some 300, some 310)⟩, ⟨[67], 1, [7], ([10], some 1090, some 1100)⟩, ⟨[65], 1, [99], ([10], some 90, some 100)⟩,
    ⟨[66], 1, [99], ([10], some 1090, some 1100)⟩, ⟨[66], 2, [99], ([11], some 1300, some 1310)⟩, ⟨[68], 1, [99], ([10], some 1090, some 1100)⟩,
    ⟨[68], 2, [99], ([11], some 1300, some 1310)⟩, ⟨[65], 3, [99], ([11], some 200, some 210)⟩, ⟨[67], 2, [8], ([11], some 1300, some 1310)⟩]

theorem exI_valid : Content.Valid exI where
  routes := by decide
  named := by decide
  trips := by decide
  tripRoute := by decide
  fares := by decide
  ruleFare := by decide
  ruleRoute := by decide
  freqTrip := by decide

theorem exRows_ok : RowsOk exF exStops exI.trips exRows where
  apart := by decide
  trip := by decide
  stop := by decide

theorem exSmall : Dists.SmallSeqs exRows := by unfold Dists.SmallSeqs; decide

deriving instance DecidableEq for Verif.Trie.StopTime

def exSts : List (List (St Nat)) :=
  let s (n : String) (p : Nat) (x : Int) : Trie.StopTime Nat := ⟨n, "", p, some x, some (x + 10)⟩
  [[(1, s "A" 0 90), (3, s "B" 1 200), (5, s "C" 2 300)], [(1, s "A" 0 1090), (2, s "B" 1 1300)], [(1, s "A" 0 1090), (2, s "B" 1 1300)],
    [(1, s "A" 0 1090), (2, s "B" 1 1300)]]

theorem exSts_eq : readStops exF exStops exI.trips exRows = some exSts := by decide +kernel

def exLoad : Color.Feed R0 Unit := ⟨exI.routes, [1, 1, 2, 0], []⟩

theorem exLoad_eq : Content.load exI = some exLoad := by rfl

/-- What the clustering of the example sees is what is read from the rows. -/
theorem exIntake (cfgMots : List Nat) (drop : Bool) (se : Nat → Bool) :
    intake exF exI exStops exRows (Build.exC cfgMots drop se) = some (Build.exC cfgMots drop se) := by
  unfold intake
  rw [exLoad_eq, exSts_eq]
  show some (fill exF exLoad exSts (Build.exC cfgMots drop se)) = _
  have h1 : stopsOf exSts (Build.exC cfgMots drop se).stops = (Build.exC cfgMots drop se).stops := by
    funext k
    match k with
    | 0 => rfl
    | 1 => rfl
    | 2 => rfl
    | 3 => rfl
    | k + 4 => rfl
  have h2 : (fill exF exLoad exSts (Build.exC cfgMots drop se)).mot = (Build.exC cfgMots drop se).mot := by
    funext k
    match k with
    | 0 => rfl
    | 1 => rfl
    | 2 => rfl
    | 3 => rfl
    | k + 4 => rfl
  congr 1
  unfold fill at h2 ⊢
  simp only at h2
  rw [h1, h2]

theorem exIn : ∀ x ∈ exSites, ∃ c, intake exF exI exStops exRows c = some x.town.m.c := by
  intro x hx
  simp only [exSites, List.mem_cons, List.not_mem_nil, or_false] at hx
  rcases hx with rfl | rfl
  · exact ⟨_, exIntake [3] true _⟩
  · exact ⟨_, exIntake [2] true _⟩

theorem exStart : Result.start exI.trips Result.exSrc = Result.start Dists.exTables.trips Result.exSrc := by
  have : (fun k : Nat => ((exI.trips[k]?).map (·.shape)).getD []) = fun k => ((Dists.exTables.trips[k]?).map (·.shape)).getD [] := by
    funext k
    match k with
    | 0 => rfl
    | 1 => rfl
    | 2 => rfl
    | 3 => rfl
    | k + 4 => rfl
  unfold Result.start
  rw [this]

/-- The hypotheses of `C91_drop_partial` hold (those about the environment and the writer are shown with C86). -/
example : Content.Valid exI ∧ (∀ t ∈ exI.trips, t.id ≠ []) ∧ Result.RefsOk exI.trips Result.exSrc ∧ Line.GeoOk Tour.exGeo Tour.exPt ∧
    (∀ x ∈ exSites, Visit.SiteOk x exI.trips.length) ∧ (∀ x ∈ exSites, Visit.FarOk Tour.exPt Visit.exFar x) ∧
    Build.EncOk Tour.exGeo Tour.exEnc Dists.exEncD Shapes.w1 exI.trips.length exModes ∧ Build.Spread Tour.exGeo 7 exI.trips.length exModes ∧
    Dists.SmallSeqs exRows ∧ RowsOk exF exStops exI.trips exRows ∧
    (∀ x ∈ exSites, ∃ c, intake exF exI exStops exRows c = some x.town.m.c) ∧ (∀ x ∈ exSites, x.town.m.c.dropShapes = true) ∧
    (exSites.Pairwise fun x y => ∀ m ∈ x.town.m.c.cfgMots, m ∉ y.town.m.c.cfgMots) ∧ (∀ t ∈ exI.trips, ∀ ty y, t.shape ≠ Shapes.shapeId ty y) ∧
    ∃ rs, Build.mruns Tour.exGeo Tour.exEnc Dists.exEncD exI.trips.length exModes = some rs ∧
      ∀ a, Result.Done 100 a exI.trips.length (rs.map (·.run)) (Result.start exI.trips Result.exSrc) := by
  refine ⟨exI_valid, by decide, ⟨by decide, by decide⟩, Tour.exGeo_ok, Visit.exSites_ok, ?_, Visit.exEncOk, Visit.exSpread, exSmall, exRows_ok, exIn, ?_, ?_, ?_, ?_⟩
  · intro x hx
    simp only [exSites, List.mem_cons, List.not_mem_nil, or_false] at hx
    rcases hx with rfl | rfl <;> exact Visit.exFar_ok _
  · intro x hx
    simp only [exSites, List.mem_cons, List.not_mem_nil, or_false] at hx
    rcases hx with rfl | rfl <;> rfl
  · refine List.pairwise_cons.mpr ⟨?_, List.pairwise_singleton ..⟩
    intro y hy
    rw [List.mem_singleton.mp hy]
    exact (by decide : ∀ x ∈ [3], x ∉ [2])
  · intro t ht ty x e
    have h : ∀ t ∈ exI.trips, t.shape.length ≤ 1 := by decide
    have := h t ht
    rw [e] at this
    simp [Shapes.shapeId] at this
  · obtain ⟨rs, h⟩ := Build.mruns_some Tour.exGeo_ok Tour.exEnc Dists.exEncD (Tour.modes_ok (Visit.seen_ok Visit.exSites_ok))
    exact ⟨rs, h, fun a => by rw [exStart]; exact Visit.exDone a h⟩

instance (c : Trie.CEnv Nat Nat Tour.A0) (t : TripRow Unit) : Decidable (Wanted exF c exI.routes exRows t) := by
  unfold Wanted rowsAt; infer_instance

/-- The first two trips are wanted by the first configuration, the last one by the second; the third one by none. -/
example : (∀ t ∈ exI.trips.take 2, Wanted exF exM1.c exI.routes exRows t ∧ ¬ Wanted exF exM2.c exI.routes exRows t) ∧
    (∀ t ∈ exI.trips.drop 3, ¬ Wanted exF exM1.c exI.routes exRows t ∧ Wanted exF exM2.c exI.routes exRows t) ∧
    ∀ t ∈ (exI.trips.drop 2).take 1, ¬ Wanted exF exM1.c exI.routes exRows t ∧ ¬ Wanted exF exM2.c exI.routes exRows t := by
  decide

/-! ## Without `--drop-shapes` -/

/-- Only the last trip has no shape. -/
def exM3 : Mode0 := Tour.exMode [2] false (fun k => decide (k = 3)) 1 (List.replicate 6 0) [[(7, [3])]]

theorem exSite3_ok : ∀ x ∈ [exSite exM3], Visit.SiteOk x 4 := by
  intro m hm
  rw [List.mem_singleton.mp hm]
  exact Visit.exSite_ok rfl (by decide +kernel)

theorem exSeen3 : (exSite exM3).seen.mode = Tour.exRun { exM3 with gen := Visit.exG } := by
  rw [Visit.exSeen (m := exM3) rfl, Tour.exMode_eq]

set_option synthInstance.maxSize 1024 in
theorem exView3 : Tour.view (exSite exM3).seen.mode = some (Tour.exJobs2, [(7, [3])], [4], [[[1, 0]]]) := by
  rw [exSeen3]; decide +kernel

abbrev exModes3 := ([exSite exM3].map Site.seen).map Tour.Town.mode

/-- The hypotheses of `C91_no_drop_partial` about the configuration hold (the others are shown above), and it matches the last trip. -/
example : (∀ x ∈ [exSite exM3], Visit.SiteOk x exI.trips.length) ∧ (∀ x ∈ [exSite exM3], Visit.FarOk Tour.exPt Visit.exFar x) ∧
    Build.EncOk Tour.exGeo Tour.exEnc Dists.exEncD Shapes.w1 exI.trips.length exModes3 ∧ Build.Spread Tour.exGeo 7 exI.trips.length exModes3 ∧
    (∀ x ∈ [exSite exM3], ∃ c, intake exF exI exStops exRows c = some x.town.m.c) ∧ (∀ x ∈ [exSite exM3], x.town.m.c.dropShapes = false) ∧
    (∃ rs, Build.mruns Tour.exGeo Tour.exEnc Dists.exEncD exI.trips.length exModes3 = some rs ∧
      Result.Done 100 true exI.trips.length (rs.map (·.run)) (Result.start exI.trips Result.exSrc) ∧
      Build.Follows 100 true exI.trips.length exModes3 rs (Result.start exI.trips Result.exSrc)) ∧
    (∀ t ∈ exI.trips.drop 3, t.shape = [] ∧ Wanted exF exM3.c exI.routes exRows t) := by
  have ok := Tour.modes_ok (Visit.seen_ok exSite3_ok)
  have one : ∀ m ∈ exModes3, m = (exSite exM3).seen.mode := fun m hm => List.mem_singleton.mp hm
  refine ⟨exSite3_ok, ?_, ⟨fun _ => rfl, fun _ => ⟨rfl, rfl, rfl⟩, ?_⟩, ?_, ?_, ?_, ?_, ?_⟩
  · intro x hx
    rw [List.mem_singleton.mp hx]
    exact Visit.exFar_ok _
  · intro m hm its hi it hit
    rw [one m hm] at hi
    have e : its.flatten.map (·.shp.pts.length) = [4] := (Tour.view_items exView3 hi).2.2
    have : it.shp.pts.length ∈ [4] := by rw [← e]; exact List.mem_map.mpr ⟨it, hit, rfl⟩
    rw [List.mem_singleton.mp this]
    decide
  · intro m hm its hi
    rw [one m hm] at hi
    have e := (Tour.view_items exView3 hi).2.1
    rw [one m hm]
    exact List.Perm.of_eq e.symm
  · intro x hx
    rw [List.mem_singleton.mp hx]
    exact ⟨_, exIntake [2] false _⟩
  · intro x hx
    rw [List.mem_singleton.mp hx]
    rfl
  · obtain ⟨i1, h1, _⟩ := Build.items_ok Tour.exGeo_ok (ok (exSite exM3).seen.mode (List.mem_cons_self ..))
    refine ⟨[Build.mrun Tour.exEnc Dists.exEncD (exSite exM3).seen.mode i1], ?_, ?_, ?_⟩
    · have h1 : Build.items Tour.exGeo (exSite exM3).seen.mode exI.trips.length = some i1 := h1
      simp only [Build.mruns, exModes3, List.map_cons, List.map_nil, Content.collect, h1, Option.map_some]
    · have e1 : (Build.mrun Tour.exEnc Dists.exEncD (exSite exM3).seen.mode i1).run = ⟨Tour.exJobs2, exM3.W, exM3.sched, exM3.keep, exM3.threads⟩ := by
        simp only [Build.mrun, (Tour.view_items exView3 h1).1]
        rfl
      simp only [List.map_cons, List.map_nil, e1]
      refine ⟨⟨by decide, by decide, ?_⟩, trivial⟩
      intro w hw
      match w, hw with
      | 0, _ => decide +kernel
    · refine ⟨?_, trivial⟩
      intro k hk
      show exM3.c.shapeEmpty k = true ↔ _
      match k, hk with
      | 0, _ => decide
      | 1, _ => decide
      | 2, _ => decide
      | 3, _ => decide
  · decide

/-! ## Attributes -/

def exNm : Norms := ⟨fun s => s.toList.map (·.toNat), fun s => s.toList.map fun c => c.toNat + 32⟩

def exOpt : Trie.CEnv Nat Nat Names.RAttrs :=
  ⟨⟨fun _ => [], (· == ·), fun a _ => a, 0, 0, ⟨[], [], [], []⟩⟩, fun _ _ => false, fun _ => ⟨[], [], [], []⟩, fun _ => true, fun _ => 0, true, [], [], false, false⟩

/-- The first two trips are of one line and one group; the last one has the long name of its route. -/
example : ∃ c, intakeAttrs exF exNm exI exStops exRows exOpt = some c ∧ (c.rAttrs 0).shortName = [49] ∧ (c.rAttrs 0).lineFrom = [97] ∧
    (c.rAttrs 0).lineTo = [[99]] ∧ Trie.equiv c (c.rAttrs 0) (c.rAttrs 1) ∧ (c.rAttrs 3).shortName = [82, 97, 105, 108] ∧
    ¬ Trie.equiv c (c.rAttrs 0) (c.rAttrs 3) ∧ ∀ t ∈ exI.trips, rowsAt exRows t ≠ [] := by
  refine ⟨_, rfl, ?_⟩
  unfold Trie.equiv rowsAt
  decide +kernel

end Verif.Intake
