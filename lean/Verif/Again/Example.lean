import Verif.Again.Props
import Verif.Build.Example
import Verif.Intake.Example

/-!
# Running the program again: examples for C95
-/

namespace Verif.Again
open Verif.Out (StRow)
open Verif.Content (Tables TripRow Matching EnvOk)
open Verif.Trie (CEnv needsShape)
open Verif.Build (Mode ModeOk EncOk Spread Apart Follows mruns exMode exKeep1 exModes)
open Verif.Intake (Fields StopRow Wanted RowsOk intake R0 S0 exF exI exStops exRows)
open Verif.Line (exGeo exGeo_ok)
open Verif.Dists (SmallSeqs readTimes exEnc exEncD)
open Verif.Result (Done RefsOk start exSrc)

variable {A B X S P K E C Pt D S' Z Di : Type}

instance (f : Fields A X S) (c : CEnv Nat P K) (routes : List (Color.Route A)) (rows : List (StRow Di S)) (t : TripRow X) :
    Decidable (Wanted f c routes rows t) := by unfold Wanted; infer_instance

/-- The hypotheses about the second run in `C95_twice_partial` and `C95_drop_partial` can be met for every output: there are such configurations for any feed. -/
theorem C95_gentle (f : Fields A X S) (i : Tables A B X Z) (v : Content.Valid i) (stops : List (StopRow P)) (rows : List (StRow Di S)) (hs : SmallSeqs rows)
    (hrows : RowsOk f stops i.trips rows) (m : Mode E C Pt D S' P K) :
    ∃ m' : Mode E C Pt D S' P K, Gentle f i stops rows m' ∧ Within m'.c m.c ∧ Within m.c m'.c ∧ m'.threads = [] := by
  have h := (Intake.C91_reads_partial f i v stops rows hs
    { m.c with dropShapes := false, shapeEmpty := fun k => decide ((i.trips[k]?.map (·.shape)) = some []) }).mpr hrows
  obtain ⟨c', h⟩ := Option.isSome_iff_exists.mp h
  obtain ⟨F, sts, _, _, e⟩ := Intake.intake_some h
  have e1 : c'.dropShapes = false := by rw [e]; rfl
  have e2 : c'.shapeEmpty = fun k => decide ((i.trips[k]?.map (·.shape)) = some []) := by rw [e]; rfl
  have e3 : c'.mots = m.c.mots := by rw [e]; rfl
  have e4 : c'.cfgMots = m.c.cfgMots := by rw [e]; rfl
  refine ⟨{ m with c := c', threads := [], keep := fun k => decide (c'.dropShapes = false ∧ c'.shapeEmpty k = false ∧
    2 ≤ (c'.stops k).length ∧ c'.mot k ∈ c'.mots ∧ c'.mot k ∈ c'.cfgMots) }, ⟨⟨_, h⟩, e1, ?_, ?_⟩, ?_, ?_, rfl⟩
  · intro k t ht hne
    show c'.shapeEmpty k = false
    rw [e2]
    simp [ht, hne]
  · intro k hk
    exact decide_eq_true_iff
  · exact ⟨by rw [← e3]; exact fun _ h => h, by rw [← e4]; exact fun _ h => h⟩
  · exact ⟨by rw [← e3]; exact fun _ h => h, by rw [← e4]; exact fun _ h => h⟩

/-! ## A feed that is complete -/

abbrev Z0 := Shapes.Row ⊕ (StRow (List Nat) S0 ⊕ Unit)

/-- The feed of the example of C91, with a shape for the last trip. The route of the first two trips has a colour. -/
def exFull (text : Nat) : Tables R0 Unit Unit Z0 where
  routes := [⟨[3], 0, 0, (2, "", "Rail")⟩, ⟨[1], 5, text, (3, "1", "")⟩, ⟨[2], 6, 1, (7, "2", "")⟩]
  trips := [⟨[65], [1], [120], ()⟩, ⟨[66], [1], [120], ()⟩, ⟨[67], [2], [121], ()⟩, ⟨[68], [3], [121], ()⟩]
  fares := []
  rules := []
  freqs := []

def exMt : Matching := ⟨0, fun c => c + 100, true, fun _ => true, [], []⟩

def exE : Content.Env R0 Unit Unit Z0 where
  keepShape := fun _ _ => true
  newShapes := []
  stopTime := fun _ r => some r
  hasPublisher := false
  feedInfo := []
  orderR := List.reverse
  orderT := List.reverse

theorem exE_ok : EnvOk exE := ⟨fun l => List.reverse_perm l, fun l => List.reverse_perm l⟩

theorem exFull_valid (text : Nat) : Content.Valid (exFull text) where
  routes := by show ([[3], [1], [2]] : List Shapes.Str).Nodup; decide
  named := by
    intro R hR
    simp only [exFull, List.mem_cons, List.not_mem_nil, or_false] at hR
    rcases hR with rfl | rfl | rfl <;> exact List.cons_ne_nil _ _
  trips := by show ([[65], [66], [67], [68]] : List Shapes.Str).Nodup; decide
  tripRoute := by
    have : ∀ t ∈ (exFull text).trips, ∃ x ∈ ([[3], [1], [2]] : List Shapes.Str), x = t.route := by show ∀ t ∈ (exFull 0).trips, _; decide
    intro t ht
    obtain ⟨x, hx, e⟩ := this t ht
    have : x ∈ (exFull text).routes.map (·.id) := hx
    obtain ⟨R, hR, e'⟩ := List.mem_map.mp this
    exact ⟨R, hR, e'.trans e⟩
  fares := List.nodup_nil
  ruleFare := fun r hr => (by cases hr)
  ruleRoute := fun r hr => (by cases hr)
  freqTrip := fun r hr => (by cases hr)

/-- All types but that of the third trip. -/
def exM : Mode Nat (Option Nat) Rat Nat Unit Nat (Nat × List Nat) := { exMode [2, 3] false (fun _ => false) 2 [0, 1] [[], []] with keep := fun k => decide (k ≠ 2) }

theorem exFull_intake (text : Nat) : intake exF (exFull text) exStops exRows exM.c = some exM.c := by
  have h1 : Content.load (exFull text) = some ⟨(exFull text).routes, [1, 1, 2, 0], []⟩ := rfl
  have h2 : Intake.readStops exF exStops (exFull text).trips exRows = some Intake.exSts := by
    show Intake.readStops exF exStops (exFull 0).trips exRows = some Intake.exSts
    decide +kernel
  unfold intake
  rw [h1, h2]
  show some (Intake.fill exF (⟨(exFull text).routes, [1, 1, 2, 0], []⟩ : Color.Feed R0 Unit) Intake.exSts exM.c) = _
  have h3 : Intake.stopsOf Intake.exSts exM.c.stops = exM.c.stops := by
    funext k
    match k with
    | 0 => rfl
    | 1 => rfl
    | 2 => rfl
    | 3 => rfl
    | k + 4 => rfl
  have h4 : (Intake.fill exF (⟨(exFull text).routes, [1, 1, 2, 0], []⟩ : Color.Feed R0 Unit) Intake.exSts exM.c).mot = exM.c.mot := by
    funext k
    match k with
    | 0 => rfl
    | 1 => rfl
    | 2 => rfl
    | 3 => rfl
    | k + 4 => rfl
  congr 1
  unfold Intake.fill at h4 ⊢
  simp only at h4
  rw [h3, h4]

theorem exFull_gentle (text : Nat) : Gentle exF (exFull text) exStops exRows exM where
  reads := ⟨_, exFull_intake text⟩
  drop := rfl
  shapes := fun _ _ _ _ => rfl
  keep := by
    show KeepOk exM 4
    unfold KeepOk
    decide +kernel

theorem exFull_rows (text : Nat) : RowsOk exF exStops (exFull text).trips exRows := by
  refine ⟨Intake.exRows_ok.apart, ?_, Intake.exRows_ok.stop⟩
  show ∀ r ∈ exRows, ∃ t ∈ (exFull 0).trips, t.id = r.trip
  decide

theorem exNone : ∀ k, k < 4 → ¬ needsShape exM.c k := by decide +kernel

theorem exM_spread : Spread exGeo 0 4 [exM] := by
  intro m hm its hi
  rw [List.mem_singleton.mp hm] at hi ⊢
  rw [items_idle exGeo exNone] at hi
  cases hi
  exact List.Perm.refl _

theorem exFull_refs (text : Nat) : RefsOk (exFull text).trips exSrc := by
  show RefsOk (exFull 0).trips exSrc
  exact ⟨by decide, by decide⟩

/-- The hypotheses of `C95_complete_partial` hold. Three of four trips are wanted, and two of them are of a route with a colour. -/
example : EnvOk exE ∧ Content.Valid (exFull 105) ∧ (∀ t ∈ (exFull 105).trips, t.id ≠ []) ∧ RefsOk (exFull 105).trips exSrc ∧
    Spread exGeo exMt.noColor (exFull 105).trips.length [exM] ∧ SmallSeqs exRows ∧ RowsOk exF exStops (exFull 105).trips exRows ∧
    (∀ m ∈ [exM], Gentle exF (exFull 105) exStops exRows m) ∧
    (∀ m ∈ [exM], Complete exF exMt.noColor exMt.textColor m.c (exFull 105).routes (exFull 105).trips exRows) ∧
    (exFull 105).trips.map (fun t => decide (Wanted exF exM.c (exFull 105).routes exRows t)) = [true, true, false, true] := by
  refine ⟨exE_ok, exFull_valid _, by decide, exFull_refs _, exM_spread, Intake.exSmall, exFull_rows _, ?_, ?_, by decide +kernel⟩
  · intro m hm
    rw [List.mem_singleton.mp hm]
    exact exFull_gentle _
  · intro m hm
    rw [List.mem_singleton.mp hm]
    exact ⟨by decide +kernel, by decide +kernel⟩

/-- **C95 (negation without the condition on text colours).** A run without `--drop-shapes` changes a feed in which all trips have shapes: the text colour of a
route with a colour is replaced. All other hypotheses of `C95_complete_partial` hold. -/
theorem C95_negation_text : Content.Valid (exFull 7) ∧ Gentle exF (exFull 7) exStops exRows exM ∧
    (∀ t ∈ (exFull 7).trips, t.shape ≠ []) ∧ (∀ k, k < 4 → ¬ needsShape exM.c k) ∧
    ((mruns exGeo exEnc exEncD 4 [exM]).bind fun rs => (Dists.write exMt exE Shapes.w1 100 (exFull 7) rs
      (Result.allRuns 100 true 4 (rs.map (·.run)) (start (exFull 7).trips exSrc)) []).map (·.routes)) =
      some ([⟨[2], 6, 1, (7, "2", "")⟩, ⟨[1], 5, 105, (3, "1", "")⟩, ⟨[3], 0, 0, (2, "", "Rail")⟩].map .route) := by
  refine ⟨exFull_valid 7, exFull_gentle 7, by decide, exNone, ?_⟩
  have : mruns exGeo exEnc exEncD 4 [exM] = some [Build.mrun exEnc exEncD exM []] := by
    simp only [mruns, Content.collect, items_idle exGeo exNone, Option.map_some]
  rw [this]
  rfl

/-! ## Two runs -/

theorem exI_start : start exI.trips exSrc = start Dists.exTables.trips exSrc := Intake.exStart

/-- The hypotheses of `C95_drop_partial` about the first run hold: three of four trips are matched, for two configurations. -/
example : Line.GeoOk exGeo Line.exPt ∧ EnvOk exE ∧ Content.Valid exI ∧ (∀ t ∈ exI.trips, t.id ≠ []) ∧ RefsOk exI.trips exSrc ∧
    (∀ m ∈ exModes, ModeOk m exI.trips.length) ∧ EncOk exGeo exEnc exEncD Shapes.w1 exI.trips.length exModes ∧
    Spread exGeo exMt.noColor exI.trips.length exModes ∧ Apart exModes ∧ SmallSeqs exRows ∧ RowsOk exF exStops exI.trips exRows ∧
    (∀ m ∈ exModes, ∃ c, intake exF exI exStops exRows c = some m.c) ∧ (∀ m ∈ exModes, m.c.dropShapes = true) ∧
    (∀ t ∈ exI.trips, ∀ ty x, t.shape ≠ Shapes.shapeId ty x) ∧
    ∃ rs, mruns exGeo exEnc exEncD exI.trips.length exModes = some rs ∧ ∀ a, Done 100 a exI.trips.length (rs.map (·.run)) (start exI.trips exSrc) := by
  refine ⟨exGeo_ok, exE_ok, Intake.exI_valid, by decide, ⟨by decide, by decide⟩, Build.exModes_ok, Build.exEncOk, Build.exSpread, ?_, Intake.exSmall,
    Intake.exRows_ok, ?_, ?_, ?_, ?_⟩
  · refine List.pairwise_cons.mpr ⟨?_, List.pairwise_singleton ..⟩
    intro m hm
    rw [List.mem_singleton] at hm
    subst hm
    exact ⟨rfl, by decide⟩
  · intro m hm
    simp only [exModes, List.mem_cons, List.not_mem_nil, or_false] at hm
    rcases hm with rfl | rfl
    · exact ⟨_, Intake.exIntake [3] true _⟩
    · exact ⟨_, Intake.exIntake [2] true _⟩
  · intro m hm
    simp only [exModes, List.mem_cons, List.not_mem_nil, or_false] at hm
    rcases hm with rfl | rfl <;> rfl
  · intro t ht ty x e
    have h : ∀ t ∈ exI.trips, t.shape.length ≤ 1 := by decide
    have := h t ht
    rw [e] at this
    simp [Shapes.shapeId] at this
  · obtain ⟨rs, h⟩ := Build.mruns_some exGeo_ok exEnc exEncD Build.exModes_ok
    exact ⟨rs, h, fun a => by rw [exI_start]; exact Build.exDone a h⟩

theorem exKeep1_ok : ∀ m ∈ [exKeep1], ModeOk m 4 := fun m hm => Build.exKeeps_ok m (by rw [List.mem_singleton.mp hm]; exact List.mem_cons_self ..)

theorem exKeep1_view : Build.view exKeep1 = some (Build.exJobs2, [(7, [3])], [7]) := by decide +kernel

/-- The hypotheses of `C95_twice_partial` about the first run hold (the others are shown above): one trip is matched, the others have shapes. -/
example : (∀ m ∈ [exKeep1], ModeOk m exI.trips.length) ∧ EncOk exGeo exEnc exEncD Shapes.w1 exI.trips.length [exKeep1] ∧
    Spread exGeo exMt.noColor exI.trips.length [exKeep1] ∧ (∀ m ∈ [exKeep1], ∃ c, intake exF exI exStops exRows c = some m.c) ∧
    (∀ m ∈ [exKeep1], m.c.dropShapes = false) ∧ (∀ m ∈ [exKeep1], KeepOk m exI.trips.length) ∧
    ∃ rs, mruns exGeo exEnc exEncD exI.trips.length [exKeep1] = some rs ∧ Done 100 true exI.trips.length (rs.map (·.run)) (start exI.trips exSrc) ∧
      Follows 100 true exI.trips.length [exKeep1] rs (start exI.trips exSrc) := by
  refine ⟨exKeep1_ok, ⟨fun _ => rfl, fun _ => ⟨rfl, rfl, rfl⟩, ?_⟩, ?_, ?_, ?_, ?_, ?_⟩
  · intro m hm its hi it hit
    rw [List.mem_singleton.mp hm] at hi
    have e : its.flatten.map (·.shp.pts.length) = [7] := (Build.view_items exKeep1_view hi).2.2
    have : it.shp.pts.length ∈ [7] := by rw [← e]; exact List.mem_map.mpr ⟨it, hit, rfl⟩
    rw [List.mem_singleton.mp this]
    decide
  · intro m hm its hi
    rw [List.mem_singleton.mp hm] at hi ⊢
    exact List.Perm.of_eq (Build.view_items exKeep1_view hi).2.1.symm
  · intro m hm
    rw [List.mem_singleton.mp hm]
    exact ⟨_, Intake.exIntake [2] false _⟩
  · intro m hm
    rw [List.mem_singleton.mp hm]
    rfl
  · intro m hm
    rw [List.mem_singleton.mp hm]
    show KeepOk exKeep1 4
    unfold KeepOk
    decide +kernel
  · obtain ⟨i1, h1, _⟩ := Build.items_ok exGeo_ok (exKeep1_ok exKeep1 (List.mem_cons_self ..))
    refine ⟨[Build.mrun exEnc exEncD exKeep1 i1], ?_, ?_, ?_⟩
    · have h1 : Build.items exGeo exKeep1 exI.trips.length = some i1 := h1
      simp only [mruns, Content.collect, h1, Option.map_some]
    · have e1 : (Build.mrun exEnc exEncD exKeep1 i1).run = ⟨Build.exJobs2, exKeep1.W, exKeep1.sched, exKeep1.keep, exKeep1.threads⟩ := by
        simp only [Build.mrun, (Build.view_items exKeep1_view h1).1]
      simp only [List.map_cons, List.map_nil, e1]
      refine ⟨⟨by decide, by decide, ?_⟩, trivial⟩
      intro w hw
      match w, hw with
      | 0, _ => decide +kernel
    · refine ⟨?_, trivial⟩
      show ∀ k, k < 4 → _
      decide +kernel

end Verif.Again
