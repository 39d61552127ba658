import Verif.Intake.Spec
import Verif.Build.Spec

/-!
# Running the program again (specification)
-/

namespace Verif.Again
open Verif.Shapes (Str)
open Verif.Out (Cfg FS HasOutput StRow)
open Verif.Content (Tables TripRow)
open Verif.Color (Route)
open Verif.Trie (CEnv)
open Verif.Build (Mode)
open Verif.Intake (Fields StopRow Wanted)
open Verif.Dists (DRow stRow)
open Verif.Result (shapeRow)

variable {A B X Y S P K E C Pt D S' Z Di : Type}

/-- Nothing is left to be done in this feed for a mode configuration: the trips it is for have shapes, and the text colour of their routes is
the one that belongs to the colour. -/
structure Complete (f : Fields A X S) (noColor : Nat) (textColor : Nat → Nat) (c : CEnv Nat P K) (routes : List (Route A)) (trips : List (TripRow X))
    (rows : List (StRow Di S)) : Prop where
  shape : ∀ t ∈ trips, Wanted f c routes rows t → t.shape ≠ []
  text : ∀ t ∈ trips, Wanted f c routes rows t → ∀ R ∈ routes, R.id = t.route → R.color ≠ noColor → R.text = textColor R.color

/-- `src/pfaedle/router/ShapeBuilder.cpp:405-416`: of which trips the colours are taken into account although they are not matched: those that the
configuration is for and that have a shape already. -/
def KeepOk (m : Mode E C Pt D S' P K) (n : Nat) : Prop :=
  ∀ k, k < n → (m.keep k = true ↔ m.c.dropShapes = false ∧ m.c.shapeEmpty k = false ∧
    2 ≤ (m.c.stops k).length ∧ m.c.mot k ∈ m.c.mots ∧ m.c.mot k ∈ m.c.cfgMots)

/-- A mode configuration of a run without `--drop-shapes` for the feed `i`. Trips never lose their shapes: what has a shape in trips.txt is never seen
without one. -/
structure Gentle (f : Fields A X S) (i : Tables A B X Z) (stops : List (StopRow P)) (rows : List (StRow Di S)) (m : Mode E C Pt D S' P K) : Prop where
  reads : ∃ c, Intake.intake f i stops rows c = some m.c
  drop : m.c.dropShapes = false
  shapes : ∀ (k : Nat) t, i.trips[k]? = some t → t.shape ≠ [] → m.c.shapeEmpty k = false
  keep : KeepOk m i.trips.length

/-- The configuration `c'` is for no other vehicle types than `c`. -/
def Within (c' c : CEnv Nat P K) : Prop := (∀ x ∈ c'.mots, x ∈ c.mots) ∧ ∀ x ∈ c'.cfgMots, x ∈ c.cfgMots

/-- The output has these rows; those of routes.txt and trips.txt may be in another order. -/
structure Written (c : Cfg) (fs : FS (DRow A B Di S X Y)) (routes : List (Route A)) (trips : List (TripRow X)) (shapes : List Shapes.Row)
    (rows : List (StRow Di S)) : Prop where
  routes : ∃ l : List (Route A), l.Perm routes ∧ HasOutput c fs .routes (.header .routes :: l.map .route)
  trips : ∃ l : List (TripRow X), l.Perm trips ∧ HasOutput c fs .trips (.header .trips :: l.map .trip)
  shapes : HasOutput c fs .shapes (.header .shapes :: shapes.map shapeRow)
  times : HasOutput c fs .stopTimes (.header .stopTimes :: rows.map stRow)

/-- A run for the feed `i`, with these rows in shapes.txt and stop_times.txt and these mode configurations, leaves the feed as it is: it is read and processed
without undefined behaviour, and after every run of the writer that ends without a write error, all rows of the input are in the output. -/
def Leaves [DecidableEq E] (geo : Line.Geo Pt) (enc : Line.ShpPt Pt → Shapes.Point) (encD : Rat → List Nat) (w : Shapes.Widths) (mt : Content.Matching)
    (e : Content.Env A B X (Shapes.Row ⊕ (StRow (List Nat) S ⊕ Y))) (limit : Nat) (atomicDec : Bool)
    (i : Tables A B X (Shapes.Row ⊕ (StRow (List Nat) S ⊕ Y))) (src : List Shapes.Row) (rows : List (StRow (List Nat) S)) (ms : List (Mode E C Pt D S' P K)) : Prop :=
  ∃ ts0 rs ts fd, Dists.readTimes i.trips rows = some ts0 ∧ Build.mruns geo enc encD i.trips.length ms = some rs ∧
    Dists.allTimes limit atomicDec i.trips.length rs (Result.start i.trips src) ts0 = some ts ∧
    Dists.write mt e w limit i rs (Result.allRuns limit atomicDec i.trips.length (rs.map (·.run)) (Result.start i.trips src)) ts = some fd ∧
    ∀ (c : Cfg) (fs : FS (DRow A B (List Nat) S X Y)), Out.Paths c → Out.NoTmpZip c fs → Content.Reads c fs i →
    Out.Input c fs .shapes (src.map shapeRow) → Out.HasInput c fs .stopTimes (rows.map stRow) →
    ∀ as : List Out.Act, .wrErr ∉ as → (Out.run c (Out.init fs (Out.jobs fd)) as).phase = .done →
      Written c (Out.run c (Out.init fs (Out.jobs fd)) as).fs i.routes i.trips src rows ∧
      (∀ n ∈ [Out.Name.agency, .stops, .calendar, .calendarDates, .transfers, .fareAttributes, .fareRules, .pathways, .levels], ∀ l,
        Out.HasInput c fs n l → HasOutput c (Out.run c (Out.init fs (Out.jobs fd)) as).fs n (.header n :: l)) ∧
      (∀ r l, Out.HasInput c fs .frequencies (r :: l) →
        HasOutput c (Out.run c (Out.init fs (Out.jobs fd)) as).fs .frequencies (.header .frequencies :: r :: l))

end Verif.Again
