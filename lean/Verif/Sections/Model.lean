import Verif.Config.Model
import Verif.Config.Costs

/-!
# Reading a section of a configuration file (model)

Model of `MotConfigReader::parse`, `src/pfaedle/config/MotConfigReader.cpp:30-644`. The parser of files (`configparser`) is a library: a
section is a map from the names of options to their values, and `Lib` says how a value is read. Doubles are exact rationals; where the
program divides by zero (it goes on with an infinite number) the model stops with `inf`. The program reads and computes in turns; here all
values are read first, which makes no difference because a value that cannot be read ends the program.
-/

namespace Verif.Sections
open Verif.Names (Str)
open Verif.Config

/-- How `configparser` reads values; `none` is an exception. The last four give a number for the contents of a rule list, a normaliser, the
line rules or a method (as in `Config.OsmOpts`), of an option that is present or not. -/
structure Lib (V : Type) where
  /-- `getDouble` -/
  num : V → Option Rat
  /-- `getDoubleArr(…, ',')` -/
  nums : V → Option (List Rat)
  /-- `getInt` -/
  int : V → Option Int
  /-- `getBool` -/
  bool : V → Option Bool
  /-- the filters and attribute rules, and a normaliser that could be compiled -/
  code : Option V → Nat
  /-- a normaliser is accepted (546-596; else an exception) -/
  chain : V → Bool
  /-- the rules for relations, 231-248 -/
  lineCode : Option V → Nat
  /-- the name of a method, given or default -/
  word : String → Option V → Nat

/-- A section: its options. -/
abbrev Sec (V : Type) := String → Option V

/-- The options read with `getPosDouble` (lines in the functions below). -/
def posKeys : List String :=
  ((List.range 8).map fun i => "routing_lvl" ++ toString i ++ "_fac") ++
  ((List.range 8).map fun i => "osm_lvl" ++ toString i ++ "_avg_speed") ++
  ["routing_one_way_meter_punish_fac", "osm_one_way_speed_penalty_fac", "osm_one_way_entry_cost", "routing_full_turn_punish",
   "routing_full_turn_penalty", "routing_full_turn_angle", "routing_snap_full_turn_angle", "routing_no_lines_punish_fac",
   "routing_no_lines_penalty_fac", "routing_line_unmatched_punish_fac", "routing_line_unmatched_time_penalty_fac",
   "routing_line_station_from_unmatched_time_penalty", "routing_line_station_to_unmatched_time_penalty",
   "routing_platform_unmatched_punish", "routing_platform_unmatched_penalty", "routing_transition_penalty_fac",
   "routing_station_distance_punish_fac", "routing_station_move_penalty_fac", "routing_non_osm_station_punish",
   "routing_non_station_penalty", "routing_station_unmatched_penalty"]

/-- The options read with `getDouble`: 259-262, 268-270 and 275-277. -/
def realKeys : List String :=
  ["osm_max_station_cand_distance", "osm_max_osm_station_distance", "osm_max_node_block_distance"]

/-- The options read with `getBool`: 69-73 and 374-376. -/
def boolKeys : List String := ["routing_use_stations", "routing_no_self_hops"]

/-- The options read as normalisers, 546-596. -/
def chainKeys : List String :=
  ["station_normalize_chain", "track_normalize_chain", "line_normalize_chain", "station_id_normalize_chain"]

/-- A value that is present can be read. -/
def okBy {V : Type} (f : V → Bool) : Option V → Bool
  | none => true
  | some v => f v

/-- `getPosDouble` succeeds: a number that is not negative. -/
def posOk {V : Type} (lib : Lib V) (v : V) : Bool :=
  match lib.num v with
  | none => false
  | some x => decide (0 ≤ x)

/-- No value leads to an exception. -/
def readable {V : Type} (lib : Lib V) (s : Sec V) : Bool :=
  posKeys.all (fun k => okBy (posOk lib) (s k)) && realKeys.all (fun k => okBy (fun v => (lib.num v).isSome) (s k)) &&
  boolKeys.all (fun k => okBy (fun v => (lib.bool v).isSome) (s k)) && chainKeys.all (fun k => okBy lib.chain (s k)) &&
  okBy (fun v => (lib.nums v).isSome) (s "osm_max_snap_distance") && okBy (fun v => (lib.int v).isSome) (s "osm_max_snap_level")

/-- The number of an option, if it is there. -/
def num {V : Type} (lib : Lib V) (s : Sec V) (k : String) : Option Rat := (s k).bind lib.num

/-! ### The numbers -/

/-- OsmReadOpts.h:135-136. -/
def defSpeed : Nat → Rat
  | 0 => 85 * (2777 / 10000)
  | 1 => 70 * (2777 / 10000)
  | 2 => 55 * (2777 / 10000)
  | 3 => 40 * (2777 / 10000)
  | 4 => 30 * (2777 / 10000)
  | 5 => 20 * (2777 / 10000)
  | 6 => 10 * (2777 / 10000)
  | _ => 5 * (2777 / 10000)

/-- MotConfigReader.cpp:286-298, then 300-307; `levelDefSpeed[i]`. -/
def speed (get : String → Option Rat) (i : Nat) : Rat :=
  let v := match get ("routing_lvl" ++ toString i ++ "_fac") with
    | some f => 85 / f * (2777 / 10000)
    | none => defSpeed i
  match get ("osm_lvl" ++ toString i ++ "_avg_speed") with
  | some x => x * (2777 / 10000)
  | none => v

/-- MotConfigReader.cpp:309-325 and 400-418: a factor with a new and an old name. -/
def factor (get : String → Option Rat) (old new : String) : Rat :=
  let v := match get old with
    | some x => 1 + x
    | none => 1
  match get new with
  | some x => x
  | none => v

/-- MotConfigReader.cpp:423-462: one of the three factors for lines. -/
def lineFactor (get : String → Option Rat) (new : String) : Rat :=
  let v := match get "routing_line_unmatched_punish_fac" with
    | some x => 1 + x / 3
    | none => 1
  match get new with
  | some x => x
  | none => v

/-- MotConfigReader.cpp:24. -/
def defTransPen : Rat := 83 / 10000

/-- MotConfigReader.cpp:464-486 and 518-537: a penalty with a new and an old name. -/
def penalty (get : String → Option Rat) (old new : String) : Rat :=
  let v := match get old with
    | some x => x * (defTransPen / speed get 0)
    | none => 0
  match get new with
  | some x => x
  | none => v

/-- MotConfigReader.cpp:495-516. Without the old name the 0 of the constructor (Misc.h:45) is scaled. -/
def movePenalty (get : String → Option Rat) : Rat :=
  let v := match get "routing_station_distance_punish_fac" with
    | some x => x * (defTransPen / speed get 0)
    | none => 0 * (defTransPen / speed get 0)
  match get "routing_station_move_penalty_fac" with
  | some x => x
  | none => v

/-- MotConfigReader.cpp:344-372; the default is that of the constructor, Misc.h:37. -/
def fullTurn (get : String → Option Rat) : Option Nat :=
  let v := match get "routing_full_turn_punish" with
    | some x => toU32 (limited (x / speed get 0 * 10))
    | none => some 1000
  match get "routing_full_turn_penalty" with
  | some x => toU32 (limited (x * 10))
  | none => v

/-- A number or its default. -/
def orElse (get : String → Option Rat) (k : String) (d : Rat) : Rat :=
  match get k with
  | some x => x
  | none => d

/-- MotConfigReader.cpp:601-606: the greatest speed of a level. -/
def maxLevel (get : String → Option Rat) : Rat :=
  (List.range 8).foldl (fun m i => if speed get i > m then speed get i else m) 0

/-- MotConfigReader.cpp:608-622: one of the five factors. -/
def shrink (fac x : Rat) : Rat := if x < 1 then fac * x else fac

/-- Factors of the configuration, MotConfigReader.cpp:309-325, 400-418 and 423-462. -/
def oneWayPen (get : String → Option Rat) : Rat :=
  factor get "routing_one_way_meter_punish_fac" "osm_one_way_speed_penalty_fac"
def noLines (get : String → Option Rat) : Rat := factor get "routing_no_lines_punish_fac" "routing_no_lines_penalty_fac"
def lineName (get : String → Option Rat) : Rat := lineFactor get "routing_line_unmatched_time_penalty_fac"
def lineFrom (get : String → Option Rat) : Rat := lineFactor get "routing_line_station_from_unmatched_time_penalty"
def lineTo (get : String → Option Rat) : Rat := lineFactor get "routing_line_station_to_unmatched_time_penalty"

/-- MotConfigReader.cpp:602 and 608-622. -/
def speedFac (get : String → Option Rat) : Rat :=
  shrink (shrink (shrink (shrink (shrink 1 (lineName get)) (lineFrom get)) (lineTo get)) (noLines get)) (oneWayPen get)

/-- MotConfigReader.cpp:518-537. -/
def nonStation (get : String → Option Rat) : Rat :=
  penalty get "routing_non_osm_station_punish" "routing_non_station_penalty"

/-- MotConfigReader.cpp:251-255. -/
def snapDist (arr : Option (List Rat)) : Rat :=
  match arr with
  | none => 50
  | some l => l.getLast?.getD 50

/-- The program divides by zero, 293 (85 / f), 350, 473, 502, 508, 525 (by `levelDefSpeed[0]`; 508 is reached in any case without the old
name) or 624 (by `maxSpeedCorFac`). -/
def divZero (get : String → Option Rat) : Bool :=
  (List.range 8).any (fun i => get ("routing_lvl" ++ toString i ++ "_fac") == some 0) || speed get 0 == 0 || speedFac get == 0

/-- How reading a section ends. -/
inductive Result (α : Type)
  /-- an exception -/
  | bad
  /-- a division by zero -/
  | inf
  /-- undefined behaviour -/
  | undefined
  | ok (a : α)
  deriving DecidableEq, Repr

/-- MotConfigReader.cpp:43-624: the configuration of a section; `full` and `restr` are the costs of 344-372 and 336-341, 398. `mots` are
the modes of its name. The `uint8_t` of 104-108 takes the integer modulo 256. -/
def config {V : Type} (lib : Lib V) (mots : List Nat) (s : Sec V) (get : String → Option Rat) (full restr : Nat) : MotConfig :=
  { mots := mots
    osm :=
      { noHup := lib.code (s "osm_filter_nohup")
        keep := lib.code (s "osm_filter_keep")
        levels := (List.range 8).map fun i => lib.code (s ("osm_filter_lvl" ++ toString i))
        drop := lib.code (s "osm_filter_drop")
        oneWay := lib.code (s "osm_filter_oneway")
        oneWayRev := lib.code (s "osm_filter_oneway_reverse")
        twoWay := lib.code (s "osm_filter_undirected")
        station := lib.code (s "osm_filter_station")
        stationBlocker := lib.code (s "osm_filter_station_blocker")
        turnCycle := lib.code (s "osm_filter_turning_circle")
        statNormzer := lib.code (s "station_normalize_chain")
        lineNormzer := lib.code (s "line_normalize_chain")
        trackNormzer := lib.code (s "track_normalize_chain")
        idNormzer := lib.code (s "station_id_normalize_chain")
        relLinerules := lib.lineCode (s "osm_line_relation_tags")
        nameRule := lib.code (s "osm_station_name_attrs")
        platformRule := lib.code (s "osm_track_number_tags")
        idRule := lib.code (s "osm_station_id_attrs")
        edgePlatformRules := lib.code (s "osm_edge_track_number_tags")
        maxSnapLevel := ((((s "osm_max_snap_level").bind lib.int).getD 7) % 256).toNat
        maxAngleSnapReach := orElse get "routing_snap_full_turn_angle" (orElse get "routing_full_turn_angle" 5)
        maxSnapDistance := snapDist ((s "osm_max_snap_distance").bind lib.nums)
        maxStationCandDistance :=
          orElse get "osm_max_station_cand_distance" (snapDist ((s "osm_max_snap_distance").bind lib.nums) * 2)
        maxBlockDistance := orElse get "osm_max_node_block_distance" (orElse get "osm_max_osm_station_distance" 15 / 8)
        maxSpeed := maxLevel get / speedFac get
        maxSpeedCorFac := speedFac get
        maxOsmStationDistances := [orElse get "osm_max_osm_station_distance" 15]
        levelDefSpeed := (List.range 8).map (speed get)
        oneWaySpeedPen := oneWayPen get
        oneWayEntryCost := orElse get "osm_one_way_entry_cost" 0
        noLinesPunishFact := noLines get
        fullTurnAngle := orElse get "routing_full_turn_angle" 5
        restrPos := lib.code (s "osm_node_positive_restriction")
        restrNeg := lib.code (s "osm_node_negative_restriction")
        noRestr := lib.code (s "osm_filter_no_restriction") }
    routing :=
      { fullTurnPunishFac := full
        fullTurnAngle := orElse get "routing_full_turn_angle" 5
        lineUnmatchedPunishFact := lineName get
        lineNameFromUnmatchedPunishFact := lineFrom get
        lineNameToUnmatchedPunishFact := lineTo get
        noLinesPunishFact := noLines get
        platformUnmatchedPen := penalty get "routing_platform_unmatched_punish" "routing_platform_unmatched_penalty"
        stationUnmatchedPen := orElse get "routing_station_unmatched_penalty" (nonStation get / 2)
        stationDistPenFactor := movePenalty get
        nonStationPen := nonStation get
        turnRestrCost := restr
        popReachEdge := true
        noSelfHops := ((s "routing_no_self_hops").bind lib.bool).getD true
        useStations := ((s "routing_use_stations").bind lib.bool).getD true
        transitionPen := orElse get "routing_transition_penalty_fac" defTransPen
        transPenMethod := lib.word "exp" (s "routing_transition_method")
        emPenMethod := lib.word "exp" (s "routing_emission_method")
        statsimiMethod := lib.word "jaccard-geodist" (s "station_similarity_classification_method") } }

/-- MotConfigReader.cpp:43-624: one section. -/
def readSec {V : Type} (lib : Lib V) (mots : List Nat) (s : Sec V) : Result MotConfig :=
  if readable lib s = false then .bad
  else if divZero (num lib s) then .inf
  else match fullTurn (num lib s), turnRestrCost (orElse (num lib s) "osm_one_way_entry_cost" 0) with
  | some full, some restr => .ok (config lib mots s (num lib s) full restr)
  | _, _ => .undefined

/-- MotConfigReader.cpp:43-644: the sections of a file in the order of `getSecs`, and the configurations so far. -/
def readAll {V : Type} (lib : Lib V) : List MotConfig → List (List Nat × Sec V) → Result (List MotConfig)
  | cs, [] => .ok cs
  | cs, (mots, s) :: rest =>
    match readSec lib mots s with
    | .ok c => readAll lib (addSection cs c) rest
    | .bad => .bad
    | .inf => .inf
    | .undefined => .undefined

/-! ### Rules for the names of lines -/

/-- OsmReadOpts.h:76-81, the rules for relations. -/
structure LineRules where
  sName : List Str
  fromName : List Str
  toName : List Str
  color : List Str
  deriving DecidableEq, Repr

/-- MotConfigReader.cpp:231-248. `rules` are the rules of the option, each with the tags of its value (`util::split(…, ',')`). -/
def lineRules (rules : List (Str × List Str)) : LineRules :=
  rules.foldl (fun r x =>
    if x.1 = [102, 114, 111, 109, 95, 110, 97, 109, 101] then { r with fromName := x.2 }
    else if x.1 = [116, 111, 95, 110, 97, 109, 101] then { r with toName := x.2 }
    else if x.1 = [108, 105, 110, 101, 95, 110, 97, 109, 101] then { r with sName := x.2 }
    else if x.1 = [108, 105, 110, 101, 95, 99, 111, 108, 111, 114] then { r with color := x.2 }
    else r)
    ⟨[], [], [], [[99, 111, 108, 111, 117, 114], [99, 111, 108, 111, 114]]⟩

end Verif.Sections
