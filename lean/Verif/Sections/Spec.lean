import Verif.Sections.Model

/-!
# What the options of a section mean (specification of C79)

Nothing here uses the functions of the model; only the types of a section and of a configuration, the list of what `configparser` gives
(`Lib`), and `tenths` (seconds as tenths, limited) of C61 are shared.
-/

namespace Verif.Sections
open Verif.Names (Str)
open Verif.Config

/-- The number behind a name, if the section has it. -/
def given {V : Type} (lib : Lib V) (s : Sec V) (k : String) : Option Rat := (s k).bind lib.num

/-- The value of an option: what is given under its name, else the translation of what is given under the old name, else the default. -/
def Value (get : String → Option Rat) (new old : String) (conv : Rat → Rat) (dflt v : Rat) : Prop :=
  (∃ x, get new = some x ∧ v = x) ∨ (get new = none ∧ ∃ y, get old = some y ∧ v = conv y) ∨
    (get new = none ∧ get old = none ∧ v = dflt)

/-- The value of an option without an old name. -/
def Plain (get : String → Option Rat) (k : String) (dflt v : Rat) : Prop :=
  (∃ x, get k = some x ∧ v = x) ∨ (get k = none ∧ v = dflt)

/-- Default speeds of the levels in km/h. -/
def kmh : List Rat := [85, 70, 55, 40, 30, 20, 10, 5]

/-- Names of the options for the speed of a level, and the old ones. -/
def avgKeys : List String :=
  ["osm_lvl0_avg_speed", "osm_lvl1_avg_speed", "osm_lvl2_avg_speed", "osm_lvl3_avg_speed", "osm_lvl4_avg_speed",
   "osm_lvl5_avg_speed", "osm_lvl6_avg_speed", "osm_lvl7_avg_speed"]
def facKeys : List String :=
  ["routing_lvl0_fac", "routing_lvl1_fac", "routing_lvl2_fac", "routing_lvl3_fac", "routing_lvl4_fac", "routing_lvl5_fac",
   "routing_lvl6_fac", "routing_lvl7_fac"]

/-- The product of a list of factors. -/
def prod : List Rat → Rat
  | [] => 1
  | x :: l => x * prod l

/-- `v` metres per second is the speed of level `i`. -/
def IsSpeed (get : String → Option Rat) (i : Nat) (v : Rat) : Prop :=
  ∃ new old d k : _, avgKeys[i]? = some new ∧ facKeys[i]? = some old ∧ kmh[i]? = some d ∧
    Value get new old (fun f => 85 / f) d k ∧ v = k * (2777 / 10000)

/-- The configuration `c` has the numbers that the section says. -/
structure Means (get : String → Option Rat) (c : MotConfig) : Prop where
  /-- eight levels, each with its speed -/
  levels : c.osm.levelDefSpeed.length = 8
  speeds : ∀ (i : Nat) (v : Rat), c.osm.levelDefSpeed[i]? = some v → IsSpeed get i v
  /-- factors -/
  oneWay : Value get "osm_one_way_speed_penalty_fac" "routing_one_way_meter_punish_fac" (fun x => 1 + x) 1 c.osm.oneWaySpeedPen
  noLines : Value get "routing_no_lines_penalty_fac" "routing_no_lines_punish_fac" (fun x => 1 + x) 1 c.routing.noLinesPunishFact
  /-- the graph builder and the router use the same -/
  noLinesToo : c.osm.noLinesPunishFact = c.routing.noLinesPunishFact
  lineName : Value get "routing_line_unmatched_time_penalty_fac" "routing_line_unmatched_punish_fac" (fun x => 1 + x / 3) 1
    c.routing.lineUnmatchedPunishFact
  lineFrom : Value get "routing_line_station_from_unmatched_time_penalty" "routing_line_unmatched_punish_fac"
    (fun x => 1 + x / 3) 1 c.routing.lineNameFromUnmatchedPunishFact
  lineTo : Value get "routing_line_station_to_unmatched_time_penalty" "routing_line_unmatched_punish_fac"
    (fun x => 1 + x / 3) 1 c.routing.lineNameToUnmatchedPunishFact
  /-- penalties; the old ones are divided by the speed of level 0 -/
  platform : ∃ v0, IsSpeed get 0 v0 ∧ Value get "routing_platform_unmatched_penalty" "routing_platform_unmatched_punish"
    (fun x => x * (83 / 10000 / v0)) 0 c.routing.platformUnmatchedPen
  nonStation : ∃ v0, IsSpeed get 0 v0 ∧ Value get "routing_non_station_penalty" "routing_non_osm_station_punish"
    (fun x => x * (83 / 10000 / v0)) 0 c.routing.nonStationPen
  move : ∃ v0, IsSpeed get 0 v0 ∧ Value get "routing_station_move_penalty_fac" "routing_station_distance_punish_fac"
    (fun x => x * (83 / 10000 / v0)) 0 c.routing.stationDistPenFactor
  station : Plain get "routing_station_unmatched_penalty" (c.routing.nonStationPen / 2) c.routing.stationUnmatchedPen
  transition : Plain get "routing_transition_penalty_fac" (83 / 10000) c.routing.transitionPen
  /-- a full turn, in tenths of a second; 100 seconds by default -/
  fullTurn : ∃ v0 p, IsSpeed get 0 v0 ∧ Value get "routing_full_turn_penalty" "routing_full_turn_punish" (fun x => x / v0) 100 p ∧
    c.routing.fullTurnPunishFac = tenths p
  /-- the cost of a forbidden turn (C61: ten times the one of entering a one-way edge) -/
  entry : Plain get "osm_one_way_entry_cost" 0 c.osm.oneWayEntryCost
  restr : c.routing.turnRestrCost = tenths c.osm.oneWayEntryCost * 10
  /-- angles -/
  angle : Plain get "routing_full_turn_angle" 5 c.routing.fullTurnAngle
  angleToo : c.osm.fullTurnAngle = c.routing.fullTurnAngle
  snapAngle : Plain get "routing_snap_full_turn_angle" c.routing.fullTurnAngle c.osm.maxAngleSnapReach
  /-- distances -/
  cand : Plain get "osm_max_station_cand_distance" (2 * c.osm.maxSnapDistance) c.osm.maxStationCandDistance
  osmStation : ∃ d, c.osm.maxOsmStationDistances = [d] ∧ Plain get "osm_max_osm_station_distance" 15 d ∧
    Plain get "osm_max_node_block_distance" (d / 8) c.osm.maxBlockDistance
  /-- no level is faster than the greatest speed, whatever factors apply -/
  fastest : ∀ v ∈ c.osm.levelDefSpeed, ∀ fs : List Rat,
    fs.Sublist [c.routing.lineUnmatchedPunishFact, c.routing.lineNameFromUnmatchedPunishFact,
      c.routing.lineNameToUnmatchedPunishFact, c.routing.noLinesPunishFact, c.osm.oneWaySpeedPen] → v ≤ c.osm.maxSpeed * prod fs
  /-- and the greatest speed is that of some level with some factors -/
  reached : ∃ v ∈ c.osm.levelDefSpeed, ∃ fs : List Rat,
    fs.Sublist [c.routing.lineUnmatchedPunishFact, c.routing.lineNameFromUnmatchedPunishFact,
      c.routing.lineNameToUnmatchedPunishFact, c.routing.noLinesPunishFact, c.osm.oneWaySpeedPen] ∧ v = c.osm.maxSpeed * prod fs

/-- The options that are not single numbers. -/
structure Rest {V : Type} (lib : Lib V) (s : Sec V) (c : MotConfig) : Prop where
  /-- the last of the given distances, else 50 metres -/
  snap : (∃ v l d, s "osm_max_snap_distance" = some v ∧ lib.nums v = some (l ++ [d]) ∧ c.osm.maxSnapDistance = d) ∨
    ((∃ v, s "osm_max_snap_distance" = some v ∧ lib.nums v = some []) ∧ c.osm.maxSnapDistance = 50) ∨
    (s "osm_max_snap_distance" = none ∧ c.osm.maxSnapDistance = 50)
  /-- the level, if it is one (0 to 255) -/
  level : (∃ v i, s "osm_max_snap_level" = some v ∧ lib.int v = some i ∧
      (0 ≤ i → i < 256 → (c.osm.maxSnapLevel : Int) = i)) ∨ (s "osm_max_snap_level" = none ∧ c.osm.maxSnapLevel = 7)
  selfHops : (∃ v, s "routing_no_self_hops" = some v ∧ lib.bool v = some c.routing.noSelfHops) ∨
    (s "routing_no_self_hops" = none ∧ c.routing.noSelfHops = true)
  stations : (∃ v, s "routing_use_stations" = some v ∧ lib.bool v = some c.routing.useStations) ∨
    (s "routing_use_stations" = none ∧ c.routing.useStations = true)
  transMethod : c.routing.transPenMethod = lib.word "exp" (s "routing_transition_method")
  emMethod : c.routing.emPenMethod = lib.word "exp" (s "routing_emission_method")
  simiMethod : c.routing.statsimiMethod = lib.word "jaccard-geodist" (s "station_similarity_classification_method")
  /-- filters, in the order keep, drop, no-hup, one-way, reverse one-way, undirected, station, blocker, turning circle -/
  filters : [c.osm.keep, c.osm.drop, c.osm.noHup, c.osm.oneWay, c.osm.oneWayRev, c.osm.twoWay, c.osm.station, c.osm.stationBlocker,
      c.osm.turnCycle] =
    ["osm_filter_keep", "osm_filter_drop", "osm_filter_nohup", "osm_filter_oneway", "osm_filter_oneway_reverse",
      "osm_filter_undirected", "osm_filter_station", "osm_filter_station_blocker", "osm_filter_turning_circle"].map
        (fun k => lib.code (s k))
  levelFilters : c.osm.levels =
    ["osm_filter_lvl0", "osm_filter_lvl1", "osm_filter_lvl2", "osm_filter_lvl3", "osm_filter_lvl4", "osm_filter_lvl5",
      "osm_filter_lvl6", "osm_filter_lvl7"].map (fun k => lib.code (s k))
  /-- turn rules, attributes of stations and edges, normalisers -/
  rules : [c.osm.restrPos, c.osm.restrNeg, c.osm.noRestr, c.osm.nameRule, c.osm.platformRule, c.osm.idRule, c.osm.edgePlatformRules,
      c.osm.statNormzer, c.osm.trackNormzer, c.osm.lineNormzer, c.osm.idNormzer] =
    ["osm_node_positive_restriction", "osm_node_negative_restriction", "osm_filter_no_restriction", "osm_station_name_attrs",
      "osm_track_number_tags", "osm_station_id_attrs", "osm_edge_track_number_tags", "station_normalize_chain",
      "track_normalize_chain", "line_normalize_chain", "station_id_normalize_chain"].map (fun k => lib.code (s k))
  lines : c.osm.relLinerules = lib.lineCode (s "osm_line_relation_tags")

/-- The old options, each with a new one and its translation, as the messages of the program say (for
`routing_line_unmatched_punish_fac` as the warning says). `v0` is the speed of level 0. -/
inductive Conv
  /-- a factor to the default speed -/
  | speed
  /-- an additional part -/
  | more
  /-- a third of an additional part -/
  | third
  /-- divided by the speed -/
  | turn
  /-- metres to penalties -/
  | metres

def Conv.app (v0 : Rat) : Conv → Rat → Rat
  | .speed, f => 85 / f
  | .more, x => 1 + x
  | .third, x => 1 + x / 3
  | .turn, x => x / v0
  | .metres, x => x * (83 / 10000 / v0)

/-- (new, old, translation) -/
def table : List (String × String × Conv) :=
  [("osm_lvl0_avg_speed", "routing_lvl0_fac", .speed), ("osm_lvl1_avg_speed", "routing_lvl1_fac", .speed),
   ("osm_lvl2_avg_speed", "routing_lvl2_fac", .speed), ("osm_lvl3_avg_speed", "routing_lvl3_fac", .speed),
   ("osm_lvl4_avg_speed", "routing_lvl4_fac", .speed), ("osm_lvl5_avg_speed", "routing_lvl5_fac", .speed),
   ("osm_lvl6_avg_speed", "routing_lvl6_fac", .speed), ("osm_lvl7_avg_speed", "routing_lvl7_fac", .speed),
   ("osm_one_way_speed_penalty_fac", "routing_one_way_meter_punish_fac", .more),
   ("routing_full_turn_penalty", "routing_full_turn_punish", .turn),
   ("routing_no_lines_penalty_fac", "routing_no_lines_punish_fac", .more),
   ("routing_line_unmatched_time_penalty_fac", "routing_line_unmatched_punish_fac", .third),
   ("routing_line_station_from_unmatched_time_penalty", "routing_line_unmatched_punish_fac", .third),
   ("routing_line_station_to_unmatched_time_penalty", "routing_line_unmatched_punish_fac", .third),
   ("routing_platform_unmatched_penalty", "routing_platform_unmatched_punish", .metres),
   ("routing_station_move_penalty_fac", "routing_station_distance_punish_fac", .metres),
   ("routing_non_station_penalty", "routing_non_osm_station_punish", .metres)]

/-- The old name of an option and its translation. -/
def oldOf (k : String) : Option (String × Conv) := (table.find? fun r => r.1 == k).map (·.2)

/-- A name that is deprecated. -/
def isOld (k : String) : Bool := table.any fun r => r.2.1 == k

/-- The section with new names only: every old option is replaced as the program says, unless the new one is there. -/
def modern {V : Type} (lib : Lib V) (write : Rat → V) (v0 : Rat) (s : Sec V) : Sec V := fun k =>
  if isOld k then none
  else match s k with
  | some v => some v
  | none =>
    match oldOf k with
    | none => none
    | some (old, c) => (given lib s old).map fun x => write (c.app v0 x)

/-- All names the reader knows. -/
def known : List String :=
  avgKeys ++ facKeys ++ table.map (·.1) ++ table.map (·.2.1) ++
  ["osm_one_way_entry_cost", "routing_full_turn_angle", "routing_snap_full_turn_angle", "routing_station_unmatched_penalty",
   "routing_transition_penalty_fac", "osm_max_station_cand_distance", "osm_max_osm_station_distance",
   "osm_max_node_block_distance", "osm_max_snap_distance", "osm_max_snap_level", "routing_use_stations", "routing_no_self_hops",
   "routing_transition_method", "routing_emission_method", "station_similarity_classification_method",
   "station_normalize_chain", "track_normalize_chain", "line_normalize_chain", "station_id_normalize_chain",
   "osm_filter_keep", "osm_filter_drop", "osm_filter_nohup", "osm_filter_oneway", "osm_filter_oneway_reverse",
   "osm_filter_undirected", "osm_filter_station", "osm_filter_station_blocker", "osm_filter_turning_circle",
   "osm_filter_no_restriction", "osm_node_positive_restriction", "osm_node_negative_restriction", "osm_station_name_attrs",
   "osm_track_number_tags", "osm_station_id_attrs", "osm_edge_track_number_tags", "osm_line_relation_tags",
   "osm_filter_lvl0", "osm_filter_lvl1", "osm_filter_lvl2", "osm_filter_lvl3", "osm_filter_lvl4", "osm_filter_lvl5",
   "osm_filter_lvl6", "osm_filter_lvl7"]

/-- Defaults that can be written down. -/
def defaults : List (String × Rat) :=
  [("osm_lvl0_avg_speed", 85), ("osm_lvl1_avg_speed", 70), ("osm_lvl2_avg_speed", 55), ("osm_lvl3_avg_speed", 40),
   ("osm_lvl4_avg_speed", 30), ("osm_lvl5_avg_speed", 20), ("osm_lvl6_avg_speed", 10), ("osm_lvl7_avg_speed", 5),
   ("osm_one_way_speed_penalty_fac", 1), ("osm_one_way_entry_cost", 0), ("routing_full_turn_penalty", 100),
   ("routing_full_turn_angle", 5), ("routing_no_lines_penalty_fac", 1), ("routing_line_unmatched_time_penalty_fac", 1),
   ("routing_line_station_from_unmatched_time_penalty", 1), ("routing_line_station_to_unmatched_time_penalty", 1),
   ("routing_platform_unmatched_penalty", 0), ("routing_transition_penalty_fac", 83 / 10000),
   ("routing_station_move_penalty_fac", 0), ("routing_non_station_penalty", 0), ("osm_max_osm_station_distance", 15)]

/-- The old name of an option is there. -/
def hasOld {V : Type} (s : Sec V) (k : String) : Bool :=
  match oldOf k with
  | none => false
  | some r => (s r.1).isSome

/-- The section with the defaults written down where neither the option nor its old name is there. -/
def explicit {V : Type} (write : Rat → V) (s : Sec V) : Sec V := fun k =>
  match s k with
  | some v => some v
  | none =>
    match defaults.lookup k with
    | none => none
    | some d => if hasOld s k then none else some (write d)

/-- The last rule for a name. -/
def lastRule (rules : List (Str × List Str)) (name : Str) (dflt : List Str) : List Str :=
  match (rules.filter fun r => r.1 == name).getLast? with
  | none => dflt
  | some r => r.2

end Verif.Sections
