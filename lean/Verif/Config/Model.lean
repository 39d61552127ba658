import Verif.Names.Model
/-!
# Configuration files (model)

Model of `getKv`, `getFRule`, `getFlags`, `getNormRules`, `getDeepAttrRule` and the joining of sections of
`src/pfaedle/config/MotConfigReader.cpp`, and of the comparisons of options `src/pfaedle/osm/OsmReadOpts.h:150-198`,
`src/pfaedle/router/Misc.h:70-90` and `src/pfaedle/config/MotConfig.h:23-25`. Strings are lists of character codes. Parsing of files
(`configparser`), `util::split` and `util::trim` are libraries: a rule comes as its parts.
-/

namespace Verif.Config
open Verif.Names (Str)

/-! ### Rules -/

/-- `kv.find('=')` -/
def findEq : Str → Option Nat
  | [] => none
  | c :: s => if c = 61 then some 0 else (findEq s).map (· + 1)

/-- MotConfigReader.cpp:718-728. -/
def getKv (kv : Str) : Str × Str :=
  match findEq kv with
  | none => (kv, [])
  | some p => (kv.take p, kv.drop (p + 1))

/-- The names of the flags, MotConfigReader.cpp:680-699. -/
def sRelFlat : Str := [114, 101, 108, 95, 102, 108, 97, 116]
def sNoNds : Str := [110, 111, 95, 109, 97, 116, 99, 104, 95, 110, 100, 115]
def sNoRels : Str := [110, 111, 95, 109, 97, 116, 99, 104, 95, 114, 101, 108, 115]
def sNoWays : Str := [110, 111, 95, 109, 97, 116, 99, 104, 95, 119, 97, 121, 115]
def sMult : Str := [109, 117, 108, 116, 95, 118, 97, 108, 95, 109, 97, 116, 99, 104]

/-- MotConfigReader.cpp:676-703, with the constants of OsmReadOpts.h:46-53; the set is a list in any order. -/
def getFlags (flags : List Str) : Nat :=
  flags.foldl (fun r f =>
    if f = sRelFlat then r ||| 2 else if f = sNoNds then r ||| 16 else if f = sNoRels then r ||| 4
    else if f = sNoWays then r ||| 8 else if f = sMult then r ||| 32 else r) 1

/-- A filter: key, value and flags; the entries in the order of insertion. -/
abbrev Filter := List ((Str × Str) × Nat)

/-- `filter[key].insert({value, flags})` of `std::map`, e.g. MotConfigReader.cpp:79-81: an entry that exists is kept. -/
def insertRule (m : Filter) (kv : Str × Str) (flags : Nat) : Filter :=
  if m.any (fun e => e.1 = kv) then m else m ++ [(kv, flags)]

/-- A filter option, e.g. MotConfigReader.cpp:77-83. A rule is a list of parts: `getFRule`, 706-715; without parts (no rule), undefined
behaviour is not modelled. -/
def getFilter (rules : List (Str × List Str)) : Filter :=
  rules.foldl (fun m r => insertRule m (getKv r.1) (getFlags r.2)) []

/-! ### Normalisation rules -/

/-- `a.find(" -> ")` -/
def findArrow : Str → Option Nat
  | [] => none
  | c :: s => if (c :: s).take 4 = [32, 45, 62, 32] then some 0 else (findArrow s).map (· + 1)

/-- MotConfigReader.cpp:659-667. -/
def unquote (s : Str) : Str :=
  if s.length > 1 && s.head? == some 39 && s.getLast? == some 39 then (s.drop 1).take (s.length - 2) else s

/-- MotConfigReader.cpp:647-673. -/
def getNormRules (arr : List Str) : List (Str × Str) :=
  arr.filterMap fun a => (findArrow a).map fun p => (unquote (a.take p), unquote (a.drop (p + 4)))

/-! ### Joining sections -/

/-- OsmReadOpts.h:100-147. Options compared with `==` are numbers (equal iff the options are), distances and factors are
rationals. -/
structure OsmOpts where
  noHup : Nat
  keep : Nat
  levels : List Nat
  drop : Nat
  oneWay : Nat
  oneWayRev : Nat
  twoWay : Nat
  station : Nat
  stationBlocker : Nat
  turnCycle : Nat
  statNormzer : Nat
  lineNormzer : Nat
  trackNormzer : Nat
  idNormzer : Nat
  relLinerules : Nat
  nameRule : Nat
  platformRule : Nat
  idRule : Nat
  edgePlatformRules : Nat
  maxSnapLevel : Nat
  maxAngleSnapReach : Rat
  maxSnapDistance : Rat
  maxStationCandDistance : Rat
  maxBlockDistance : Rat
  maxSpeed : Rat
  maxSpeedCorFac : Rat
  maxOsmStationDistances : List Rat
  levelDefSpeed : List Rat
  oneWaySpeedPen : Rat
  oneWayEntryCost : Rat
  noLinesPunishFact : Rat
  fullTurnAngle : Rat
  restrPos : Nat
  restrNeg : Nat
  noRestr : Nat
  deriving DecidableEq, Repr

/-- router/Misc.h:50-67. -/
structure RoutingOpts where
  fullTurnPunishFac : Nat
  fullTurnAngle : Rat
  lineUnmatchedPunishFact : Rat
  lineNameFromUnmatchedPunishFact : Rat
  lineNameToUnmatchedPunishFact : Rat
  noLinesPunishFact : Rat
  platformUnmatchedPen : Rat
  stationUnmatchedPen : Rat
  stationDistPenFactor : Rat
  nonStationPen : Rat
  turnRestrCost : Nat
  popReachEdge : Bool
  noSelfHops : Bool
  useStations : Bool
  transitionPen : Rat
  transPenMethod : Nat
  emPenMethod : Nat
  statsimiMethod : Nat
  deriving DecidableEq, Repr

/-- `fabs(a - b) < eps` -/
def near (eps a b : Rat) : Bool := decide (a - b < eps) && decide (b - a < eps)

/-- Two lists, compared at the first `n` places. -/
def nearN (eps : Rat) : Nat → List Rat → List Rat → Bool
  | 0, _, _ => true
  | n + 1, a :: as, b :: bs => near eps a b && nearN eps n as bs
  | _ + 1, _, _ => false

/-- OsmReadOpts.h:94-96. -/
def eqStat (a b : OsmOpts) : Bool := a.nameRule == b.nameRule && a.platformRule == b.platformRule

/-- OsmReadOpts.h:150-198. Seven of the eight level filters are compared, 161-167. -/
def eqOsm (a b : OsmOpts) : Bool :=
  a.maxOsmStationDistances.length == b.maxOsmStationDistances.length &&
  nearN (1 / 10) a.maxOsmStationDistances.length a.maxOsmStationDistances b.maxOsmStationDistances &&
  a.noHup == b.noHup && a.keep == b.keep && a.levels.take 7 == b.levels.take 7 && a.drop == b.drop && a.oneWay == b.oneWay &&
  a.oneWayRev == b.oneWayRev && a.twoWay == b.twoWay && a.station == b.station && a.stationBlocker == b.stationBlocker &&
  a.turnCycle == b.turnCycle && a.statNormzer == b.statNormzer && a.lineNormzer == b.lineNormzer &&
  a.trackNormzer == b.trackNormzer && a.relLinerules == b.relLinerules && eqStat a b && a.maxSnapLevel == b.maxSnapLevel &&
  near (1 / 10) a.maxAngleSnapReach b.maxAngleSnapReach && near (1 / 10) a.maxSnapDistance b.maxSnapDistance &&
  near (1 / 10) a.maxStationCandDistance b.maxStationCandDistance && near (1 / 10) a.maxBlockDistance b.maxBlockDistance &&
  nearN (1 / 10) 8 a.levelDefSpeed b.levelDefSpeed && near (1 / 10) a.oneWaySpeedPen b.oneWaySpeedPen &&
  near (1 / 10) a.oneWayEntryCost b.oneWayEntryCost && near (1 / 10) a.noLinesPunishFact b.noLinesPunishFact &&
  near (1 / 10) a.fullTurnAngle b.fullTurnAngle && near (1 / 10) a.maxSpeedCorFac b.maxSpeedCorFac &&
  near (1 / 10) a.maxSpeed b.maxSpeed && a.restrPos == b.restrPos && a.restrNeg == b.restrNeg && a.noRestr == b.noRestr

/-- router/Misc.h:70-90. -/
def eqRouting (a b : RoutingOpts) : Bool :=
  a.fullTurnPunishFac == b.fullTurnPunishFac && near (1 / 100) a.fullTurnAngle b.fullTurnAngle &&
  near (1 / 100) a.lineUnmatchedPunishFact b.lineUnmatchedPunishFact &&
  near (1 / 100) a.lineNameFromUnmatchedPunishFact b.lineNameFromUnmatchedPunishFact &&
  near (1 / 100) a.lineNameToUnmatchedPunishFact b.lineNameToUnmatchedPunishFact &&
  near (1 / 100) a.noLinesPunishFact b.noLinesPunishFact && near (1 / 100) a.platformUnmatchedPen b.platformUnmatchedPen &&
  near (1 / 100) a.stationUnmatchedPen b.stationUnmatchedPen && near (1 / 100) a.stationDistPenFactor b.stationDistPenFactor &&
  a.turnRestrCost == b.turnRestrCost && near (1 / 100) a.transitionPen b.transitionPen &&
  near (1 / 100) a.nonStationPen b.nonStationPen && a.transPenMethod == b.transPenMethod && a.emPenMethod == b.emPenMethod &&
  a.statsimiMethod == b.statsimiMethod && a.useStations == b.useStations && a.popReachEdge == b.popReachEdge &&
  a.noSelfHops == b.noSelfHops

/-- A section, or a joined configuration. -/
structure MotConfig where
  mots : List Nat
  osm : OsmOpts
  routing : RoutingOpts
  deriving DecidableEq, Repr

/-- config/MotConfig.h:23-25. -/
def eqCfg (a b : MotConfig) : Bool := eqOsm a.osm b.osm && eqRouting a.routing b.routing

/-- `std::set::insert` -/
def insertAll (s : List Nat) : List Nat → List Nat
  | [] => s
  | m :: ms => insertAll (if s.contains m then s else s ++ [m]) ms

/-- MotConfigReader.cpp:628-642: one section. -/
def addSection : List MotConfig → MotConfig → List MotConfig
  | [], c => [{ c with mots := insertAll [] c.mots }]
  | e :: es, c => if eqCfg c e then { e with mots := insertAll e.mots c.mots } :: es else e :: addSection es c

/-- All sections. -/
def join (secs : List MotConfig) : List MotConfig := secs.foldl addSection []

end Verif.Config
