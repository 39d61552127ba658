import Verif.Base.FMap
import Verif.Names.Model

/-!
# OSM filter rules (model)

Model of `src/pfaedle/osm/OsmFilter.cpp`, the rule part of `OsmReadOpts` (OsmReadOpts.h:100-147),
`MotConfigReader::getFlags` (config/MotConfigReader.cpp:676-703) and
`OsmBuilder::getKeptAttrKeys` (osm/OsmBuilder.cpp:1444-1548). Strings are lists of character
codes. An attribute map (`unordered_map`) is a list of pairs in the order of the iteration, which
is arbitrary.
-/

namespace Verif.Osm
open Verif.Names (Str)

abbrev Attrs := List (Str × Str)
/-- OsmReadOpts.h:32-33: key, then value, then flags. -/
abbrev Rules := FMap Str (FMap Str Nat)

def star : Str := [42]
def semi : Str := [59]
def blank : Str := [32]

/-- `a.find(b) != npos`. -/
def occurs (b : Str) : Str → Bool
  | [] => b.isEmpty
  | x :: a => b.isPrefixOf (x :: a) || occurs b a

/-- OsmFilter.cpp:131-143. -/
def valMatches (a b : Str) (m : Bool) : Bool :=
  if b = star then true
  else if m && (occurs (semi ++ b) a || occurs (b ++ semi) a || occurs (semi ++ blank ++ b) a ||
      occurs (b ++ blank ++ semi) a) then true
  else a == b

/-! OsmReadOpts.h:46-53, OsmFilter.h:18. -/
def USE : Nat := 1
def REL_NO_DOWN : Nat := 2
def MULT : Nat := 32
def REL : Nat := 4
def WAY : Nat := 8
def NODE : Nat := 16
def ALL : Nat := 0

/-- OsmFilter.cpp:87-91: the rules of one key. -/
def findVal (t : Nat) (v : Str) : FMap Str Nat → Option Nat
  | [] => none
  | r :: rs =>
    if r.2 &&& t ≠ 0 then findVal t v rs
    else if valMatches v r.1 (r.2 &&& MULT != 0) then some r.2
    else findVal t v rs

/-- OsmFilter.cpp:82-97. -/
def contained (rules : Rules) (t : Nat) : Attrs → Nat
  | [] => 0
  | kv :: attrs =>
    match rules.get kv.1 with
    | none => contained rules t attrs
    | some vals =>
      match findVal t kv.2 vals with
      | some f => f
      | none => contained rules t attrs

/-- OsmFilter.cpp:100-106. -/
def containedAttr (attr : Str × Str) : Attrs → Bool
  | [] => false
  | kv :: attrs => if kv.1 = attr.1 then valMatches kv.2 attr.2 false else containedAttr attr attrs

/-- The rules of a configuration, OsmReadOpts.h:103-112, 143-146. -/
structure Opts where
  keep : Rules
  drop : Rules
  nohup : Rules
  oneway : Rules
  onewayrev : Rules
  twoway : Rules
  station : Rules
  blocker : Rules
  turnCycle : Rules
  posRestr : Rules
  negRestr : Rules
  noRestr : Rules
  levels : Nat → Rules
  /-- attribute, key of the relation rule (empty: none), OsmReadOpts.h:67-70; the name, platform
  and id rules of stations -/
  statRules : List (Str × Str)
  /-- `edgePlatformRules` -/
  edgeRules : List (Str × Str)
  /-- `relLinerules`: all four lists -/
  lineRules : List Str

/-! Decisions, OsmFilter.cpp:33-79, 236-245; the numbers are used as truth values. -/
def fKeep (o : Opts) (a : Attrs) (t : Nat) : Nat := contained o.keep t a
def fDrop (o : Opts) (a : Attrs) (t : Nat) : Nat := contained o.drop t a
def fOneway (o : Opts) (a : Attrs) : Nat := if contained o.twoway WAY a ≠ 0 then 0 else contained o.oneway WAY a
def fOnewayrev (o : Opts) (a : Attrs) : Nat := if contained o.twoway WAY a ≠ 0 then 0 else contained o.onewayrev WAY a
def fStation (o : Opts) (a : Attrs) : Nat := contained o.station NODE a
def fBlocker (o : Opts) (a : Attrs) : Nat := contained o.blocker NODE a
def fTurnCycle (o : Opts) (a : Attrs) : Nat := contained o.turnCycle NODE a
def fNegRestr (o : Opts) (a : Attrs) : Nat := if contained o.noRestr ALL a ≠ 0 then 0 else contained o.negRestr ALL a
def fPosRestr (o : Opts) (a : Attrs) : Nat := if contained o.noRestr ALL a ≠ 0 then 0 else contained o.posRestr ALL a

/-- OsmFilter.cpp:43-52. -/
def fNohup (o : Opts) (k v : Str) : Bool :=
  match o.nohup.get k with
  | none => false
  | some vals => vals.any fun r => valMatches v r.1 false

/-- OsmFilter.cpp:112-119: does a rule of this level match? -/
def levelHit (rules : Rules) : Attrs → Bool
  | [] => false
  | kv :: attrs =>
    match rules.get kv.1 with
    | none => levelHit rules attrs
    | some vals => if vals.any fun r => valMatches kv.2 r.1 false then true else levelHit rules attrs

/-- OsmFilter.cpp:109-123. -/
def fLevel (o : Opts) (a : Attrs) : Nat :=
  ((List.range 8).find? fun i => levelHit (o.levels i) a).getD 0

/-- `keep[kv.first].insert(kv.second.begin(), kv.second.end())`, OsmFilter.cpp:193, 197:
existing entries are not replaced. -/
def insertVals (m add : FMap Str Nat) : FMap Str Nat :=
  add.foldl (fun m r => match m.get r.1 with | some _ => m | none => m.put r.1 r.2) m

/-- OsmFilter.cpp:188-201; the result has no drop rules. -/
def merge (a b : Rules) : Rules :=
  let add (m : Rules) (kv : Str × FMap Str Nat) : Rules :=
    m.put kv.1 (insertVals ((m.get kv.1).getD []) kv.2)
  b.foldl add (a.foldl add [])

/-- OsmBuilder.cpp:391-397. -/
def mergeAll (os : List Opts) : Rules := os.foldl (fun f o => merge f o.keep) []

/-- config/MotConfigReader.cpp:676-703. The flags are numbered: 0 `rel_flat`, 1 `no_match_nds`,
2 `no_match_rels`, 3 `no_match_ways`, 4 `mult_val_match`; others are ignored. -/
def getFlags (flags : List Nat) : Nat :=
  flags.foldl (fun r f =>
    if f = 0 then r ||| REL_NO_DOWN else if f = 1 then r ||| NODE else if f = 2 then r ||| REL
    else if f = 3 then r ||| WAY else if f = 4 then r ||| MULT else r) USE

/-! ### kept keys -/

/-- `"from"`, `"via"`, `"to"`, `"type"` -/
def sFrom : Str := [102, 114, 111, 109]
def sVia : Str := [118, 105, 97]
def sTo : Str := [116, 111]
def sType : Str := [116, 121, 112, 101]

/-- OsmBuilder.cpp:1444-1548, keys kept for nodes (`sets[0]`). -/
def keptNode (o : Opts) : List Str :=
  o.keep.keys ++ o.drop.keys ++ o.nohup.keys ++ o.station.keys ++ o.blocker.keys ++ o.turnCycle.keys ++
  (o.statRules.filter fun r => r.2.isEmpty).map (·.1)

/-- Keys kept for ways (`sets[1]`); only the levels 0 to 6 (1484). -/
def keptWay (o : Opts) : List Str :=
  o.keep.keys ++ o.drop.keys ++ o.oneway.keys ++ o.onewayrev.keys ++ o.twoway.keys ++
  (List.range 7).flatMap (fun j => (o.levels j).keys) ++
  (o.edgeRules.filter fun r => r.2.isEmpty).map (·.1)

/-- Keys kept for relations (`sets[2]`). -/
def keptRel (o : Opts) : List Str :=
  o.keep.keys ++ o.drop.keys ++ o.station.keys ++ o.posRestr.keys ++ o.negRestr.keys ++ o.noRestr.keys ++
  [sFrom, sVia, sTo] ++ o.lineRules ++
  ((o.statRules ++ o.edgeRules).filter fun r => !r.2.isEmpty).flatMap fun r => [r.2, r.1]

/-- OsmBuilder.cpp:592-593, 641-642, 788-789, 939-940: only attributes with a kept key are stored. -/
def restrict (keys : List Str) (a : Attrs) : Attrs := a.filter fun kv => keys.contains kv.1

/-- OsmBuilder.cpp:986-992: what kind of turn rule a relation is (positive, negative). -/
def restrKind (o : Opts) (a : Attrs) : Bool × Bool :=
  match FMap.get a sType with
  | some v => if v = [114, 101, 115, 116, 114, 105, 99, 116, 105, 111, 110]
      then (fPosRestr o a != 0, fNegRestr o a != 0) else (false, false)
  | none => (false, false)

end Verif.Osm
