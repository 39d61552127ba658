/-!
# The main program (model)

Model of `main`, `src/pfaedle/PfaedleMain.cpp:92-446`, as a decision sequence: the return code and the
steps with an effect that were started, in order. What the single steps do is modelled elsewhere; here they succeed
or fail. The options have been read (`ConfigReader::read`, modelled in `Verif.Options`, may end the program itself, with 0 after
`-h` and `-v` and with 1 for unknown options; this is not part of the model). The statistics and debug output files are left out here: see `Verif.Report` (C92).
-/

namespace Verif.Main

/-- PfaedleMain.cpp:73-84. -/
inductive Code where
  | success | noInputFeed | multFeeds | tripNotFound | gtfsParse | noOsm | motCfgParse | osmParse | gtfsWrite | noMotCfg
  /-- `exit(1)`, 309 and 332 -/
  | one
  deriving DecidableEq, Repr

/-- The number passed to `exit`. -/
def Code.num : Code → Nat
  | .success => 0
  | .noInputFeed => 1
  | .multFeeds => 2
  | .tripNotFound => 3
  | .gtfsParse => 4
  | .noOsm => 5
  | .motCfgParse => 6
  | .osmParse => 7
  | .gtfsWrite => 8
  | .noMotCfg => 9
  | .one => 1

/-- What `main` uses of a routing configuration. `noStops`: no stop is to be matched (283, the OSM data is not read);
`osmOk`: the OSM data can be read with it. -/
structure MotCfg where
  mots : List Nat
  noStops : Bool
  osmOk : Bool
  simiKnown : Bool
  methodKnown : Bool
  deriving DecidableEq, Repr

/-- Options, and which of the steps succeed. -/
structure In where
  /-- the routing configurations; `none`: cannot be parsed -/
  cfgs : Option (List MotCfg)
  mots : List Nat
  /-- the feeds given; is it readable? -/
  feeds : List Bool
  osmPath : Bool
  writeOsm : Bool
  writeOverpass : Bool
  writeOsmfilter : Bool
  /-- `-T` was given -/
  tripGiven : Bool
  /-- mode of the trip with this id in the first feed, if there is one -/
  trip : Option Nat
  /-- reading the OSM data in `filterWrite` -/
  filterOk : Bool
  outputOk : Bool
  deriving DecidableEq, Repr

/-- Steps. -/
inductive Eff where
  | readFeed (i : Nat)
  | filterOsm
  | overpass
  | osmfilter
  /-- reading OSM data with configuration `i` -/
  | readOsm (i : Nat)
  /-- matching all trips with configuration `i` -/
  | shapeify (i : Nat)
  /-- matching the single trip and writing `path.json` -/
  | shapeTrip (i : Nat)
  | output
  deriving DecidableEq, Repr

abbrev Out := Code × List Eff

/-- `motISect(..).size()`, `src/pfaedle/router/Misc.h:117-123`. -/
def motISect (a b : List Nat) : List Nat := a.filter (fun m => b.contains m)

/-- PfaedleMain.cpp:150-162. -/
def readFeeds : List Bool → Nat → List Eff → Out ⊕ List Eff
  | [], _, es => .inr es
  | ok :: fs, i, es => if ok then readFeeds fs (i + 1) (es ++ [.readFeed i]) else .inl (.gtfsParse, es ++ [.readFeed i])

/-- PfaedleMain.cpp:256-386, and the rest (388-446, `output`). -/
def cfgLoop (x : In) (singleTrip : Option Nat) : List MotCfg → Nat → List Eff → Out
  | [], _, es => if x.outputOk then (.success, es ++ [.output]) else (.gtfsWrite, es ++ [.output])
  | c :: cs, i, es =>
    let used := motISect c.mots x.mots
    if used.isEmpty then cfgLoop x singleTrip cs (i + 1) es
    else
      let skip := match singleTrip with
        | some m => !used.contains m
        | none => false
      if skip then cfgLoop x singleTrip cs (i + 1) es
      else
        let es := if c.noStops then es else es ++ [.readOsm i]
        if !c.noStops && !c.osmOk then (.osmParse, es)
        else if !c.simiKnown then (.one, es)
        else if !c.methodKnown then (.one, es)
        else
          match singleTrip with
          | some _ => (.success, es ++ [.shapeTrip i])
          | none => cfgLoop x singleTrip cs (i + 1) (es ++ [.shapeify i])

/-- PfaedleMain.cpp:174-446, after the feeds have been read. -/
def afterFeeds (x : In) (cfgs : List MotCfg) (es : List Eff) : Out :=
  if x.tripGiven && x.feeds.isEmpty then (.noInputFeed, es)
  else if x.tripGiven && x.trip.isNone then (.tripNotFound, es)
  else if x.writeOsm then (if x.filterOk then .success else .osmParse, es ++ [.filterOsm])
  else if x.writeOverpass then (.success, es ++ [.overpass])
  else if x.writeOsmfilter then (.success, es ++ [.osmfilter])
  else if x.feeds.isEmpty then (.noInputFeed, es)
  else cfgLoop x (if x.tripGiven then x.trip else none) cfgs 0 es

/-- PfaedleMain.cpp:116-446. -/
def main (x : In) : Out :=
  match x.cfgs with
  | none => (.motCfgParse, [])
  | some cfgs =>
    if !x.osmPath && !x.writeOverpass && !x.writeOsmfilter then (.noOsm, [])
    else if cfgs.isEmpty then (.noMotCfg, [])
    else
      match x.feeds with
      | [ok] => if ok then afterFeeds x cfgs [.readFeed 0] else (.gtfsParse, [.readFeed 0])
      | feeds =>
        if x.writeOsm || x.writeOverpass then
          match readFeeds feeds 0 [] with
          | .inl out => out
          | .inr es => afterFeeds x cfgs es
        else if feeds.length > 1 then (.multFeeds, [])
        else afterFeeds x cfgs []

end Verif.Main
