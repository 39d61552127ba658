import Verif.Base.FMap
import Verif.Main.Model

/-!
# Debug files and statistics (model)

Model of the files the main program writes into the debug directory: `path.json`, `graph.json`, `trgraph-….json`
and `stats.json`, `src/pfaedle/PfaedleMain.cpp:251-432`, with their names (449-471) and with the numbers in
`stats.json`. What is inside the graphs is modelled elsewhere (`Verif.Net`, `Verif.Osm`); here a file is known by the
configuration it was written for. Files that cannot be opened are not written, without a message (`std::ofstream`).
Times and memory are left out. Distances are exact (rationals).
`Route::getTypesFromString` and `Route::getTypeString` (cppgtfs, not in the repository) are parameters.
-/

namespace Verif.Report

open Verif (FMap)
open Verif.Main (Code)

abbrev Str := List Char

/-- cppgtfs. -/
structure Env where
  /-- `getTypesFromString`, a `std::set`: ascending -/
  types : Str → List Nat
  /-- `getTypeString` -/
  typeStr : Nat → Str

/-- PfaedleMain.cpp:453-455. -/
def names : List Str :=
  ["tram".toList, "subway".toList, "rail".toList, "bus".toList, "ferry".toList, "cablecar".toList, "gondola".toList,
   "funicular".toList, "coach".toList, "trolleybus".toList, "monorail".toList]

/-- `motISect`, `src/pfaedle/router/Misc.h:117-123`. -/
def motISect (a b : List Nat) : List Nat := a.filter (fun m => b.contains m)

/-- PfaedleMain.cpp:462-463 and 469-470. -/
def app (s n : Str) : Str := if s.isEmpty then n else s ++ '-' :: n

/-- PfaedleMain.cpp:457-466: the text, and what is left in `tmp`. -/
def groups (env : Env) : List Str → List Nat → Str → Str × List Nat
  | [], tmp, s => (s, tmp)
  | n :: ns, tmp, s =>
    let types := env.types n
    let is := motISect tmp types
    if is.length = types.length then groups env ns (tmp.filter (fun m => !is.contains m)) (app s n)
    else groups env ns tmp s

/-- PfaedleMain.cpp:468-471. -/
def rest (env : Env) : List Nat → Str → Str
  | [], s => s
  | m :: ms, s => rest env ms (app s (env.typeStr m))

/-- `getFileNameMotStr`, PfaedleMain.cpp:449-474. -/
def fileName (env : Env) (mots : List Nat) : Str :=
  let g := groups env names mots []
  rest env g.2 g.1

/-- What is used of a configuration and of the matching with it. `adj`: for each node of the graph read from the OSM file the
number of edges that leave it; `hops`: the distances collected by `getGtfsBox`
(`src/pfaedle/router/ShapeBuilder.cpp:684`); `tries`, `leafs`, `iters`: the numbers in `Stats`
(`src/pfaedle/router/Stats.h:16-29`) returned by `shapeify` or `shapeL`. -/
structure Cfg where
  mots : List Nat
  noStops : Bool
  osmOk : Bool
  simiKnown : Bool
  methodKnown : Bool
  adj : List Nat
  hops : List Rat
  tries : Nat
  leafs : Nat
  iters : Nat
  deriving DecidableEq

/-- What `stats.json` contains (the parts that do not depend on time and memory), PfaedleMain.cpp:407-424.
`avg = none`: 0/0, printed as a number that is none. -/
structure Stats where
  stations : Nat
  trips : Nat
  avg : Option Rat
  dims : FMap Str (Nat × Nat)
  nodes : Nat
  edges : Nat
  tries : Nat
  leafs : Nat
  iters : Nat
  deriving DecidableEq

/-- Contents of a file. -/
inductive Content where
  /-- from an earlier run -/
  | old
  /-- the single trip, matched with configuration `i` -/
  | path (i : Nat)
  /-- the graph of configuration `i` -/
  | graph (i : Nat)
  /-- the transit graph of configuration `i` -/
  | trans (i : Nat)
  | stats (s : Stats)
  deriving DecidableEq

/-- Options, feed, debug directory. `dir`: it is there; `mkdir`: it can be made; `outputOk`: the feed can be written. -/
structure In where
  mots : List Nat
  cfgs : List Cfg
  trip : Option Nat
  writeGraph : Bool
  buildTransitGraph : Bool
  writeStats : Bool
  dir : Bool
  mkdir : Bool
  files : FMap Str Content
  stations : Nat
  trips : Nat
  outputOk : Bool

/-- Variables of `main`, PfaedleMain.cpp:251-254, and the debug directory. -/
structure St where
  dims : FMap Str (Nat × Nat) := []
  hops : List Rat := []
  tries : Nat := 0
  leafs : Nat := 0
  iters : Nat := 0
  dir : Bool
  files : FMap Str Content

def pathFile : Str := "path.json".toList
def graphFile : Str := "graph.json".toList
def statsFile : Str := "stats.json".toList
/-- PfaedleMain.cpp:376-377. -/
def transFile (post : Str) : Str := "trgraph-".toList ++ post ++ ".json".toList

/-- `mkdir` (341, 364, 375): the result is not looked at. -/
def St.mkd (x : In) (s : St) : St := { s with dir := s.dir || x.mkdir }

/-- `std::ofstream`: nothing happens if there is no directory. -/
def St.write (s : St) (name : Str) (c : Content) : St := if s.dir then { s with files := s.files.put name c } else s

/-- The graph the configuration has: empty if no stop is to be matched (283). -/
def Cfg.graph (c : Cfg) : List Nat := if c.noStops then [] else c.adj

/-- PfaedleMain.cpp:288-292: the number of nodes is assigned, the number of edges is added up. -/
def dimsStep (d : FMap Str (Nat × Nat)) (post : Str) (g : List Nat) : FMap Str (Nat × Nat) :=
  d.put post (g.length, ((d.get post).getD (0, 0)).2 + g.sum)

/-- PfaedleMain.cpp:258-263: the modes used and the ending of file names, `none`: `continue`. -/
def usedPost (env : Env) (x : In) (c : Cfg) : Option Str :=
  let used := motISect c.mots x.mots
  if used.isEmpty then none
  else if x.trip.any (fun m => !used.contains m) then none
  else some (if x.cfgs.length > 1 then fileName env used else [])

/-- `Stats::operator+`, `src/pfaedle/router/Stats.h:31-39`. -/
def St.add (s : St) (c : Cfg) : St :=
  { s with tries := s.tries + c.tries, leafs := s.leafs + c.leafs, iters := s.iters + c.iters }

/-- PfaedleMain.cpp:338-356 (347: the numbers). -/
def match_ (x : In) (i : Nat) (c : Cfg) (s : St) : St :=
  if x.trip.isSome then (((s.mkd x).add c).write pathFile (.path i)) else s.add c

/-- PfaedleMain.cpp:361-368. -/
def outGraph (x : In) (i : Nat) (s : St) : St := if x.writeGraph then (s.mkd x).write graphFile (.graph i) else s

/-- PfaedleMain.cpp:372-380. -/
def outTrans (x : In) (i : Nat) (post : Str) (s : St) : St :=
  if x.buildTransitGraph then (s.mkd x).write (transFile post) (.trans i) else s

/-- PfaedleMain.cpp:277-292: hops and sizes; they are counted before the methods are looked at. -/
def count (c : Cfg) (post : Str) (s : St) : St :=
  { s with hops := s.hops ++ c.hops, dims := dimsStep s.dims post c.graph }

/-- PfaedleMain.cpp:256-386; the code is given if the program ends. -/
def loop (env : Env) (x : In) : List Cfg → Nat → St → Option Code × St
  | [], _, s => (none, s)
  | c :: cs, i, s =>
    match usedPost env x c with
    | none => loop env x cs (i + 1) s
    | some post =>
      if !c.noStops && !c.osmOk then (some .osmParse, s)
      else
        let s := count c post s
        if !c.simiKnown then (some .one, s)
        else if !c.methodKnown then (some .one, s)
        else
          let s := outGraph x i (match_ x i c s)
          if x.trip.isSome then (some .success, s)
          else loop env x cs (i + 1) (outTrans x i post s)

/-- PfaedleMain.cpp:389-424. -/
def statsOf (x : In) (s : St) : Stats where
  stations := x.stations
  trips := x.trips
  avg := if s.hops.length = 0 then none else some (s.hops.foldl (· + ·) 0 / (s.hops.length : Rat))
  dims := s.dims
  nodes := s.dims.foldl (fun a p => a + p.2.1) 0
  edges := s.dims.foldl (fun a p => a + p.2.2) 0
  tries := s.tries
  leafs := s.leafs
  iters := s.iters

/-- PfaedleMain.cpp:388-432: there is no `mkdir` before `stats.json` is opened. -/
def outStats (x : In) (s : St) : St := if x.writeStats then s.write statsFile (.stats (statsOf x s)) else s

/-- PfaedleMain.cpp:251-446: the code and the debug directory. -/
def run (env : Env) (x : In) : Code × FMap Str Content :=
  match loop env x x.cfgs 0 { dir := x.dir, files := x.files } with
  | (some c, s) => (c, s.files)
  | (none, s) => (if x.outputOk then .success else .gtfsWrite, (outStats x s).files)

end Verif.Report
