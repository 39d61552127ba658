import Verif.Options.Model

/-!
# The command line (specification)

What the help text (`ConfigReader::help`, `src/pfaedle/config/ConfigReader.cpp:30-122`) promises: the settings, their short and long
options, how they may be written on a command line, and what a command line with these settings means. Of the model only the types of words
(`Str`), of the library functions (`Env`) and of the configuration (`Cfg`) are used.
-/

namespace Verif.Options

/-- The things that can be set. -/
inductive Setting where
  | version | help | drop | colors | config | input | keep | osm | mots | out | osmOut | inplace | dbg | trgraph | graph
  | trip | overpass | osmfilter | grid | padding | noFast | noAStar | noTrie | noCache | stats | warn | param
  /-- not in the help text -/
  | noise | print
  deriving DecidableEq, Repr

/-- The options of a setting: short and long one, each with whether a value follows. -/
structure Row where
  set : Setting
  short : Option (Char × Bool)
  long : Option (Str × Bool)
  deriving DecidableEq, Repr

/-- Both options, with the same need of a value. -/
def both (s : Setting) (c : Char) (n : String) (v : Bool) : Row := ⟨s, some (c, v), some (n.toList, v)⟩

/-- Only a long option without a value. -/
def flag (s : Setting) (n : String) : Row := ⟨s, none, some (n.toList, false)⟩

/-- The help text. -/
def documented : List Row :=
  [both .version 'v' "version" false,
   both .help 'h' "help" false,
   both .drop 'D' "drop-shapes" false,
   flag .colors "write-colors",
   both .config 'c' "config" true,
   both .input 'i' "input" true,
   both .keep 'F' "keep-additional-gtfs-fields" true,
   both .osm 'x' "osm-file" true,
   both .mots 'm' "mots" true,
   both .out 'o' "output" true,
   both .osmOut 'X' "osm-out" true,
   flag .inplace "inplace",
   both .dbg 'd' "dbg-path" true,
   flag .trgraph "write-trgraph",
   flag .graph "write-graph",
   both .trip 'T' "trip-id" true,
   flag .overpass "overpass",
   flag .osmfilter "osmfilter",
   both .grid 'g' "grid-size" true,
   both .padding 'b' "box-padding" true,
   flag .noFast "no-fast-hops",
   flag .noAStar "no-a-star",
   flag .noTrie "no-trie",
   flag .noCache "no-hop-cache",
   flag .stats "stats",
   both .warn 'W' "warn" false,
   ⟨.param, some ('P', true), none⟩]

/-- What is true: `--drop-shapes` takes a value, `-F` and `--keep-additional-gtfs-fields` do not, and there are `-p` and `--gaussian-noise`. -/
def actual : List Row :=
  [both .version 'v' "version" false,
   both .help 'h' "help" false,
   ⟨.drop, some ('D', false), some ("drop-shapes".toList, true)⟩,
   flag .colors "write-colors",
   both .config 'c' "config" true,
   both .input 'i' "input" true,
   both .keep 'F' "keep-additional-gtfs-fields" false,
   both .osm 'x' "osm-file" true,
   both .mots 'm' "mots" true,
   both .out 'o' "output" true,
   both .osmOut 'X' "osm-out" true,
   flag .inplace "inplace",
   both .dbg 'd' "dbg-path" true,
   flag .trgraph "write-trgraph",
   flag .graph "write-graph",
   both .trip 'T' "trip-id" true,
   flag .overpass "overpass",
   flag .osmfilter "osmfilter",
   both .grid 'g' "grid-size" true,
   both .padding 'b' "box-padding" true,
   flag .noFast "no-fast-hops",
   flag .noAStar "no-a-star",
   flag .noTrie "no-trie",
   flag .noCache "no-hop-cache",
   flag .stats "stats",
   both .warn 'W' "warn" false,
   ⟨.param, some ('P', true), none⟩,
   ⟨.noise, none, some ("gaussian-noise".toList, true)⟩,
   ⟨.print, some ('p', false), none⟩]

/-- The help text without the two lines that are wrong: nothing about `-F`, and `-D` without its long form. -/
def reliable : List Row :=
  (documented.filter (fun r => r.set != .keep)).map (fun r => if r.set = .drop then { r with long := none } else r)

/-- What the user wants to say: a setting, with its value, or a feed. -/
inductive Item where
  | use (s : Setting) (v : Option Str)
  | feed (w : Str)
  deriving DecidableEq, Repr

/-- `n` names the long option of `s`: it is its name, or (if abbreviations are allowed: `ab`) an abbreviation of this name and of no
other. `v`: a value follows. -/
def LongName (T : List Row) (ab : Bool) (n : Str) (s : Setting) (v : Bool) : Prop :=
  n ≠ [] ∧ ∃ r ∈ T, ∃ m : Str, r.set = s ∧ r.long = some (m, v) ∧
    (n = m ∨ (ab = true ∧ n <+: m ∧ ∀ q ∈ T, ∀ (k : Str) (b : Bool), q.long = some (k, b) → n <+: k → q = r))

/-- `c` is the short option of `s`. -/
def ShortName (T : List Row) (c : Char) (s : Setting) (v : Bool) : Prop := ∃ r ∈ T, r.set = s ∧ r.short = some (c, v)

/-- Several short options without values. -/
inductive Flags (T : List Row) : List Setting → Str → Prop where
  | nil : Flags T [] []
  | cons {c : Char} {s : Setting} {ss : List Setting} {cs : Str} : ShortName T c s false → Flags T ss cs → Flags T (s :: ss) (c :: cs)

/-- Settings without values. -/
def bare (ss : List Setting) : List Item := ss.map (fun s => .use s none)

/-- The ways to write a list of items as a command line. -/
inductive Line (T : List Row) (ab : Bool) : List Item → List Str → Prop where
  | nil : Line T ab [] []
  /-- `-- word ...` -/
  | stop (ws : List Str) : Line T ab (ws.map .feed) ("--".toList :: ws)
  /-- `word` or `-` -/
  | word {w : Str} {is : List Item} {as : List Str} : (w.head? ≠ some '-' ∨ w = "-".toList) → Line T ab is as → Line T ab (.feed w :: is) (w :: as)
  /-- `-abc` -/
  | flags {ss : List Setting} {cs : Str} {is : List Item} {as : List Str} :
      Flags T ss cs → cs ≠ [] → Line T ab is as → Line T ab (bare ss ++ is) (('-' :: cs) :: as)
  /-- `-abcvalue` -/
  | joined {ss : List Setting} {cs v : Str} {c : Char} {s : Setting} {is : List Item} {as : List Str} :
      Flags T ss cs → ShortName T c s true → v ≠ [] → Line T ab is as →
      Line T ab (bare ss ++ .use s (some v) :: is) (('-' :: (cs ++ c :: v)) :: as)
  /-- `-abc value` -/
  | next {ss : List Setting} {cs v : Str} {c : Char} {s : Setting} {is : List Item} {as : List Str} :
      Flags T ss cs → ShortName T c s true → Line T ab is as →
      Line T ab (bare ss ++ .use s (some v) :: is) (('-' :: (cs ++ [c])) :: v :: as)
  /-- `--name` -/
  | long {n : Str} {s : Setting} {is : List Item} {as : List Str} :
      LongName T ab n s false → Line T ab is as → Line T ab (.use s none :: is) (('-' :: '-' :: n) :: as)
  /-- `--name=value` -/
  | longEq {n v : Str} {s : Setting} {is : List Item} {as : List Str} :
      LongName T ab n s true → Line T ab is as → Line T ab (.use s (some v) :: is) (('-' :: '-' :: (n ++ '=' :: v)) :: as)
  /-- `--name value` -/
  | longNext {n v : Str} {s : Setting} {is : List Item} {as : List Str} :
      LongName T ab n s true → Line T ab is as → Line T ab (.use s (some v) :: is) (('-' :: '-' :: n) :: v :: as)

/-- The setting was given. -/
def given (s : Setting) (is : List Item) : Bool := is.any (fun i => match i with | .use t _ => t == s | .feed _ => false)

/-- The values given for a setting, in order. -/
def values (s : Setting) (is : List Item) : List Str :=
  is.filterMap (fun i => match i with | .use t v => if t = s then v else none | .feed _ => none)

/-- The feeds given without an option, in order. -/
def words (is : List Item) : List Str := is.filterMap (fun i => match i with | .use _ _ => none | .feed w => some w)

/-- The last value, if there is one. -/
def lastOr {α : Type} (d : α) (l : List α) : α := l.getLast?.getD d

/-- What the items mean. -/
structure Means {D T : Type} (E : Env D T) (is : List Item) (g : Cfg D T) : Prop where
  /-- the feeds given with `-i`, then the ones without an option -/
  feeds : g.feedPaths = values .input is ++ words is
  configs : g.configPaths = values .config is
  osm : g.osmPath = lastOr [] (values .osm is)
  osmOut : g.writeOsm = lastOr [] (values .osmOut is)
  out : g.outputPath = lastOr "gtfs-out".toList (values .out is)
  dbg : g.dbgOutputPath = lastOr ".".toList (values .dbg is)
  trip : g.shapeTripId = lastOr [] (values .trip is)
  grid : g.gridSize = lastOr (E.perDeg (E.ofNat 2000)) ((values .grid is).map (fun v => E.perDeg (E.atof v)))
  padding : g.boxPadding = lastOr (E.ofNat 20000) ((values .padding is).map E.atof)
  noise : g.gaussianNoise = lastOr (E.ofNat 0) ((values .noise is).map E.atof)
  /-- every parameter in a line of its own -/
  param : g.motCfgParam = (values .param is).flatMap (fun v => '\n' :: v)
  /-- a list of modes, separated by commas -/
  mots : ∀ t : T, t ∈ g.mots ↔ ∃ p ∈ E.split (lastOr "all".toList (values .mots is)), t ∈ E.types (E.trim p)
  drop : g.dropShapes = given .drop is
  colors : g.writeColors = given .colors is
  keep : g.parseAdditionalGTFSFields = given .keep is
  inplace : g.inPlace = given .inplace is
  trgraph : g.buildTransitGraph = given .trgraph is
  graph : g.writeGraph = given .graph is
  overpass : g.writeOverpass = given .overpass is
  osmfilter : g.writeOsmfilter = given .osmfilter is
  noFast : g.noFastHops = given .noFast is
  noAStar : g.noAStar = given .noAStar is
  noTrie : g.noTrie = given .noTrie is
  noCache : g.noHopCache = given .noCache is
  stats : g.writeStats = given .stats is
  warn : g.verbosity = if given .warn is then 1 else 0
  print : g.printOpts = given .print is

end Verif.Options
