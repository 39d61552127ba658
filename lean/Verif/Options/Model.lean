/-!
# The command line (model)

Model of `ConfigReader::read`, `src/pfaedle/config/ConfigReader.cpp:125-276`, of the `Config` it fills
(`config/PfaedleConfig.h:19-70`), and of what `main` makes of the paths (`PfaedleMain.cpp:113`, `138`, `477-525`).

`getopt_long` belongs to the C library; it is modelled here as glibc implements it without `POSIXLY_CORRECT`: words that are no
options are moved behind the options, in order; the word `--` ends the options; long names may be abbreviated. A double
(`atof`), `util::split`, `util::trim` and `getTypesFromString` are parameters (`Env`). The texts printed by `-h`, `-v` and `-p` are left out.
-/

namespace Verif.Options

abbrev Str := List Char

/-- What `getopt_long` returns: the number or the character of the option. -/
inductive Code where
  | num (n : Nat)
  | chr (c : Char)
  deriving DecidableEq, Repr

/-- `struct option`; `arg`: `required_argument`. -/
structure LongOpt where
  name : Str
  arg : Bool
  code : Code
  deriving DecidableEq, Repr

/-- ConfigReader.cpp:129-156. -/
def ops : List LongOpt :=
  [⟨"output".toList, true, .chr 'o'⟩,
   ⟨"input".toList, true, .chr 'i'⟩,
   ⟨"config".toList, true, .chr 'c'⟩,
   ⟨"osm-file".toList, true, .chr 'x'⟩,
   ⟨"drop-shapes".toList, true, .chr 'D'⟩,
   ⟨"mots".toList, true, .chr 'm'⟩,
   ⟨"grid-size".toList, true, .chr 'g'⟩,
   ⟨"box-padding".toList, true, .chr 'b'⟩,
   ⟨"overpass".toList, false, .chr 'a'⟩,
   ⟨"osmfilter".toList, false, .chr 'f'⟩,
   ⟨"osm-out".toList, true, .chr 'X'⟩,
   ⟨"trip-id".toList, true, .chr 'T'⟩,
   ⟨"write-graph".toList, false, .num 1⟩,
   ⟨"write-trgraph".toList, false, .num 4⟩,
   ⟨"dbg-path".toList, true, .chr 'd'⟩,
   ⟨"version".toList, false, .chr 'v'⟩,
   ⟨"help".toList, false, .chr 'h'⟩,
   ⟨"inplace".toList, false, .num 9⟩,
   ⟨"no-fast-hops".toList, false, .num 10⟩,
   ⟨"no-a-star".toList, false, .num 11⟩,
   ⟨"no-trie".toList, false, .num 12⟩,
   ⟨"write-colors".toList, false, .num 13⟩,
   ⟨"stats".toList, false, .num 14⟩,
   ⟨"no-hop-cache".toList, false, .num 15⟩,
   ⟨"gaussian-noise".toList, true, .num 16⟩,
   ⟨"warn".toList, false, .chr 'W'⟩,
   ⟨"keep-additional-gtfs-fields".toList, false, .chr 'F'⟩]

/-- ConfigReader.cpp:159, without the leading colon (missing arguments are reported as `:`). -/
def optstring : Str := "o:hvi:c:x:Dm:g:X:T:d:pP:FWb:".toList

/-- The options of an option string: a character, and whether a colon follows it. -/
def shorts : Str → List (Char × Bool)
  | [] => []
  | c :: ':' :: cs => (c, true) :: shorts cs
  | c :: cs => (c, false) :: shorts cs

/-- One return of `getopt_long`. -/
inductive Ev where
  | opt (c : Code) (arg : Option Str)
  /-- `:`, with `argv[optind - 1]` -/
  | missing (word : Str)
  /-- `?`; `word` is `argv[optind - 1]`, `none` if this is the word before the offending one -/
  | unknown (word : Option Str)
  deriving DecidableEq, Repr

/-- A word of short options (without its `-`): the returns, and the option still waiting for its argument. `w`: the word. -/
def cluster (w : Str) : Str → List Ev × Option Code
  | [] => ([], none)
  | c :: cs =>
    match (shorts optstring).lookup c with
    | none => ([.unknown (if cs.isEmpty then some w else none)], none)
    | some false => let r := cluster w cs; (.opt (.chr c) none :: r.1, r.2)
    | some true => if cs.isEmpty then ([], some (.chr c)) else ([.opt (.chr c) (some cs)], none)

/-- The long option meant by a name: the option of exactly this name, or the only one whose name begins so. -/
def findLong (n : Str) : Option LongOpt :=
  match ops.find? (fun o => o.name == n) with
  | some o => some o
  | none =>
    match ops.filter (fun o => n.isPrefixOf o.name) with
    | [o] => some o
    | _ => none

/-- A word `--s` other than `--`. -/
def long (w s : Str) : List Ev × Option Code :=
  let n := s.takeWhile (· != '=')
  let v := s.dropWhile (· != '=')
  match findLong n with
  | none => ([.unknown (some w)], none)
  | some o =>
    match v, o.arg with
    | [], false => ([.opt o.code none], none)
    | [], true => ([], some o.code)
    | _ :: _, false => ([.unknown (some w)], none)
    | _ :: v, true => ([.opt o.code (some v)], none)

/-- All returns of `getopt_long`, and `argv[optind..]` afterwards. The first argument is the word of an option waiting for its
argument, and the option. -/
def scan : Option (Str × Code) → List Str → List Ev × List Str
  | some (w, _), [] => ([.missing w], [])
  | some (_, c), a :: as => let r := scan none as; (.opt c (some a) :: r.1, r.2)
  | none, [] => ([], [])
  | none, ('-' :: '-' :: s) :: as =>
    if s.isEmpty then ([], as)
    else
      let t := long ('-' :: '-' :: s) s
      let r := scan (t.2.map (fun c => ('-' :: '-' :: s, c))) as
      (t.1 ++ r.1, r.2)
  | none, ('-' :: c :: s) :: as =>
    let t := cluster ('-' :: c :: s) (c :: s)
    let r := scan (t.2.map (fun k => ('-' :: c :: s, k))) as
    (t.1 ++ r.1, r.2)
  | none, a :: as => let r := scan none as; (r.1, a :: r.2)

/-- Doubles and the functions of other libraries. -/
structure Env (D T : Type) where
  ofNat : Nat → D
  atof : Str → D
  /-- division by `util::geo::M_PER_DEG` -/
  perDeg : D → D
  /-- `util::split(.., ',')` -/
  split : Str → List Str
  trim : Str → Str
  /-- `Route::getTypesFromString` -/
  types : Str → List T

/-- The fields of `Config` an option can set, PfaedleConfig.h:43-70; `printOpts` and `motStr` are local in `read`. `mots` (a set) is a list. -/
structure Cfg (D T : Type) where
  dbgOutputPath : Str
  shapeTripId : Str
  outputPath : Str
  writeOsm : Str
  osmPath : Str
  motCfgParam : Str
  feedPaths : List Str
  configPaths : List Str
  mots : List T
  dropShapes : Bool
  writeGraph : Bool
  buildTransitGraph : Bool
  writeOverpass : Bool
  writeOsmfilter : Bool
  inPlace : Bool
  writeColors : Bool
  noFastHops : Bool
  noAStar : Bool
  noTrie : Bool
  noHopCache : Bool
  writeStats : Bool
  parseAdditionalGTFSFields : Bool
  gridSize : D
  boxPadding : D
  gaussianNoise : D
  verbosity : Nat
  printOpts : Bool
  motStr : Str

/-- `Config()`, PfaedleConfig.h:20-42, and ConfigReader.cpp:126-127. -/
def init {D T : Type} (E : Env D T) : Cfg D T where
  dbgOutputPath := ".".toList
  shapeTripId := []
  outputPath := "gtfs-out".toList
  writeOsm := []
  osmPath := []
  motCfgParam := []
  feedPaths := []
  configPaths := []
  mots := []
  dropShapes := false
  writeGraph := false
  buildTransitGraph := false
  writeOverpass := false
  writeOsmfilter := false
  inPlace := false
  writeColors := false
  noFastHops := false
  noAStar := false
  noTrie := false
  noHopCache := false
  writeStats := false
  parseAdditionalGTFSFields := false
  gridSize := E.perDeg (E.ofNat 2000)
  boxPadding := E.ofNat 20000
  gaussianNoise := E.ofNat 0
  verbosity := 0
  printOpts := false
  motStr := "all".toList

/-- How the program leaves `read` early. -/
inductive Exit where
  /-- `exit(0)` after the version -/
  | version
  /-- `exit(0)` after the help text -/
  | help
  /-- `exit(1)`, "requires an argument" -/
  | missing (word : Str)
  /-- `exit(1)`, "option unknown" -/
  | unknown (word : Option Str)
  /-- `exit(1)`, 258-261 -/
  | error
  deriving DecidableEq, Repr

/-- The number passed to `exit`. -/
def Exit.num : Exit → Nat
  | .version => 0
  | .help => 0
  | .missing _ => 1
  | .unknown _ => 1
  | .error => 1

/-- The switch, ConfigReader.cpp:161-262; `optarg` is `a` (never used without being set, see `C75_accept`; here it would be empty). -/
def step {D T : Type} (E : Env D T) (g : Cfg D T) (c : Code) (a : Str) : Exit ⊕ Cfg D T :=
  match c with
  | .num 1 => .inr { g with writeGraph := true }
  | .num 4 => .inr { g with buildTransitGraph := true }
  | .num 10 => .inr { g with noFastHops := true }
  | .num 11 => .inr { g with noAStar := true }
  | .num 12 => .inr { g with noTrie := true }
  | .chr 'o' => .inr { g with outputPath := a }
  | .chr 'i' => .inr { g with feedPaths := g.feedPaths ++ [a] }
  | .chr 'c' => .inr { g with configPaths := g.configPaths ++ [a] }
  | .chr 'x' => .inr { g with osmPath := a }
  | .chr 'D' => .inr { g with dropShapes := true }
  | .chr 'm' => .inr { g with motStr := a }
  | .chr 'g' => .inr { g with gridSize := E.perDeg (E.atof a) }
  | .chr 'b' => .inr { g with boxPadding := E.atof a }
  | .chr 'X' => .inr { g with writeOsm := a }
  | .chr 'T' => .inr { g with shapeTripId := a }
  | .chr 'P' => .inr { g with motCfgParam := g.motCfgParam ++ '\n' :: a }
  | .chr 'd' => .inr { g with dbgOutputPath := a }
  | .chr 'a' => .inr { g with writeOverpass := true }
  | .chr 'f' => .inr { g with writeOsmfilter := true }
  | .num 9 => .inr { g with inPlace := true }
  | .num 13 => .inr { g with writeColors := true }
  | .num 14 => .inr { g with writeStats := true }
  | .num 15 => .inr { g with noHopCache := true }
  | .num 16 => .inr { g with gaussianNoise := E.atof a }
  | .chr 'W' => .inr { g with verbosity := 1 }
  | .chr 'F' => .inr { g with parseAdditionalGTFSFields := true }
  | .chr 'v' => .inl .version
  | .chr 'p' => .inr { g with printOpts := true }
  | .chr 'h' => .inl .help
  | _ => .inl .error

/-- The loop, ConfigReader.cpp:158-263. -/
def loop {D T : Type} (E : Env D T) : Cfg D T → List Ev → Exit ⊕ Cfg D T
  | g, [] => .inr g
  | _, .missing w :: _ => .inl (.missing w)
  | _, .unknown w :: _ => .inl (.unknown w)
  | g, .opt c a :: es =>
    match step E g c (a.getD []) with
    | .inl x => .inl x
    | .inr g => loop E g es

/-- `ConfigReader::read`, ConfigReader.cpp:125-276; `args` are `argv[1..]`. -/
def read {D T : Type} (E : Env D T) (args : List Str) : Exit ⊕ Cfg D T :=
  let r := scan none args
  match loop E (init E) r.1 with
  | .inl x => .inl x
  | .inr g => .inr { g with
      feedPaths := g.feedPaths ++ r.2
      mots := (E.split g.motStr).foldl (fun l m => l ++ E.types (E.trim m)) g.mots }

/-- `getCfgPaths`, PfaedleMain.cpp:477-525. `pref`, `home`: the paths below the installation prefix and the home directory; `cwd`: the
path in the working directory, if `getcwd` succeeds; `good`: the file can be opened. -/
def cfgPaths {D T : Type} (good : Str → Bool) (pref home : Str) (cwd : Option Str) (g : Cfg D T) : List Str :=
  if !g.configPaths.isEmpty then g.configPaths
  else
    let r := if good pref then [pref] else []
    let r := if good home then r ++ [home] else r
    match cwd with
    | none => r
    | some p => if good p then r ++ [p] else r

/-- The path the feed is written to, PfaedleMain.cpp:137-138 and 433-437. -/
def outPath {D T : Type} (g : Cfg D T) : Str :=
  match g.feedPaths with
  | [f] => if g.inPlace then f else g.outputPath
  | _ => g.outputPath

end Verif.Options
