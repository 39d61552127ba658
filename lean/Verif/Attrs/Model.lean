import Verif.Whole.Model
import Verif.Intern.Model

/-!
# Names, tracks and lines from the file (model)

Model of `OsmBuilder::getAttrByFirstMatch`, `getAttrMatchRanked`, `getAttr` and `getStatInfo`, `src/pfaedle/osm/OsmBuilder.cpp:1025-1100`, of their
use in `readEdges` (696-703) and `readNodes` (851-886), and of the calls of `getLines` (`Verif.Intern`) there. With these, the parameters of
`Verif.Whole` that stand for infos of stations, tracks and lines are what the file makes of them (`filePar`). Ids of stations are compiled in only
with `PFAEDLE_STATION_IDS` and left out. `pfxml::file::decode` and the normalisers (`Verif.Normalizer`) are parameters.
-/

namespace Verif.Attrs
open Verif.Names (Str)
open Verif.Osm

variable {P D : Type}

/-- `DeepAttrRule`, OsmReadOpts.h:67-70; `key` and `val` are `relRule.kv` (the flags of `relRule` are not read). -/
structure Rule where
  attr : Str
  key : Str
  val : Str
deriving DecidableEq

/-- 1062-1068: the relations of an element; `none`: index out of range. -/
def relLoop (s : Rule) (rels : List Attrs) : List Nat → Option Str
  | [] => some []
  | k :: ks =>
    match rels[k]? with
    | none => none
    | some a =>
      if containedAttr (s.key, s.val) a then
        match FMap.get a s.attr with
        | some v => some v
        | none => relLoop s rels ks
      else relLoop s rels ks

/-- 1055-1073. -/
def getAttr (s : Rule) (id : Nat) (am : Attrs) (entRels : FMap Nat (List Nat)) (rels : List Attrs) : Option Str :=
  if s.key = [] then some ((FMap.get am s.attr).getD [])
  else
    match entRels.get id with
    | some ks => relLoop s rels ks
    | none => some []

/-- 1025-1037; `norm` decodes and normalises. -/
def firstMatch (norm : Str → Str) (id : Nat) (am : Attrs) (entRels : FMap Nat (List Nat)) (rels : List Attrs) : List Rule → Option Str
  | [] => some []
  | s :: rules =>
    match getAttr s id am entRels rels with
    | none => none
    | some v => if norm v ≠ [] then some (norm v) else firstMatch norm id am entRels rels rules

/-- 1040-1052. -/
def ranked (norm : Str → Str) (id : Nat) (am : Attrs) (entRels : FMap Nat (List Nat)) (rels : List Attrs) : List Rule → List Str → Option (List Str)
  | [], ret => some ret
  | s :: rules, ret =>
    match getAttr s id am entRels rels with
    | none => none
    | some v => ranked norm id am entRels rels rules (if norm v ≠ [] then ret ++ [norm v] else ret)

/-- `StatInfo`, trgraph/StatInfo.h:17-58. -/
structure Info where
  name : Str
  alts : List Str
  track : Str
deriving DecidableEq, Repr

/-- Rules and normalisers, OsmReadOpts.h:74-96 and 114-124. -/
structure Naming where
  names : List Rule
  platforms : List Rule
  edges : List Rule
  sName : List Str
  fromName : List Str
  toName : List Str
  color : List Str
  decode : Str → Str
  statNorm : Str → Str
  trackNorm : Str → Str
  lineNorm : Str → Str
  noColor : Nat

/-- 1076-1100; the inner `none` is a null info. -/
def getStatInfo (n : Naming) (id : Nat) (am : Attrs) (nodeRels : FMap Nat (List Nat)) (rels : List Attrs) : Option (Option Info) :=
  match ranked (fun v => n.statNorm (n.decode v)) id am nodeRels rels n.names [] with
  | none => none
  | some names =>
    match firstMatch (fun v => n.trackNorm (n.decode v)) id am nodeRels rels n.platforms with
    | none => none
    | some platform =>
      match names with
      | [] => some none
      | name :: alts => some (some ⟨name, alts, platform⟩)

/-- What `getLines` reads of the options. -/
def Naming.line (n : Naming) : Intern.Opts Str := ⟨n.sName, n.fromName, n.toName, n.color, n.lineNorm, n.statNorm, n.decode⟩

/-- 695-700: the lines of the ways, in the order in which they are read. -/
def wayLines (n : Naming) (rels : RelSt) : List Way → Intern.St → Option (List (Nat × List Nat) × Intern.St)
  | [], st => some ([], st)
  | w :: ws, st =>
    match rels.wayRels.get w.id with
    | none => (wayLines n rels ws st).map fun r => ((w.id, []) :: r.1, r.2)
    | some ids =>
      match Intern.getLines n.noColor n.line rels.rels ids [] st with
      | none => none
      | some (ls, st) => (wayLines n rels ws st).map fun r => ((w.id, ls) :: r.1, r.2)

/-- The relations of the file, 102-109. -/
def fileRels {S T : Type} (p : Whole.Par P S T D) (file : List (Ev P)) : RelSt :=
  readRels p.keysR p.f (skipUntil .relation (bboxGo p.bbox (fNohup p.o) (skipUntil .node file) false 0).2)

/-- The ways that are read, as in `Whole.readMap`. -/
def fileWays {S T : Type} (p : Whole.Par P S T D) (file : List (Ev P)) : List Way :=
  let b := bboxGo p.bbox (fNohup p.o) (skipUntil .node file) false 0
  let rels := fileRels p file
  (readAll (nextWay p.keysW (keepWay p.f rels.wayRels rels.flat (p.box b.1))) b.2).1

/-- The lines of the ways and the line objects. -/
def fileLines {S T : Type} (n : Naming) (p : Whole.Par P S T D) (file : List (Ev P)) : Option (List (Nat × List Nat) × Intern.St) :=
  wayLines n (fileRels p file) (fileWays p file) ⟨[], [], []⟩

/-- 701-703, 727: the track of a way, `none` if empty; outside: index out of range. -/
def wayTrack (n : Naming) (rels : RelSt) (w : Way) : Option (Option Str) :=
  (firstMatch (fun v => n.trackNorm (n.decode v)) w.id w.attrs rels.wayRels rels.rels n.edges).map fun t => if t = [] then none else some t

/-- `StatInfo::getTrack().empty()`, `setTrack`. -/
def Info.bare (s : Info) : Bool := s.track.isEmpty
def Info.setTrack (t : Str) (s : Info) : Info := { s with track := t }

/-- The parameters of `Whole.build` for a file: infos, lines and tracks are those of the file. -/
def filePar (n : Naming) (p : Whole.Par P Info Str D) (file : List (Ev P)) : Whole.Par P Info Str D :=
  { p with
    info := fun nd => (getStatInfo n nd.id nd.attrs (fileRels p file).nodeRels (fileRels p file).rels).getD none
    lines := fun w => ((((fileLines n p file).map (·.1)).getD []).lookup w.id).getD []
    track := fun w => (wayTrack n (fileRels p file) w).getD none
    noTrack := Info.bare
    setTrack := Info.setTrack
    cfg := { p.cfg with snap := { p.cfg.snap with
      noTrack := Info.bare
      copyTrack := fun a b => a.setTrack b.track } } }

end Verif.Attrs
