import Verif.Color.Model

/-!
# Line objects of relations (model)

Model of `OsmBuilder::getLines`, `src/pfaedle/osm/OsmBuilder.cpp:1359-1441`, with the comparison of lines in
`src/pfaedle/trgraph/EdgePL.h:32-44`. Strings are lists of bytes, keys of attributes of any type (they are
only compared). `pfxml::file::decode` followed by the normaliser is a parameter.
-/

namespace Verif.Intern
open Verif.Names (Str)

/-- EdgePL.h:25-30. -/
structure Line where
  fromStr : Str
  toStr : Str
  shortName : Str
  color : Nat
  deriving DecidableEq, Repr

/-- `std::string::operator<`: lexicographic, by bytes. -/
def strLt : Str → Str → Bool
  | [], [] => false
  | [], _ :: _ => true
  | _ :: _, [] => false
  | a :: s, b :: t => a < b || (a == b && strLt s t)

/-- EdgePL.h:38-44. -/
def lineLt (a b : Line) : Bool :=
  strLt a.fromStr b.fromStr || (a.fromStr == b.fromStr && strLt a.toStr b.toStr) ||
    (a.fromStr == b.fromStr && a.toStr == b.toStr && strLt a.shortName b.shortName)

/-- The options used: rule lists and normalisers (OsmBuilder.cpp:1373-1424). -/
structure Opts (K : Type) where
  sNameRule : List K
  fromNameRule : List K
  toNameRule : List K
  colorRule : List K
  lineNorm : Str → Str
  statNorm : Str → Str
  decode : Str → Str

variable {K : Type} [DecidableEq K]

/-- OsmBuilder.cpp:1374-1384, the inner loop: state is (`found`, name). -/
def nameRule (norm : Str → Str) (r : K) (attrs : List (K × Str)) (s : Bool × Str) : Bool × Str :=
  attrs.foldl (fun s a => if a.1 = r then (s.1 || !(norm a.2).isEmpty, norm a.2) else s) s

/-- OsmBuilder.cpp:1373-1384 (also 1386-1397, 1399-1410). -/
def nameOf (norm : Str → Str) (attrs : List (K × Str)) : List K → Bool × Str → Str
  | [], s => s.2
  | r :: rs, s =>
    let s := nameRule norm r attrs s
    if s.1 then s.2 else nameOf norm attrs rs s

/-- OsmBuilder.cpp:1369-1423: the line of a relation. -/
def lineOf (noColor : Nat) (o : Opts K) (attrs : List (K × Str)) : Line where
  shortName := nameOf (fun v => o.lineNorm (o.decode v)) attrs o.sNameRule (false, [])
  fromStr := nameOf (fun v => o.statNorm (o.decode v)) attrs o.fromNameRule (false, [])
  toStr := nameOf (fun v => o.statNorm (o.decode v)) attrs o.toNameRule (false, [])
  color := Color.lineColor noColor (attrs.map fun a => (a.1, o.decode a.2)) o.colorRule (false, noColor)

/-- `_lines`, `_relLines` and the lines that were allocated; a pointer is an index. -/
structure St where
  heap : List Line
  lines : List (Line × Nat)
  relLines : List (Nat × Nat)

/-- `_lines.count(el)` and `_lines[el]`: the map compares with `lineLt`. -/
def findLine (lines : List (Line × Nat)) (el : Line) : Option Nat :=
  (lines.find? fun p => !lineLt p.1 el && !lineLt el p.1).map (·.2)

/-- OsmBuilder.cpp:1363-1437, the loop; `none`: relation index out of range. -/
def getLines (noColor : Nat) (o : Opts K) (rels : List (List (K × Str))) : List Nat → List Nat → St → Option (List Nat × St)
  | [], ret, st => some (ret, st)
  | relId :: ids, ret, st =>
    match st.relLines.lookup relId with
    | some elp => getLines noColor o rels ids (ret ++ [elp]) st
    | none =>
      match rels[relId]? with
      | none => none
      | some attrs =>
        let el := lineOf noColor o attrs
        if el.shortName.isEmpty && el.fromStr.isEmpty && el.toStr.isEmpty then
          getLines noColor o rels ids ret st
        else
          match findLine st.lines el with
          | some elp => getLines noColor o rels ids (ret ++ [elp]) { st with relLines := (relId, elp) :: st.relLines }
          | none =>
            let elp := st.heap.length
            getLines noColor o rels ids (ret ++ [elp])
              ⟨st.heap ++ [el], (el, elp) :: st.lines, (relId, elp) :: st.relLines⟩

/-- The calls made by `readEdges` (OsmBuilder.cpp:695-699), one for each way with relations. -/
def run (noColor : Nat) (o : Opts K) (rels : List (List (K × Str))) : List (List Nat) → List (List Nat) → St →
    Option (List (List Nat) × St)
  | [], rets, st => some (rets, st)
  | ids :: calls, rets, st =>
    match getLines noColor o rels ids [] st with
    | none => none
    | some (ret, st) => run noColor o rels calls (rets ++ [ret]) st

end Verif.Intern
