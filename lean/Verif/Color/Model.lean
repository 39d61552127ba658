import Verif.Names.Model

/-!
# Colours (model)

Model of `OsmBuilder::parseHexColor` (`src/pfaedle/osm/OsmBuilder.cpp:1886-1938`), its use in
`getLines` (1408-1423) and `ShapeBuilder::getTextColor`
(`src/pfaedle/router/ShapeBuilder.cpp:1249-1260`). Strings are lists of bytes.
-/

namespace Verif.Color
open Verif.Names (Str)

/-- `::toupper` (in a UTF-8 locale bytes above 127 are not changed). -/
def toUpper (c : Nat) : Nat := if 97 ≤ c ∧ c ≤ 122 then c - 32 else c

/-- `isdigit(c)` or `isalpha(c) && c > 64 && c < 71`. -/
def hexChar (c : Nat) : Bool := (48 ≤ c && c ≤ 57) || (64 < c && c < 71)

/-- Value of a hexadecimal digit (also lower case, as in `strtoul`). -/
def digitVal? (c : Nat) : Option Nat :=
  if 48 ≤ c ∧ c ≤ 57 then some (c - 48)
  else if 65 ≤ c ∧ c ≤ 70 then some (c - 55)
  else if 97 ≤ c ∧ c ≤ 102 then some (c - 87)
  else none

/-- The digits up to the first other character. -/
def hexRun : Str → Nat → Nat
  | [], n => n
  | c :: s, n =>
    match digitVal? c with
    | some d => hexRun s (16 * n + d)
    | none => n

/-- `std::stoul("0x" + ret, &proced, 16)`: if no digit follows the prefix, only its `0` is
converted. (The result of at most six digits always fits.) -/
def stoul0x (ret : Str) : Nat := hexRun ret 0

/-- OsmBuilder.cpp:1892-1899: the six characters after `#`. -/
def copy6 : Str → Option Str
  | [] => some []
  | c :: s => if hexChar c then (copy6 s).map (c :: ·) else none

/-- OsmBuilder.cpp:1905-1915: the three characters after `#`, each of them twice. -/
def copy3 : Str → Option Str
  | [] => some []
  | c :: s => if hexChar c then (copy3 s).map (fun r => c :: c :: r) else none

/-- OsmBuilder.cpp:1919-1934. -/
def names : List (Str × Nat) :=
  [([66, 76, 65, 67, 75], 0x000000), ([83, 73, 76, 86, 69, 82], 0xC0C0C0), ([71, 82, 65, 89], 0x808080),
   ([87, 72, 73, 84, 69], 0xFFFFFF), ([77, 65, 82, 79, 79, 78], 0x800000), ([82, 69, 68], 0xFF0000),
   ([80, 85, 82, 80, 76, 69], 0x800080), ([70, 85, 67, 72, 83, 73, 65], 0xFF00FF), ([71, 82, 69, 69, 78], 0x008000),
   ([76, 73, 77, 69], 0x00FF00), ([79, 76, 73, 86, 69], 0x808000), ([89, 69, 76, 76, 79, 87], 0xFFFF00),
   ([78, 65, 86, 89], 0x000080), ([66, 76, 85, 69], 0x0000FF), ([84, 69, 65, 76], 0x008080),
   ([65, 81, 85, 65], 0x00FFFF)]

/-- OsmBuilder.cpp:1886-1938. `ret` (six spaces) is never empty, so that 1936 is dead code. -/
def parseHexColor (noColor : Nat) (s : Str) : Nat :=
  let s := s.map toUpper
  match s with
  | c :: r =>
    if s.length = 7 ∧ c = 35 then
      match copy6 r with
      | some ret => stoul0x ret
      | none => noColor
    else if s.length = 4 ∧ c = 35 then
      match copy3 r with
      | some ret => stoul0x ret
      | none => noColor
    else
      match names.find? (fun p => p.1 = s) with
      | some p => p.2
      | none => stoul0x [32, 32, 32, 32, 32, 32]
  | [] => stoul0x [32, 32, 32, 32, 32, 32]

/-- OsmBuilder.cpp:1413-1415: the colour of one attribute value. -/
def attrColor (noColor : Nat) (dec : Str) : Nat :=
  let color := parseHexColor noColor dec
  if color = noColor then parseHexColor noColor (35 :: dec) else color

/-- OsmBuilder.cpp:1410-1421: the attributes of the relation (in the order of iteration) for one key. -/
def ruleColor {K : Type} [DecidableEq K] (noColor : Nat) (key : K) (attrs : List (K × Str)) (s : Bool × Nat) : Bool × Nat :=
  attrs.foldl (fun s a =>
    if a.1 = key then
      let color := attrColor noColor a.2
      if color ≠ noColor then (true, color) else s
    else s) s

/-- OsmBuilder.cpp:1408-1423: the colour of a line. -/
def lineColor {K : Type} [DecidableEq K] (noColor : Nat) (attrs : List (K × Str)) : List K → Bool × Nat → Nat
  | [], s => s.2
  | key :: keys, s =>
    let s := ruleColor noColor key attrs s
    if s.1 then s.2 else lineColor noColor attrs keys s

/-! ### text colour -/

/-- What is used of `double`: `sqrt(x / 3)` for an integer `x`, below. -/
structure Flt where
  sqrtThird : Nat → Rat

/-- ShapeBuilder.cpp:1249-1260. -/
def getTextColor (f : Flt) (c : UInt32) : UInt32 :=
  let r := ((c &&& 0x00FF0000) >>> 16).toNat
  let g := ((c &&& 0x0000FF00) >>> 8).toNat
  let b := (c &&& 0x000000FF).toNat
  let a := f.sqrtThird (r * r + g * g + b * b)
  if a < 140 then 0x00FFFFFF else 0

end Verif.Color
