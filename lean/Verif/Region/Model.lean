import Verif.Extract.Model
import Verif.BBoxIdx.Model

/-!
# The area of a filtered OSM file (model)

Model of `OsmBuilder::filterWrite`, `src/pfaedle/osm/OsmBuilder.cpp:311-420`, with the choice of the area: the boxes of the trips (`getGtfsBox`), or, if
there are none, the `bounds` tag of the file. The rest is `Verif.Extract.extract`. Coordinates are integers as in the model of the index of boxes.
`atof` is the identity; padding (`BBoxIdx::add`, `osm/BBoxIdx.cpp:13-21`) is a parameter.
-/

namespace Verif.Region
open Verif.Names (Str)
open Verif.Osm
open Verif.BBoxIdx (Pt Box)
open Verif.Extract (Pen extract)

/-- The attributes of a `bounds` tag. -/
structure Bounds where
  minlat : Option Int
  minlon : Option Int
  maxlat : Option Int
  maxlon : Option Int
deriving DecidableEq

/-- A tag of a file: a `bounds` tag with its depth, or another one. -/
inductive XEv where
  | ev (e : Ev Pt)
  | bounds (level : Nat) (b : Bounds)

/-- What all other parts of the program see of a tag. -/
def XEv.seen : XEv → Ev Pt
  | .ev e => e
  | .bounds l _ => ⟨l, .other⟩

def XEv.isBounds : XEv → Bool
  | .ev _ => false
  | .bounds _ _ => true

/-- OsmBuilder.cpp:600-603 for `bounds`: leaves the current tag and stops at the next one with the name. -/
def skipBounds : List XEv → List XEv
  | [] => []
  | _ :: rest => rest.dropWhile fun e => !e.isBounds

/-- Why a file cannot be filtered (`pfxml::parse_exc`). -/
inductive Err where
  | noBounds | noAttr (name : String)
deriving DecidableEq

/-- OsmBuilder.cpp:343-371. -/
def boundsBox (b : Bounds) : Except Err Box :=
  match b.minlat with
  | none => .error (.noAttr "minlat")
  | some y1 =>
    match b.minlon with
    | none => .error (.noAttr "minlon")
    | some x1 =>
      match b.maxlat with
      | none => .error (.noAttr "maxlat")
      | some y2 =>
        match b.maxlon with
        | none => .error (.noAttr "maxlon")
        | some x2 => .ok ⟨x1, y1, x2, y2⟩

/-- OsmBuilder.cpp:331-374: the boxes of the area and the tags that are left. `boxes` are the padded boxes of the trips. -/
def region (pad : Box → Box) (boxes : List Box) (file : List XEv) : Except Err (List Box × List XEv) :=
  if boxes.length = 0 then
    match skipBounds file with
    | .bounds l b :: rest =>
      match boundsBox b with
      | .error e => .error e
      | .ok c => .ok ([pad c], .bounds l b :: rest)
    | _ => .error .noBounds
  else .ok (boxes, file)

/-- OsmBuilder.cpp:381-389: the corners of the full box. -/
def boundsOf (w : Pen Pt) : Option Box → Bounds
  | none => ⟨none, none, none, none⟩
  | some b => ⟨some (w.pos ⟨b.x1, b.y1⟩).y, some (w.pos ⟨b.x1, b.y1⟩).x, some (w.pos ⟨b.x2, b.y2⟩).y, some (w.pos ⟨b.x2, b.y2⟩).x⟩

/-- OsmBuilder.cpp:311-420: the written file; nothing is written in case of an error (the file is opened in 376). -/
def write (w : Pen Pt) (p0 : Pt) (os : List Opts) (ord : Attrs → Attrs) (box : List BoxOp → Nat → Bool) (area : Box → Option Box → Int)
    (pad : Box → Box) (boxes : List Box) (file : List XEv) : Except Err (List XEv) :=
  match region pad boxes file with
  | .error e => .error e
  | .ok (bs, rest) =>
    let nd := BBoxIdx.build area bs
    let out := extract w p0 os ord box (fun q => BBoxIdx.treeHas q nd) (rest.map XEv.seen)
    .ok (.ev ⟨0, .other⟩ :: .ev ⟨1, .other⟩ :: .bounds 2 (boundsOf w nd.box) :: (out.drop 3).map .ev)

end Verif.Region
