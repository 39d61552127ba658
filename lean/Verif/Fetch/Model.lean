import Verif.Osm.Filter
import Verif.BBoxIdx.Model

/-!
# Queries for map data (model)

Model of `OsmBuilder::overpassQryWrite`, `src/pfaedle/osm/OsmBuilder.cpp:229-308`, and `OsmBuilder::osmfilterRuleWrite`, 184-226: what the
program writes with `--overpass` and `--osmfilter`. The XML around the queries is not modelled, nor are the comments.
-/

namespace Verif.Fetch
open Verif.Names (Str)
open Verif.Osm
open Verif.BBoxIdx (Box Nd leafs)

inductive Kind where
  | node | way | relation
deriving DecidableEq

/-- One `query` of the script: `has-kv` without value if the value is `none`, and `bbox-query`. -/
structure Query where
  kind : Kind
  key : Str
  val : Option Str
  box : Box
deriving DecidableEq

/-- 272-274: the flag that excludes elements of the kind. -/
def flagOf : Kind → Nat
  | .way => WAY
  | .relation => REL
  | .node => NODE

/-- 278-281, 214: `*` stands for any value. -/
def valOf (v : Str) : Option Str := if v = [42] then none else some v

/-- 269-292: the queries for one box. -/
def queries (rules : Rules) (box : Box) : List Query :=
  [.way, .node, .relation].flatMap fun t => rules.flatMap fun r => r.2.filterMap fun v =>
    if v.2 &&& flagOf t ≠ 0 then none else some ⟨t, r.1, valOf v.1, box⟩

/-- 283-287: the box as it is read by the server. `dig` is what becomes of a number that is written by `std::to_string`, with six digits behind the
point. -/
def written (dig : Int → Int) (b : Box) : Box := ⟨dig b.x1, dig b.y1, dig b.x2, dig b.y2⟩

/-- 256-295: the queries of the script. An empty box (258) is one that holds nothing. -/
def overpass (dig : Int → Int) (os : List Opts) (idx : Nd) : List Query :=
  (leafs idx).flatMap fun b =>
    match b with
    | none => []
    | some b => if b.x1 > b.x2 then [] else queries (mergeAll os) (written dig b)

/-- What is written for osmfilter: the rules `--keep`, and the keys of `--keep-tags`. -/
structure Rule where
  keep : List (Str × Option Str)
  tags : List Str

/-- 204-225. -/
def osmfilter (os : List Opts) : Rule where
  keep := (mergeAll os).flatMap fun r => r.2.map fun v => (r.1, valOf v.1)
  tags := os.flatMap keptNode ++ os.flatMap keptWay ++ os.flatMap keptRel

end Verif.Fetch
