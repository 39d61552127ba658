import Verif.Tour.Model

/-!
# Matching a single trip (model)

Option `-T`: `ShapeBuilder::shapeL` and `ShapeBuilder::shapeify(Trip*)` (`src/pfaedle/router/ShapeBuilder.cpp:314-334, 367-378`). The lines that are
returned are written to `path.json` (`src/pfaedle/PfaedleMain.cpp:340-353`). `none` is undefined behaviour.
-/

namespace Verif.Single
open Verif.Trie (CEnv Trie)
open Verif.Router (getECM route)
open Verif.Line (LHop Geo getGeom)
open Verif.Build (Mode leafs)

variable {E C Pt D S P A : Type}

/-- ShapeBuilder.cpp:372-374: a trie for this trip only. The result of `addTrip` is not read. -/
def trieOf (c : CEnv Nat P A) (k : Nat) : Option (Trie Nat P A) :=
  match (Trie.Trie.empty c.toEnv).addTrip c.toEnv k (c.rAttrs k) c.timeEx false with
  | none => none
  | some (_, tr) => some tr

/-- ShapeBuilder.cpp:367-378: the hops of the first leaf; `noCache` is the null pointer for the hop cache. If the trie has no leaf,
`routes.begin()` is dereferenced although there is no element. -/
def shapeify (m : Mode E C Pt D S P A) (noCache : S) (k : Nat) : Option (List (LHop E Pt)) :=
  match trieOf m.c k with
  | none => none
  | some tr =>
    match getECM (m.gen tr) tr.nds, leafs tr with
    | some ecm, nid :: _ => route (m.env tr ecm noCache) tr.nds noCache nid
    | _, _ => none

/-- ShapeBuilder.cpp:314-334: the lines of the hops, with the attributes of the trip (329). -/
def shapeL [DecidableEq E] (geo : Geo Pt) (m : Mode E C Pt D S P A) (noCache : S) (k : Nat) : Option (List (List Pt)) :=
  match shapeify m noCache k with
  | none => none
  | some hops =>
    match getGeom geo (m.edges (m.c.rAttrs k)) hops with
    | none => none
    | some (lines, _) => some lines

end Verif.Single
