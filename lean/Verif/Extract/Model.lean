import Verif.Osm.Stream

/-!
# The filtered OSM file (model)

Model of the output of `OsmBuilder::filterWrite`, `src/pfaedle/osm/OsmBuilder.cpp:311-420`, with `readWriteNds` (818-838), `readWriteWays`
(487-509) and `readWriteRels` (421-484): what `Verif.Osm.filterWrite` selects, written as a file that can be read again. What becomes of a
string or a position between writing and the next reading (`pfxml::file::decode`, the escaping of `XmlWriter`, `std::to_string`) is a parameter.
-/

namespace Verif.Extract
open Verif.Names (Str)
open Verif.Osm

variable {P : Type}

/-- What is read back for what is written. -/
structure Pen (P : Type) where
  /-- 831-832: `std::to_string` writes six digits behind the point -/
  pos : P → P
  /-- 835, 470, 503: keys are written as they are -/
  key : Str → Str
  /-- 835, 471, 504: values are decoded -/
  val : Str → Str
  /-- 451, 460: roles are written as they are; an empty role is left out and read as empty -/
  role : Str → Str
  /-- the order of the hash map of attributes (Osm.h:21) -/
  ord : Attrs → Attrs

/-- 833-836, 468-473, 501-507: the attributes. -/
def writeAttrs (w : Pen P) (a : Attrs) : List (Ev P) := (w.ord a).map fun kv => ⟨3, .tag (w.key kv.1) (w.val kv.2)⟩

/-- 830-838. -/
def writeNode (w : Pen P) (n : Nod P) : List (Ev P) := ⟨2, .node n.id (w.pos n.pos)⟩ :: writeAttrs w n.attrs

/-- 495-508. -/
def writeWay (w : Pen P) (x : Way) : List (Ev P) := ⟨2, .way x.id⟩ :: (x.nodes.map (fun i => (⟨3, .nd i⟩ : Ev P)) ++ writeAttrs w x.attrs)

/-- 446-476: nodes first, then ways. -/
def writeRelation (w : Pen P) (r : Rel) : List (Ev P) :=
  ⟨2, .rel r.id⟩ :: (r.nodes.map (fun m => (⟨3, .member .node m.1 (w.role m.2)⟩ : Ev P)) ++
    (r.ways.map (fun m => (⟨3, .member .way m.1 (w.role m.2)⟩ : Ev P)) ++ writeAttrs w r.attrs))

/-- 323-389: `osm` and `bounds`, behind the tag that a parser shows before it has read anything. -/
def head : List (Ev P) := [⟨0, .other⟩, ⟨1, .other⟩, ⟨2, .other⟩]

/-- 311-420: the file. -/
def writeFile (w : Pen P) (o : Out P) : List (Ev P) :=
  head ++ (o.nodes.flatMap (writeNode w) ++ (o.ways.flatMap (writeWay w) ++ o.rels.flatMap (writeRelation w)))

/-- 391-420: the file for the configurations `os`; the merged filter has no drop rules (`OsmFilter::merge`, OsmFilter.cpp). -/
def extract (w : Pen P) (p0 : P) (os : List Opts) (ord : Attrs → Attrs) (box : List BoxOp → Nat → Bool) (bbox : P → Bool)
    (file : List (Ev P)) : List (Ev P) :=
  writeFile w (filterWrite p0 ⟨mergeAll os, [], ord⟩ (os.flatMap keptNode) (os.flatMap keptWay) (os.flatMap keptRel) box bbox file)

end Verif.Extract
