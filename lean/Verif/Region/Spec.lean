import Verif.Region.Model
import Verif.Extract.Spec
import Verif.BBoxIdx.Props

/-!
# The area of a filtered OSM file (specification)
-/

namespace Verif.Region
open Verif.Osm
open Verif.BBoxIdx (Pt Box InBox)

/-- The file: the tags before the first node, among them perhaps `bounds`, and the elements. -/
structure IsFile (d : Doc Pt) (hdr file : List XEv) : Prop where
  header : hdr.map XEv.seen = d.header
  rest : ∃ l : List (Ev Pt), d.tags = d.header ++ l ∧ file = hdr ++ l.map .ev

/-- The first `bounds` tag of the header (behind the tag that a parser shows before it has read anything) has these corners. -/
def HasBounds (hdr : List XEv) (c : Box) : Prop :=
  ∃ h0 pre l post, hdr = h0 :: (pre ++ .bounds l ⟨some c.y1, some c.x1, some c.y2, some c.x2⟩ :: post) ∧ ∀ e ∈ pre, ∀ k b, e ≠ .bounds k b

/-- All boxes are within the box. -/
def Within (bs : List Box) (c : Box) : Prop := ∀ b ∈ bs, c.x1 ≤ b.x1 ∧ b.x2 ≤ c.x2 ∧ c.y1 ≤ b.y1 ∧ b.y2 ≤ c.y2

/-- No two boxes of the list have an area in common. -/
def Apart (area : Box → Option Box → Int) (bs : List Box) : Prop := bs.Pairwise fun a b => area b (some a) ≤ 0

/-- The file cannot be filtered without boxes: no `bounds` tag, or the first one lacks an attribute. -/
def Unbounded (file : List XEv) : Prop :=
  ∀ h0 pre l b post, file = h0 :: (pre ++ .bounds l b :: post) → (∀ e ∈ pre, ∀ k b, e ≠ .bounds k b) →
    b.minlat = none ∨ b.minlon = none ∨ b.maxlat = none ∨ b.maxlon = none

end Verif.Region
