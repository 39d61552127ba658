import Verif.Line.Model

/-!
# Geometries, distances and colour of a shape (specification)

What is assumed of the utility library, and what it means that a line follows a sequence of
edges.
-/

namespace Verif.Line
open Verif.Router (Hop HopEnd)
variable {E Pt : Type}

/-- `m` is the part of `l` from `a` to `b` (`pt l x` is the point of `l` at the share `x` of its
length): it starts and ends there, and its inner points are consecutive points of `l`. -/
structure Piece (pt : List Pt → Rat → Pt) (l : List Pt) (a b : Rat) (m : List Pt) : Prop where
  head : m.head? = some (pt l a)
  last : m.getLast? = some (pt l b)
  inner : m.tail.dropLast <:+: l

/-- What is assumed of `getSegment`, `simplify`, `haversine` and the conversion to `float`. -/
structure GeoOk (geo : Geo Pt) (pt : List Pt → Rat → Pt) : Prop where
  pt_zero : ∀ l p, l.head? = some p → pt l 0 = p
  pt_one : ∀ l p, l.getLast? = some p → pt l 1 = p
  seg : ∀ l a b, l ≠ [] → 0 ≤ a → a ≤ b → b ≤ 1 → Piece pt l a b (geo.seg l a b)
  simp_head : ∀ l, 2 ≤ l.length → (geo.simplify l).head? = l.head?
  simp_last : ∀ l, 2 ≤ l.length → (geo.simplify l).getLast? = l.getLast?
  simp_sub : ∀ l, 2 ≤ l.length → (geo.simplify l).Sublist l
  dist_nonneg : ∀ a b, 0 ≤ geo.dist a b
  rnd_zero : geo.rnd 0 = 0
  rnd_idem : ∀ x, geo.rnd (geo.rnd x) = geo.rnd x
  rnd_mono : ∀ x y, x ≤ y → geo.rnd x ≤ geo.rnd y

/-- The line of an edge in its direction of travel: its geometry, backwards if the edge is
reversed, and the straight line between its nodes if it has none. -/
inductive Trav (g : Edges E Pt) (e : E) : List Pt → Prop where
  | none : (∀ l, g.geom e = some l → l = []) → Trav g e [g.from_ e, g.to_ e]
  | fwd (l : List Pt) : g.geom e = some l → l ≠ [] → g.rev e = false → Trav g e l
  | bwd (l : List Pt) : g.geom e = some l → l ≠ [] → g.rev e = true → Trav g e l.reverse

/-- The edges lead from the first of their nodes to the second. -/
def GeomOk (g : Edges E Pt) : Prop :=
  ∀ e l, Trav g e l → l.head? = some (g.from_ e) ∧ l.getLast? = some (g.to_ e)

/-- The position of an end of a hop. -/
inductive At (pt : List Pt → Rat → Pt) (g : Edges E Pt) : HopEnd E (Pos Pt × Int) → Pt → Prop where
  | edge (e : E) (x : Pos Pt × Int) (l : List Pt) : Trav g e l → At pt g (.onEdge e x) (pt l x.1.progr)
  | free (x : Pos Pt × Int) : At pt g (.free x) x.1.point

/-- `es` are edges of which each starts where the one before ends. -/
def Chain (g : Edges E Pt) : List E → Prop
  | e :: e' :: es => g.to_ e = g.from_ e' ∧ Chain g (e' :: es)
  | _ => True

/-- What is assumed of a hop: progress is between 0 and 1; it has no edges if one of its ends is
not on an edge; if it has edges, then they lead (in
reverse order) from the start edge to the end edge and have a geometry; a hop within an edge
goes forward. -/
structure HopOk (g : Edges E Pt) (h : LHop E Pt) : Prop where
  fr : ∀ e x, h.fr = .onEdge e x → 0 ≤ x.1.progr ∧ x.1.progr ≤ 1
  to : ∀ e x, h.to = .onEdge e x → 0 ≤ x.1.progr ∧ x.1.progr ≤ 1
  free : (∃ x, h.fr = .free x) ∨ (∃ x, h.to = .free x) → h.edges = []
  start : ∀ e x, h.fr = .onEdge e x → h.edges ≠ [] → h.edges.getLast? = some e
  stop : ∀ e x, h.to = .onEdge e x → h.edges ≠ [] → h.edges.head? = some e
  chain : Chain g h.edges.reverse
  geom : ∀ e ∈ h.edges, g.geom e ≠ none
  forward : ∀ e x e' y, h.fr = .onEdge e x → h.to = .onEdge e' y → h.edges.length = 1 → x.1.progr ≤ y.1.progr

/-- The line `r` along the edges after the first one, up to the share `b` of the last edge. -/
inductive Rest (pt : List Pt → Rat → Pt) (g : Edges E Pt) (b : Rat) : List E → List Pt → Prop where
  | stop (e : E) : b = 0 → Rest pt g b [e] []
  | part (e : E) (l m : List Pt) : 0 < b → Trav g e l → Piece pt l 0 b m → Rest pt g b [e] m
  | pass (e : E) (l : List Pt) (es : List E) (r : List Pt) : Trav g e l → es ≠ [] → Rest pt g b es r →
      Rest pt g b (e :: es) (l ++ r)

/-- The line along the edges, from the share `a` of the first one to the share `b` of the last
one. -/
inductive Full (pt : List Pt → Rat → Pt) (g : Edges E Pt) (a b : Rat) : List E → List Pt → Prop where
  | one (e : E) (l m : List Pt) : Trav g e l → Piece pt l a b m → Full pt g a b [e] m
  | whole (e : E) (l : List Pt) (es : List E) (r : List Pt) : a = 0 → Trav g e l → es ≠ [] → Rest pt g b es r →
      Full pt g a b (e :: es) (l ++ r)
  | from_ (e : E) (l m : List Pt) (es : List E) (r : List Pt) : 0 < a → Trav g e l → Piece pt l a 1 m → es ≠ [] →
      Rest pt g b es r → Full pt g a b (e :: es) (m ++ r)

/-- `l` is a simplification of `m`: some of its points, among them the first and the last. -/
def Simpl (m l : List Pt) : Prop := l.Sublist m ∧ l.head? = m.head? ∧ l.getLast? = m.getLast?

/-- `l` is the line of the hop `h`: it leads from the start position to the end position, is
straight if the hop has no edges, and otherwise a simplification of the line along its edges (which
are stored in reverse order). -/
def LineOf (pt : List Pt → Rat → Pt) (g : Edges E Pt) (h : LHop E Pt) (l : List Pt) : Prop :=
  (∃ a b, At pt g h.fr a ∧ At pt g h.to b ∧ l.head? = some a ∧ l.getLast? = some b ∧ (h.edges = [] → l = [a, b])) ∧
  (∀ e x e' y, h.fr = .onEdge e x → h.to = .onEdge e' y → h.edges ≠ [] →
    ∃ full, Full pt g x.1.progr y.1.progr h.edges.reverse full ∧ Simpl full l)

end Verif.Line
