import Verif.Line.Spec

/-!
# Colour of a shape (specification)
-/

namespace Verif.Line
open Verif.Router (Hop HopEnd)
variable {E Pt : Type}

/-- The length of a line. -/
def lineLen (dist : Pt → Pt → Rat) (l : List Pt) : Rat := ((l.zip l.tail).map fun q => dist q.1 q.2).sum

/-- The length of the geometry of an edge (0 if it has none). -/
def edgeLen (geo : Geo Pt) (g : Edges E Pt) (e : E) : Rat := lineLen geo.dist ((g.geom e).getD [])

/-- The length of the part `x` of the edge, if one of the matching lines on it has colour `c`. -/
def onEdge (geo : Geo Pt) (g : Edges E Pt) (c : Nat) (e : E) (x : Rat) : Rat :=
  if c ∈ g.cols e then edgeLen geo g e * x else 0

/-- The length in colour `c` along the edges, up to the share `b` of the last one. -/
def onRest (geo : Geo Pt) (g : Edges E Pt) (c : Nat) (b : Rat) : List E → Rat
  | [] => 0
  | [e] => onEdge geo g c e b
  | e :: e' :: es => onEdge geo g c e 1 + onRest geo g c b (e' :: es)

/-- The length in colour `c` along the edges, from the share `a` of the first one to the share
`b` of the last one. -/
def onEdges (geo : Geo Pt) (g : Edges E Pt) (c : Nat) (a b : Rat) : List E → Rat
  | [] => 0
  | [e] => onEdge geo g c e (b - a)
  | e :: e' :: es => onEdge geo g c e (1 - a) + onRest geo g c b (e' :: es)

/-- The length of a hop in colour `c`. -/
def onHop (geo : Geo Pt) (g : Edges E Pt) (c : Nat) (h : LHop E Pt) : Rat :=
  match h.fr, h.to with
  | .onEdge _ x, .onEdge _ y => onEdges geo g c x.1.progr y.1.progr h.edges.reverse
  | _, _ => 0

/-- The length of all hops in colour `c`. -/
def onHops (geo : Geo Pt) (g : Edges E Pt) (c : Nat) (hops : List (LHop E Pt)) : Rat :=
  (hops.map (onHop geo g c)).sum

end Verif.Line
