import Verif.Router.Model

/-!
# Geometries, distances and colour of a shape (model)

Model of the part of `src/pfaedle/router/ShapeBuilder.cpp` that turns the hops of a trip into
its shape: `getGeom` (972-1028), `getLine` (1031-1133), `getMeasure` (1136-1157),
`getGtfsShape` (564-601) and `setShape` (548-561).

The hops are those of `Verif.Router`; the position data of a candidate is its progress on the
edge and its point. Progress, lengths and distances are exact rational numbers; the conversion
of a distance to `float` is an arbitrary function `rnd`. `PolyLine::getSegment`,
`util::geo::simplify` and `util::geo::haversine` are parameters. `none` is undefined behaviour
(access to an element of an empty line, length of an edge without geometry).
-/

namespace Verif.Line
open Verif.Router (Hop HopEnd)

/-- What is read of the utility library. -/
structure Geo (Pt : Type) where
  /-- `PolyLine(l).getSegment(a, b).getLine()` -/
  seg : List Pt → Rat → Rat → List Pt
  /-- `util::geo::simplify(l, 0.5 / M_PER_DEG)` -/
  simplify : List Pt → List Pt
  /-- `util::geo::haversine` -/
  dist : Pt → Pt → Rat
  /-- conversion to `float` -/
  rnd : Rat → Rat

/-- What is read of the edges. -/
structure Edges (E Pt : Type) where
  /-- `*e->getFrom()->pl().getGeom()` -/
  from_ : E → Pt
  /-- `*e->getTo()->pl().getGeom()` -/
  to_ : E → Pt
  /-- `e->pl().getGeom()`; `none` is the null pointer -/
  geom : E → Option (List Pt)
  /-- `e->pl().isRev()` -/
  rev : E → Bool
  /-- `getColorMatch(e, rAttrs)` (1237-1246), in ascending order -/
  cols : E → List Nat

/-- The position data of a candidate (Misc.h:27-34 `progr`, `point`). -/
structure Pos (Pt : Type) where
  progr : Rat
  point : Pt

/-- A hop as in `Verif.Router` (the number is the time of the candidate, not read here). -/
abbrev LHop (E Pt : Type) := Hop E (Pos Pt × Int)

/-- `std::map<uint32_t, double>`: colours in ascending order. -/
abbrev Cols := List (Nat × Rat)

variable {E Pt : Type}

/-- `(*colors)[color] += x`. -/
def Cols.add (m : Cols) (c : Nat) (x : Rat) : Cols :=
  match m with
  | [] => [(c, x)]
  | p :: m => if c < p.1 then (c, x) :: p :: m else if c = p.1 then (p.1, p.2 + x) :: m else p :: Cols.add m c x

/-- The loops 1064-1066, 1079-1081, 1086-1088, 1101-1103, 1113-1115. -/
def Cols.addAll (m : Cols) (cs : List Nat) (x : Rat) : Cols := cs.foldl (fun m c => m.add c x) m

/-- Sum of the distances of consecutive points. -/
def lenGo (geo : Geo Pt) : List Pt → Rat
  | a :: b :: l => geo.dist a b + lenGo geo (b :: l)
  | _ => 0

/-- EdgePL.cpp:78-86; the null pointer is dereferenced if there is no geometry. -/
def length (geo : Geo Pt) (g : Edges E Pt) (e : E) : Option Rat := (g.geom e).map (lenGo geo)

/-- ShapeBuilder.cpp:1123-1133. -/
def edgeLine (g : Edges E Pt) (e : E) : List Pt :=
  match g.geom e with
  | none => [g.from_ e, g.to_ e]
  | some [] => [g.from_ e, g.to_ e]
  | some (p :: l) => if g.rev e then (p :: l).reverse else p :: l

/-- ShapeBuilder.cpp:1002-1008 and 1039-1045 (with `first` the point used at progress 0): the
starting point of a straight line. -/
def startPt (geo : Geo Pt) (g : Edges E Pt) (e : E) (progr : Rat) (first : Option Pt) : Option Pt :=
  if progr > 0 then (geo.seg (edgeLine g e) progr 1).head? else first

/-- ShapeBuilder.cpp:1010-1017 and 1047-1053: the end point of a straight line. -/
def endPt (geo : Geo Pt) (g : Edges E Pt) (e : E) (progr : Rat) : Option Pt :=
  if progr > 0 then (geo.seg (edgeLine g e) 0 progr).getLast? else some (g.from_ e)

/-- ShapeBuilder.cpp:1093-1105: the inner edges; the loop variable runs down to 1. -/
def midGo (geo : Geo Pt) (g : Edges E Pt) (edges : List E) : Nat → List Pt × Cols → Option (List Pt × Cols)
  | 0, s => some s
  | j + 1, s =>
    match edges[j + 1]? with
    | none => none
    | some e =>
      match length geo g e with
      | none => none
      | some x => midGo geo g edges j (s.1 ++ edgeLine g e, s.2.addAll (g.cols e) x)

/-- ShapeBuilder.cpp:1031-1120: the line of a hop with both ends on an edge. -/
def hopLine [DecidableEq E] (geo : Geo Pt) (g : Edges E Pt) (edges : List E) (st en : E) (ps pe : Rat) (cols : Cols) :
    Option (List Pt × Cols) :=
  if edges.length = 0 then
    match startPt geo g st ps (edgeLine g st).head?, endPt geo g en pe with
    | some a, some b => some ([a, b], cols)
    | _, _ => none
  else if edges.length = 1 ∧ st = en then
    match length geo g st with
    | none => none
    | some x => some (geo.seg (edgeLine g st) ps pe, cols.addAll (g.cols st) x)
  else
    match length geo g st with
    | none => none
    | some x =>
      let s : List Pt × Cols := if ps > 0 then
          (geo.seg (edgeLine g st) ps 1, cols.addAll (g.cols st) (x * (1 - ps)))
        else (edgeLine g st, cols.addAll (g.cols st) x)
      match midGo geo g edges (if edges.length > 1 then edges.length - 2 else 0) s with
      | none => none
      | some s =>
        let r : Option (List Pt × Cols) := if pe > 0 then
            match length geo g en with
            | none => none
            | some x => some (s.1 ++ geo.seg (edgeLine g en) 0 pe, s.2.addAll (g.cols en) (x * pe))
          else some s
        match r with
        | none => none
        | some s => some (if s.1.length > 1 then geo.simplify s.1 else s.1, s.2)

/-- ShapeBuilder.cpp:979-1024: the line of one hop. -/
def oneLine [DecidableEq E] (geo : Geo Pt) (g : Edges E Pt) (h : LHop E Pt) (cols : Cols) : Option (List Pt × Cols) :=
  match h.fr, h.to with
  | .onEdge s x, .onEdge e y => hopLine geo g h.edges s e x.1.progr y.1.progr cols
  | .onEdge s x, .free y =>
    match startPt geo g s x.1.progr (some (g.from_ s)) with
    | some a => some ([a, y.1.point], cols)
    | none => none
  | .free x, .onEdge e y =>
    match endPt geo g e y.1.progr with
    | some b => some ([x.1.point, b], cols)
    | none => none
  | .free x, .free y => some ([x.1.point, y.1.point], cols)

/-- ShapeBuilder.cpp:978-1025: the loop over the hops, from the last element to the first. -/
def geomGo [DecidableEq E] (geo : Geo Pt) (g : Edges E Pt) (hops : List (LHop E Pt)) :
    Nat → List (List Pt) × Cols → Option (List (List Pt) × Cols)
  | 0, s => some s
  | i + 1, s =>
    match hops[i]? with
    | none => none
    | some h =>
      match oneLine geo g h s.2 with
      | none => none
      | some r => geomGo geo g hops i (s.1 ++ [r.1], r.2)

/-- ShapeBuilder.cpp:972-1028 (`colors` is empty at the call, 572). -/
def getGeom [DecidableEq E] (geo : Geo Pt) (g : Edges E Pt) (hops : List (LHop E Pt)) : Option (List (List Pt) × Cols) :=
  geomGo geo g hops hops.length ([], [])

/-- ShapeBuilder.cpp:1144-1153: one line; the state is `ret` and `last`. -/
def measLine (geo : Geo Pt) (s : List Rat × Pt) (l : List Pt) : List Rat × Pt :=
  l.foldl (fun s p =>
    (match s.1.getLast? with
      | none => s.1 ++ [0]
      | some b => s.1 ++ [geo.rnd (b + geo.dist s.2 p)], p)) s

/-- ShapeBuilder.cpp:1136-1157. -/
def getMeasure (geo : Geo Pt) (lines : List (List Pt)) : Option (List Rat) :=
  match lines with
  | (p :: _) :: _ => some (lines.foldl (measLine geo) ([], p)).1
  | _ => none

/-- `ShapePoint` (of the GTFS library): position, distance and number. -/
structure ShpPt (Pt : Type) where
  p : Pt
  d : Rat
  seq : Nat
deriving DecidableEq

/-- ShapeBuilder.cpp:580-584: the points of one line. -/
def ptsGo (meas : List Rat) : List Pt → List (ShpPt Pt) × Nat → Option (List (ShpPt Pt) × Nat)
  | [], s => some s
  | p :: l, s =>
    match meas[s.2]? with
    | none => none
    | some d => ptsGo meas l (s.1 ++ [⟨p, d, s.2⟩], s.2 + 1)

/-- ShapeBuilder.cpp:579-586: the state is the shape, `seq` and `hopDists`. -/
def shpGo (meas : List Rat) : List (List Pt) → List (ShpPt Pt) × Nat → List Rat → Option (List (ShpPt Pt) × List Rat)
  | [], s, ds => some (s.1, ds)
  | l :: ls, s, ds =>
    match ptsGo meas l s with
    | none => none
    | some s =>
      if s.2 = 0 then none
      else
        match meas[s.2 - 1]? with
        | none => none
        | some d => shpGo meas ls s (ds ++ [d])

/-- The value of `c.second / measures.back()`, a `double`. -/
inductive Share where
  | fin (x : Rat)
  | inf
  | nan
deriving DecidableEq

def share (x tot : Rat) : Share :=
  if tot = 0 then (if x > 0 then .inf else .nan) else .fin (x / tot)

/-- `progr > x` for `double`. -/
def Share.gt : Share → Share → Bool
  | .fin a, .fin b => a > b
  | .inf, .fin _ => true
  | _, _ => false

/-- ShapeBuilder.cpp:589-598; `none` is `NO_COLOR`. -/
def bestColor (cols : Cols) (tot : Rat) : Option Nat :=
  (cols.foldl (fun b c =>
    if (share c.2 tot).gt (.fin (9 / 10)) && (share c.2 tot).gt b.1 then (share c.2 tot, some c.1) else b)
    (Share.fin 0, none)).2

/-- Result of `getGtfsShape`: the points of the shape, `hopDists` and `bestColor`. -/
structure Shp (Pt : Type) where
  pts : List (ShpPt Pt)
  dists : List Rat
  color : Option Nat
deriving DecidableEq

/-- ShapeBuilder.cpp:564-601. -/
def getGtfsShape [DecidableEq E] (geo : Geo Pt) (g : Edges E Pt) (hops : List (LHop E Pt)) : Option (Shp Pt) :=
  match getGeom geo g hops with
  | none => none
  | some gl =>
    match getMeasure geo gl.1 with
    | none => none
    | some meas =>
      match shpGo meas gl.1 ([], 0) [0] with
      | none => none
      | some r =>
        match meas.getLast? with
        | none => none
        | some tot => some ⟨r.1, r.2, bestColor gl.2 tot⟩

/-- ShapeBuilder.cpp:552-556: the distances of the stop times; `distances[i]` must exist. -/
def setDists (dists : List Rat) : Nat → Nat → Option (List Rat)
  | _, 0 => some []
  | i, n + 1 =>
    match dists[i]? with
    | none => none
    | some d => (setDists dists (i + 1) n).map (d :: ·)

end Verif.Line
