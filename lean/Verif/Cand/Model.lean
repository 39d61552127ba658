import Verif.Base.FMap
/-!
# Candidates of a stop (model)

Model of `getEdgCands`, `deg2reachable`, `emWeight`, `buildIndex` and `buildCandCache` of
`src/pfaedle/router/ShapeBuilder.cpp`. Distances, progresses and similarity of names come from the utility library and the classifier:
they are functions of the environment, with exact rationals for doubles. The grids are libraries; what they return is part of the
query. Sets of pointers are lists in any order. Undefined behaviour (the front of an empty list) is `none` or `.ub`.
-/

namespace Verif.Cand
variable {E N : Type} [DecidableEq E] [DecidableEq N]

/-- The graph as far as it is used. -/
structure Graph (E N : Type) where
  fr : E → N
  to : E → N
  out : N → List E
  inn : N → List E
  deg : N → Nat
  /-- `oneWay() == 2`: against the direction of a one-way edge -/
  wrong : E → Bool
  lvl : E → Nat

/-- How a loop of `deg2reachable` ends. -/
inductive Res (E : Type)
  | ub
  | fuel
  | found (e : E)
  | stop (cur : E)
  deriving DecidableEq, Repr

/-- ShapeBuilder.cpp:289-291: the edge after `e` that does not lead back. -/
def fwdNext (g : Graph E N) (e : E) : Option E :=
  match (g.out (g.to e)).head?, (g.out (g.to e)).getLast? with
  | some f, some b => some (if g.to f = g.fr e then b else f)
  | _, _ => none

/-- ShapeBuilder.cpp:301-303. -/
def bwdNext (g : Graph E N) (e : E) : Option E :=
  match (g.inn (g.fr e)).head?, (g.inn (g.fr e)).getLast? with
  | some f, some b => some (if g.fr f = g.to e then b else f)
  | _, _ => none

/-- ShapeBuilder.cpp:287-296. The first argument bounds the number of rounds. -/
def fwd (g : Graph E N) (e : E) (edgs : List E) : Nat → E → Res E
  | 0, _ => .fuel
  | n + 1, cur =>
    if g.deg (g.to cur) = 2 then
      match fwdNext g e with
      | none => .ub
      | some next =>
        if next = e ∨ next = cur then .stop cur
        else if g.wrong next then .stop cur
        else if next ∈ edgs then .found next
        else fwd g e edgs n next
    else .stop cur

/-- ShapeBuilder.cpp:299-308. It is `cur`, not `next`, that is looked up in 306. -/
def bwd (g : Graph E N) (e : E) (edgs : List E) : Nat → E → Res E
  | 0, _ => .fuel
  | n + 1, cur =>
    if g.deg (g.fr cur) = 2 then
      match bwdNext g e with
      | none => .ub
      | some next =>
        if next = e ∨ next = cur then .stop cur
        else if g.wrong next then .stop cur
        else if cur ∈ edgs then .found next
        else bwd g e edgs n next
    else .stop cur

/-- ShapeBuilder.cpp:282-311. -/
def deg2reachable (g : Graph E N) (fuel : Nat) (e : E) (edgs : List E) : Res E :=
  match fwd g e edgs fuel e with
  | .stop cur => bwd g e edgs fuel cur
  | r => r

/-- The methods of `emWeight`. -/
inductive EmMethod
  | exp
  | norm
  | other
  deriving DecidableEq, Repr

/-- ShapeBuilder.cpp:1263-1275. -/
def emWeight (m : EmMethod) (fac d : Rat) : Rat :=
  match m with
  | .exp => d * fac
  | .norm => (1 / 2) * (d * fac) * (d * fac)
  | .other => d

/-- Misc.h:27-34, without `time` and `depPrede`; the placeholder has no edge. -/
structure Cand (E P : Type) where
  e : Option E
  pen : Rat
  progr : Rat
  pos : Option P
  deriving DecidableEq, Repr

/-- Options. -/
structure Opts where
  useStations : Bool
  maxStationCandDistance : Rat
  maxSnapDistance : Rat
  maxSnapLevel : Nat
  stationUnmatchedPen : Rat
  platformUnmatchedPen : Rat
  nonStationPen : Rat
  emMethod : EmMethod
  distFac : Rat

/-- What is asked for one stop: its position and platform, the distances of nodes and edges, similarity of its name with that of a
station, the tracks of stations, projections on edges and edges that are stored reversed. -/
structure Query (E N P : Type) where
  pos : P
  platform : List Nat
  nDist : N → Rat
  eDist : E → Rat
  similar : N → Bool
  track : N → List Nat
  progr : E → Rat
  rev : E → Bool
  /-- nodes found in the grid, 192-195 -/
  nds : List N
  /-- edges found in the grid, 232-235 -/
  edgs : List E

variable {P : Type}

/-- ShapeBuilder.cpp:197-228. -/
def stationCands (g : Graph E N) (o : Opts) (q : Query E N P) : List (Cand E P) :=
  if o.useStations then
    q.nds.flatMap fun nd =>
      if q.nDist nd > o.maxStationCandDistance then []
      else
        let namePen := if q.similar nd then 0 else o.stationUnmatchedPen
        let trackPen :=
          if !q.platform.isEmpty && !(q.track nd).isEmpty && q.track nd == q.platform then o.platformUnmatchedPen else 0
        (g.out (nd)).filterMap fun e =>
          if g.wrong e then none
          else some ⟨some e, emWeight o.emMethod o.distFac (q.nDist nd) + namePen + trackPen, 0, none⟩
  else []

/-- `selected`, `scores` and `progrs` of `getEdgCands`, 237-239. -/
structure Sel (E : Type) where
  selected : List E
  scores : FMap E Rat
  progrs : FMap E Rat

/-- ShapeBuilder.cpp:248-261, inserting an edge. -/
def insertEdge (q : Query E N P) (s : Sel E) (reach : Option E) (edg : E) : Sel E :=
  let s := match reach with
    | some r => { s with selected := s.selected.filter (· ≠ r), scores := s.scores.erase r }
    | none => s
  let progr := if q.rev edg then 1 - q.progr edg else q.progr edg
  { selected := s.selected ++ [edg], scores := s.scores.put edg (q.eDist edg), progrs := s.progrs.put edg progr }

/-- ShapeBuilder.cpp:241-262, one edge. Erasing `find(reach)` is undefined if it was not selected. -/
def selectStep (g : Graph E N) (o : Opts) (q : Query E N P) (s : Sel E) (edg : E) : Option (Sel E) :=
  if edg ∈ s.selected then some s
  else
    match deg2reachable g 3 edg s.selected with
    | .ub | .fuel => none
    | .stop _ => if q.eDist edg > o.maxSnapDistance then some s else some (insertEdge q s none edg)
    | .found r =>
      if q.eDist edg > o.maxSnapDistance then some s
      else if q.eDist edg < (s.scores.get r).getD 0 then
        if r ∈ s.selected then some (insertEdge q s (some r) edg) else none
      else some s

/-- ShapeBuilder.cpp:241-262. -/
def selectLoop (g : Graph E N) (o : Opts) (q : Query E N P) : Sel E → List E → Option (Sel E)
  | s, [] => some s
  | s, edg :: es => (selectStep g o q s edg).bind fun s => selectLoop g o q s es

/-- ShapeBuilder.cpp:264-271. -/
def edgeCands (o : Opts) (s : Sel E) : List (Cand E P) :=
  s.selected.map fun e =>
    ⟨some e, emWeight o.emMethod o.distFac ((s.scores.get e).getD 0) + o.nonStationPen, (s.progrs.get e).getD 0, none⟩

/-- ShapeBuilder.cpp:160-279, without the cache. The position of the placeholder is that of the stop, before noise is added. -/
def getEdgCands (g : Graph E N) (o : Opts) (q : Query E N P) : Option (List (Cand E P)) :=
  (selectLoop g o q ⟨[], [], []⟩ q.edgs).map fun s =>
    ⟨none, 0, 0, some q.pos⟩ :: (stationCands g o q ++ edgeCands o s)

/-- ShapeBuilder.cpp:88-97: the edges in the grid. -/
def index (g : Graph E N) (o : Opts) (nds : List N) : List E :=
  nds.flatMap fun n => (g.out n).filter fun e => decide (g.lvl e ≤ o.maxSnapLevel) && !g.wrong e

end Verif.Cand
