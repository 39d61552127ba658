import Verif.Osm.GraphRead
import Verif.Osm.Filter
import Verif.Restrictor.Model

/-!
# Turn restrictions of the map (model)

Model of `OsmBuilder::readRestr` (`src/pfaedle/osm/OsmBuilder.cpp:984-1022`), of the turn rules part of
`readEdges` (694-735) with `processRestr` (739-765), and of `read` up to the edges (84-112). The graph
is built as in `Verif.Osm.GraphRead`. Which edge object the call number `i` of `addEdg` returns is a
parameter `mk`, so that a graph that hands out an existing edge between the same nodes is covered, too.
-/

namespace Verif.Turns
open Verif.Names (Str)
open Verif.Osm
open Verif.Restrictor (Raw Op R)

variable {P E : Type}

/-- `Restrictions` (osm/Osm.h:64-69). -/
structure Rests where
  pos : FMap Nat (List (Raw Nat))
  neg : FMap Nat (List (Raw Nat))

def Rests.init : Rests := ⟨[], []⟩

/-- "restriction" -/
def sRestriction : Str := [114, 101, 115, 116, 114, 105, 99, 116, 105, 111, 110]

/-- 998-1007: the loop over the ways; `none`: a second from or to way. A role is not both. -/
def endsOf : List (Nat × Str) → Nat → Nat → Option (Nat × Nat)
  | [], a, b => some (a, b)
  | m :: ms, a, b =>
    if m.2 = sFrom then (if a ≠ 0 then none else endsOf ms m.1 b)
    else if m.2 = sTo then (if b ≠ 0 then none else endsOf ms a m.1)
    else endsOf ms a b

/-- 1009-1014: the first via node, 0 if there is none. -/
def viaOf : List (Nat × Str) → Nat
  | [] => 0
  | m :: ms => if m.2 = sVia then m.1 else viaOf ms

/-- `rests->pos[via].push_back(..)`. -/
def pushRaw (m : FMap Nat (List (Raw Nat))) (v : Nat) (x : Raw Nat) : FMap Nat (List (Raw Nat)) :=
  m.put v ((m.get v).getD [] ++ [x])

/-- 984-1022. -/
def readRestr (o : Opts) (s : Rests) (r : Rel) : Rests :=
  if FMap.get r.attrs sType ≠ some sRestriction then s
  else if fPosRestr o r.attrs = 0 ∧ fNegRestr o r.attrs = 0 then s
  else match endsOf r.ways 0 0 with
    | none => s
    | some (a, b) =>
      let v := viaOf r.nodes
      if a ≠ 0 ∧ b ≠ 0 ∧ v ≠ 0 then
        if fPosRestr o r.attrs ≠ 0 then { s with pos := pushRaw s.pos v ⟨a, b⟩ }
        else { s with neg := pushRaw s.neg v ⟨a, b⟩ }
      else s

/-- What has been read, and the calls of the restrictor and of `setRestricted`. -/
structure TSt (P E : Type) where
  g : GSt P
  ops : List (Op Nat E Nat)
  flags : List E

def TSt.init : TSt P E := ⟨GSt.init, [], []⟩

/-- 739-765: the calls for one end of an edge. -/
def turnOps (q : Rests) (nid wid : Nat) (e : E) (n : Nat) : List (Op Nat E Nat) :=
  Restrictor.processRestr ((q.pos.get nid).getD []) true wid e n ++
    Restrictor.processRestr ((q.neg.get nid).getD []) false wid e n

/-- 745, 748, 757, 760: is the edge marked? -/
def marks (q : Rests) (nid wid : Nat) : Bool :=
  ((q.pos.get nid).getD [] ++ (q.neg.get nid).getD []).any fun kv => kv.eFrom == wid || kv.eTo == wid

def mark (b : Bool) (e : E) (l : List E) : List E := if b then l ++ [e] else l

/-- 704-734; `last` is the last graph node and its OSM id. -/
def turnGo (q : Rests) (mk : Nat → GEdge → E) (nohup box : Nat → Bool) (w : Way) :
    List Nat → TSt P E → Option (Nat × Nat) → TSt P E
  | [], s, _ => s
  | nid :: nids, s, last =>
    match ndFor nohup box s.g nid with
    | (none, s') => turnGo q mk nohup box w nids { s with g := s' } last
    | (some n, s') =>
      match last with
      | none => turnGo q mk nohup box w nids { s with g := s' } (some (n, nid))
      | some (l, lid) =>
        let e := mk s'.edges.length ⟨l, n, w⟩
        turnGo q mk nohup box w nids
          { g := { s' with edges := s'.edges ++ [⟨l, n, w⟩] }
            ops := s.ops ++ turnOps q nid w.id e n ++ turnOps q lid w.id e l
            flags := mark (marks q lid w.id) e (mark (marks q nid w.id) e s.flags) } (some (n, nid))

/-- 694-735. -/
def turnWay (q : Rests) (mk : Nat → GEdge → E) (nohup box : Nat → Bool) (s : TSt P E) (w : Way) : TSt P E :=
  turnGo q mk nohup box w w.nodes s none

/-- 84-112. -/
def readTurns (o : Opts) (mk : Nat → GEdge → E) (f : Flt) (keysW keysR : List Str) (box hup : List BoxOp → Nat → Bool)
    (bbox : P → Bool) (nohup : Str → Str → Bool) (file : List (Ev P)) : TSt P E :=
  let b := bboxGo bbox nohup (skipUntil .node file) false 0
  let rs := (readAll (nextRel keysR f) (skipUntil .relation b.2)).1
  let rels := rs.foldl addRel ⟨[], [], [], []⟩
  let q := rs.foldl (readRestr o) Rests.init
  let ws := (readAll (nextWay keysW (keepWay f rels.wayRels rels.flat (box b.1))) b.2).1
  ws.foldl (turnWay q mk (hup b.1) (box b.1)) TSt.init

/-- What the router asks (Weights.cpp:147-148): is the turn from `e` to `e'` at `n` penalised? -/
def penalised [DecidableEq E] (s : TSt P E) (e e' : E) (n : Nat) : Bool :=
  s.flags.contains e && !(Restrictor.run s.ops).may e e' n

end Verif.Turns
