import Verif.Osm.Filter

/-!
# Streaming OSM readers (model)

Model of `OsmBuilder::nextWay`, `nextNode`, `nextRel`, `nextWayWithId`, `skipUntil`, `relKeep`,
`keepWay`, `keepNode`, `readRels`, `readBBoxNds`, `readEdges` (id version), `readWriteNds`,
`readWriteWays`, `readWriteRels`, `filterWrite`, `src/pfaedle/osm/OsmBuilder.cpp:311-981`.

The XML parser (`pfxml`, not in the repository) delivers opening tags with their nesting depth:
the state of the parser is the list of the tags from the current one on. At the end of the file
the current tag has depth 0 and no name. Before the first `next` the current tag is one without
meaning; it is the first entry of the list. `state`/`set_state` return to a tag seen before. All
attributes that a tag needs (id, ref, k, v, lat, lon, type) are present. Positions are values of
an arbitrary type.
-/

namespace Verif.Osm
open Verif.Names (Str)

inductive MemType where
  | node | way | other
deriving DecidableEq

inductive Tag (P : Type) where
  | node (id : Nat) (pos : P)
  | way (id : Nat)
  | rel (id : Nat)
  | nd (ref : Nat)
  | tag (k v : Str)
  | member (t : MemType) (ref : Nat) (role : Str)
  | other

structure Ev (P : Type) where
  level : Nat
  tag : Tag P

variable {P : Type}

structure Way where
  id : Nat
  nodes : List Nat
  attrs : Attrs
deriving DecidableEq

structure Nod (P : Type) where
  id : Nat
  pos : P
  attrs : Attrs

structure Rel where
  id : Nat
  nodes : List (Nat × Str)
  ways : List (Nat × Str)
  attrs : Attrs
  keepFlags : Nat
deriving DecidableEq

/-! ### one element -/

/-- The control flow shared by `nextWay` (621-651), `nextNode` (768-798), `nextRel` (891-962).
`start` reads the opening tag, `child` a tag of depth 3, `keep` decides about the element read so
far and returns what is handed out. `none` is the element with id 0. -/
def nextGo {W : Type} (start : Tag P → Option W) (child : W → Tag P → W) (keep : W → Option W) :
    List (Ev P) → W → Option W × List (Ev P)
  | [], w => (keep w, [])
  | e :: rest, w =>
    if e.level = 2 ∨ e.level = 0 then
      match keep w with
      | some r => (some r, e :: rest)
      | none =>
        match start e.tag with
        | some w' => nextGo start child keep rest w'
        | none => (none, e :: rest)
    else if e.level = 3 then nextGo start child keep rest (child w e.tag)
    else nextGo start child keep rest w

def way0 : Way := ⟨0, [], []⟩
def rel0 : Rel := ⟨0, [], [], [], 0⟩
def nod0 (p : P) : Nod P := ⟨0, p, []⟩

/-- 643-644, 790-791, 944-945: `attrs[k] = v` for kept keys. -/
def setAttr (keys : List Str) (a : Attrs) (k v : Str) : Attrs :=
  if keys.contains k then FMap.put a k v else a

/-- 631-635. -/
def wayStart : Tag P → Option Way
  | .way id => some ⟨id, [], []⟩
  | _ => none

/-- 638-646. -/
def wayChild (keys : List Str) (w : Way) : Tag P → Way
  | .nd ref => if w.id ≠ 0 then { w with nodes := w.nodes ++ [ref] } else w
  | .tag k v => if w.id ≠ 0 then { w with attrs := setAttr keys w.attrs k v } else w
  | _ => w

/-- 781-786; latitude and longitude are one position. -/
def nodStart : Tag P → Option (Nod P)
  | .node id pos => some ⟨id, pos, []⟩
  | _ => none

/-- 789-792. -/
def nodChild (keys : List Str) (n : Nod P) : Tag P → Nod P
  | .tag k v => if n.id ≠ 0 then { n with attrs := setAttr keys n.attrs k v } else n
  | _ => n

/-- 909-918. -/
def relStart : Tag P → Option Rel
  | .rel id => some ⟨id, [], [], [], 0⟩
  | _ => none

/-- 921-947; a missing role is the empty string. -/
def relChild (keys : List Str) (r : Rel) : Tag P → Rel
  | .member .node ref role => if r.id ≠ 0 then { r with nodes := r.nodes ++ [(ref, role)] } else r
  | .member .way ref role => if r.id ≠ 0 then { r with ways := r.ways ++ [(ref, role)] } else r
  | .tag k v => if r.id ≠ 0 then { r with attrs := setAttr keys r.attrs k v } else r
  | _ => r

/-! ### decisions -/

/-- The keep and drop rules of the filter in use (one configuration, or the merged rules). `ord` is
the order in which the hash table of the attributes (`Osm.h:21`) is run through; the flags that
`contained` returns depend on it (`C28_limit_flags`), whether there are some does not. -/
structure Flt where
  keep : Rules
  drop : Rules
  ord : Attrs → Attrs

/-- 606-618; `rels` maps an id to the numbers of its relations, `flat` holds the flat ones. -/
def relKeep (id : Nat) (rels : FMap Nat (List Nat)) (flat : List Nat) : Bool :=
  match rels.get id with
  | none => false
  | some l => l.any fun r => !flat.contains r

/-- 654-668. -/
def keepWay (f : Flt) (wayRels : FMap Nat (List Nat)) (flat : List Nat) (box : Nat → Bool) (w : Way) : Bool :=
  w.id != 0 && decide (w.nodes.length > 1) && (relKeep w.id wayRels flat || contained f.keep WAY w.attrs != 0) &&
    !(contained f.drop WAY w.attrs != 0) && w.nodes.any box

/-- 801-815; `nodes`, `mult` hold the ids with a graph node. -/
def keepNode (f : Flt) (nodes mult : Nat → Bool) (nodeRels : FMap Nat (List Nat)) (flat : List Nat) (box : Nat → Bool)
    (n : Nod P) : Bool :=
  n.id != 0 && (nodes n.id || mult n.id || relKeep n.id nodeRels flat || contained f.keep NODE n.attrs != 0) &&
    (nodes n.id || box n.id) && (nodes n.id || mult n.id || !(contained f.drop NODE n.attrs != 0))

/-- 900-906, 953-959. -/
def keepRel (f : Flt) (r : Rel) : Option Rel :=
  if r.id ≠ 0 ∧ r.attrs ≠ [] ∧ contained f.keep REL r.attrs ≠ 0 ∧ ¬ contained f.drop REL r.attrs ≠ 0
  then some { r with keepFlags := contained f.keep REL (f.ord r.attrs) } else none

def guard' {W : Type} (b : W → Bool) (w : W) : Option W := if b w then some w else none

def nextWay (keys : List Str) (keep : Way → Bool) (xs : List (Ev P)) : Option Way × List (Ev P) :=
  nextGo wayStart (wayChild keys) (guard' keep) xs way0
def nextNode (p0 : P) (keys : List Str) (keep : Nod P → Bool) (xs : List (Ev P)) : Option (Nod P) × List (Ev P) :=
  nextGo nodStart (nodChild keys) (guard' keep) xs (nod0 p0)
def nextRel (keys : List Str) (f : Flt) (xs : List (Ev P)) : Option Rel × List (Ev P) :=
  nextGo relStart (relChild keys) (keepRel f) xs rel0

/-- 571-597; `w` has id 0 until the way is found. -/
def withIdGo (keys : List Str) (wid : Nat) : List (Ev P) → Way → Way × List (Ev P)
  | [], w => (w, [])
  | e :: rest, w =>
    if e.level = 2 ∨ e.level = 0 then
      if w.id ≠ 0 then (w, e :: rest)
      else match e.tag with
        | .way id => withIdGo keys wid rest (if id = wid then { w with id := id } else w)
        | _ => (w, e :: rest)
    else if e.level = 3 then withIdGo keys wid rest (wayChild keys w e.tag)
    else withIdGo keys wid rest w

/-! ### loops over elements -/

/-- `while ((x = next(..)).id) ..`; at most one round per tag and one more. -/
def readLoop {W : Type} (next : List (Ev P) → Option W × List (Ev P)) : Nat → List (Ev P) → List W × List (Ev P)
  | 0, xs => ([], xs)
  | fuel + 1, xs =>
    match next xs with
    | (none, rest) => ([], rest)
    | (some w, rest) =>
      let r := readLoop next fuel rest
      (w :: r.1, r.2)

def readAll {W : Type} (next : List (Ev P) → Option W × List (Ev P)) (xs : List (Ev P)) : List W × List (Ev P) :=
  readLoop next (xs.length + 1) xs

inductive Name where
  | node | relation
deriving DecidableEq

def Tag.named : Tag P → Name → Bool
  | .node _ _, .node => true
  | .rel _, .relation => true
  | _, _ => false

/-- 600-603: leaves the current tag and stops at the next one with the name, at any depth. -/
def skipUntil (s : Name) : List (Ev P) → List (Ev P)
  | [] => []
  | _ :: rest => rest.dropWhile fun e => !e.tag.named s

/-! ### passes -/

/-- What the first pass tells the id sets: `add`, `nadd`, and `add` to the no-turn set. -/
inductive BoxOp where
  | add (id : Nat) | nadd (id : Nat) | nohup (id : Nat)
deriving DecidableEq

/-- 531-568: `inBlock`, `curId` are the local variables. -/
def bboxGo (bbox : P → Bool) (nohup : Str → Str → Bool) : List (Ev P) → Bool → Nat → List BoxOp × List (Ev P)
  | [], _, _ => ([], [])
  | e :: rest, inBlock, curId =>
    let hup : List BoxOp :=
      match e.tag with
      | .tag k v => if inBlock && decide (e.level = 3) && decide (curId ≠ 0) && nohup k v then [.nohup curId] else []
      | _ => []
    if e.level ≠ 2 then
      let r := bboxGo bbox nohup rest inBlock curId
      (hup ++ r.1, r.2)
    else match e.tag with
      | .node id pos =>
        let r := bboxGo bbox nohup rest true id
        (hup ++ (if bbox pos then .add id else .nadd id) :: r.1, r.2)
      | _ =>
        if inBlock then (hup, e :: rest)
        else
          let r := bboxGo bbox nohup rest inBlock curId
          (hup ++ r.1, r.2)

/-- The state of `readRels`, 965-981 (turn rules: `Verif.Restrictor`). -/
structure RelSt where
  rels : List Attrs
  flat : List Nat
  nodeRels : FMap Nat (List Nat)
  wayRels : FMap Nat (List Nat)

def pushTo (m : FMap Nat (List Nat)) (k v : Nat) : FMap Nat (List Nat) := m.put k ((m.get k).getD [] ++ [v])

/-- 971-976. -/
def addRel (s : RelSt) (r : Rel) : RelSt :=
  let k := s.rels.length
  { rels := s.rels ++ [r.attrs]
    flat := if r.keepFlags &&& REL_NO_DOWN ≠ 0 then s.flat ++ [k] else s.flat
    nodeRels := (r.nodes.map (·.1)).foldl (fun m id => pushTo m id k) s.nodeRels
    wayRels := (r.ways.map (·.1)).foldl (fun m id => pushTo m id k) s.wayRels }

def readRels (keys : List Str) (f : Flt) (xs : List (Ev P)) : RelSt :=
  (readAll (nextRel keys f) xs).1.foldl addRel ⟨[], [], [], []⟩

/-! ### writing a filtered file -/

/-- 818-838: the nodes written and the ids known afterwards. -/
def writeNds (p0 : P) (keys : List Str) (f : Flt) (nodeRels : FMap Nat (List Nat)) (flat : List Nat) (box : Nat → Bool) :
    Nat → List (Ev P) → List Nat → List (Nod P) × List Nat × List (Ev P)
  | 0, xs, nds => ([], nds, xs)
  | fuel + 1, xs, nds =>
    match nextNode p0 keys (keepNode f (fun i => nds.contains i) (fun _ => false) nodeRels flat box) xs with
    | (none, rest) => ([], nds, rest)
    | (some n, rest) =>
      let r := writeNds p0 keys f nodeRels flat box fuel rest (nds ++ [n.id])
      (n :: r.1, r.2.1, r.2.2)

/-- 487-509: a way is written under the id asked for. -/
def writeWays (keys : List Str) : List Nat → List (Ev P) → List Way × List (Ev P)
  | [], xs => ([], xs)
  | wid :: wids, xs =>
    let w := withIdGo keys wid xs way0
    let r := writeWays keys wids w.2
    ({ w.1 with id := wid } :: r.1, r.2)

/-- 431-451: members that are in the file. The binary search in the sorted list (`std::sort`,
`std::lower_bound`, 417, 436-437) is membership. -/
def writeRel (ways nodes : List Nat) (r : Rel) : Option Rel :=
  let ws := r.ways.filter fun m => ways.contains m.1
  let ns := r.nodes.filter fun m => nodes.contains m.1
  if ns ≠ [] ∨ ws ≠ [] then some { r with ways := ws, nodes := ns } else none

structure Out (P : Type) where
  nodes : List (Nod P)
  ways : List Way
  rels : List Rel

/-- 399-419 (the `bounds` tag, 333-389, is modelled in `Verif.Region`; the ids of the ways and their nodes are read
by 671-682); `box` is the id set filled by the first pass (`Verif.OsmIdSet`), `keys` are the
attributes kept for nodes, ways, relations. -/
def filterWrite (p0 : P) (f : Flt) (keysN keysW keysR : List Str) (box : List BoxOp → Nat → Bool) (bbox : P → Bool)
    (file : List (Ev P)) : Out P :=
  let nodeBeg := skipUntil .node file
  let b := bboxGo bbox (fun _ _ => false) nodeBeg false 0
  let inBox := box b.1
  let edgesBeg := b.2
  let rels := readRels keysR f (skipUntil .relation edgesBeg)
  let ws := (readAll (nextWay keysW (keepWay f rels.wayRels rels.flat inBox)) edgesBeg).1
  let ids := ws.map (·.id)
  let nds := ws.flatMap (·.nodes)
  let n := writeNds p0 keysN f rels.nodeRels rels.flat inBox (nodeBeg.length + 1) nodeBeg nds
  let w := writeWays keysW ids n.2.2
  let rs := (readAll (nextRel keysR f) (skipUntil .relation w.2)).1
  { nodes := n.1, ways := w.1, rels := rs.filterMap (writeRel ids n.2.1) }

end Verif.Osm
