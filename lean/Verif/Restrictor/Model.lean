/-!
# Turn restrictions (model)

Model of `src/pfaedle/osm/Restrictor.cpp`/`.h` and of `OsmBuilder::processRestr`.
Nodes, edges and OSM way ids are values of types `N`, `E`, `W`; a null edge pointer is
`none`. A missing map entry is the empty list.
-/

namespace Verif.Restrictor
variable {N E W : Type} [DecidableEq N] [DecidableEq E] [DecidableEq W]

/-- Restrictor.h:18-19. -/
abbrev RuleVec (E : Type) := List (E × Option E)

/-- Restrictor.h:46-52. -/
structure R (N E W : Type) where
  pos : N → RuleVec E
  neg : N → RuleVec E
  rlx : N × W → Option E
  posD : N × W → List (N × Nat)
  negD : N × W → List (N × Nat)

def R.init (N E W : Type) : R N E W :=
  ⟨fun _ => [], fun _ => [], fun _ => none, fun _ => [], fun _ => []⟩

def upd {A B : Type} [DecidableEq A] (f : A → B) (a : A) (b : B) : A → B :=
  fun x => if x = a then b else f x

/-- Restrictor.cpp:18-19: `_pos[path.first][path.second].second = e` for each path. A path
outside of the vector would be undefined; `List.set` ignores it (it never happens, see
`Inv.dangling`). -/
def patch (rules : N → RuleVec E) (paths : List (N × Nat)) (e : E) : N → RuleVec E :=
  paths.foldl (fun rs p =>
    match (rs p.1)[p.2]? with
    | some r => upd rs p.1 ((rs p.1).set p.2 (r.1, some e))
    | none => rs) rules

inductive Op (N E W : Type) where
  | relax (w : W) (n : N) (e : E)
  | add (fr : E) (to : W) (via : N) (pos : Bool)

/-- Restrictor.cpp:11-31. -/
def R.relax (r : R N E W) (w : W) (n : N) (e : E) : R N E W :=
  { r with
    rlx := upd r.rlx (n, w) (some e)
    pos := patch r.pos (r.posD (n, w)) e
    neg := patch r.neg (r.negD (n, w)) e }

/-- Restrictor.cpp:34-50. -/
def R.add (r : R N E W) (fr : E) (to : W) (via : N) (pos : Bool) : R N E W :=
  let toE := r.rlx (via, to)
  if pos then
    { r with
      pos := upd r.pos via (r.pos via ++ [(fr, toE)])
      posD := if toE.isNone then upd r.posD (via, to) (r.posD (via, to) ++ [(via, (r.pos via).length)])
        else r.posD }
  else
    { r with
      neg := upd r.neg via (r.neg via ++ [(fr, toE)])
      negD := if toE.isNone then upd r.negD (via, to) (r.negD (via, to) ++ [(via, (r.neg via).length)])
        else r.negD }

def R.exec (r : R N E W) : Op N E W → R N E W
  | .relax w n e => r.relax w n e
  | .add fr to via pos => r.add fr to via pos

def run (h : List (Op N E W)) : R N E W := h.foldl R.exec (R.init N E W)

/-- Restrictor.cpp:59-64: the loop over the mandatory rules; `none`: no decision. -/
def mayPos (fr to : E) : RuleVec E → Option Bool
  | [] => none
  | r :: rs =>
    if r.1 = fr ∧ r.2.isSome ∧ r.2 ≠ some to then some false
    else if r.1 = fr ∧ r.2 = some to then some true
    else mayPos fr to rs

/-- Restrictor.cpp:67-69: the loop over the prohibitions. -/
def mayNeg (fr to : E) : RuleVec E → Bool
  | [] => true
  | r :: rs => if r.1 = fr ∧ r.2 = some to then false else mayNeg fr to rs

/-- Restrictor.cpp:53-72. -/
def R.may (r : R N E W) (fr to : E) (via : N) : Bool :=
  match mayPos fr to (r.pos via) with
  | some b => b
  | none => mayNeg fr to (r.neg via)

/-! ### edges that are split or get a twin -/

/-- The end points of edges. -/
structure Ends (N E : Type) where
  src : E → N
  dst : E → N

/-- Restrictor.cpp:145-146, 151-152. -/
def replaceIn (old new : E) (rs : RuleVec E) : RuleVec E :=
  rs.map fun r => (if r.1 = old then new else r.1, if r.2 = some old then some new else r.2)

/-- Restrictor.cpp:138-155. -/
def R.replaceAt (r : R N E W) (old : E) (via : N) (new : E) : R N E W :=
  { r with
    pos := upd r.pos via (replaceIn old new (r.pos via))
    neg := upd r.neg via (replaceIn old new (r.neg via)) }

/-- Restrictor.cpp:75-89. -/
def R.replaceEdge (g : Ends N E) (r : R N E W) (old newA newB : E) : R N E W :=
  let p := if g.src old = g.src newA ∨ g.src old = g.dst newA then (newA, newB) else (newB, newA)
  (r.replaceAt old (g.src old) p.1).replaceAt old (g.dst old) p.2

/-- Restrictor.cpp:108-119, 122-133. -/
def duplicateIn (g : Ends N E) (old : E) (via : N) (new : E) (rs : RuleVec E) : RuleVec E :=
  rs.map fun r =>
    (if r.1 = old then (if g.dst r.1 ≠ via then new else r.1) else r.1,
     if r.2 = some old then (if g.src old ≠ via then some new else r.2) else r.2)

/-- Restrictor.cpp:99-135 (the assertion is the precondition of the theorems). -/
def R.duplicateAt (g : Ends N E) (r : R N E W) (old : E) (via : N) (new : E) : R N E W :=
  { r with
    pos := upd r.pos via (duplicateIn g old via new (r.pos via))
    neg := upd r.neg via (duplicateIn g old via new (r.neg via)) }

/-- Restrictor.cpp:92-96. -/
def R.duplicateEdge (g : Ends N E) (r : R N E W) (old new : E) : R N E W :=
  (r.duplicateAt g old (g.src old) new).duplicateAt g old (g.dst old) new

/-! ### how restrictions are announced -/

/-- `Restriction` (osm/Osm.h): from and to way at a node. -/
structure Raw (W : Type) where
  eFrom : W
  eTo : W

/-- OsmBuilder.cpp:742-752 and 754-764, for the restrictions `raws` of one kind at the
node: the calls made for edge `e` of way `w` ending at the node `n`. -/
def processRestr (raws : List (Raw W)) (pos : Bool) (w : W) (e : E) (n : N) : List (Op N E W) :=
  raws.flatMap fun kv =>
    if kv.eFrom = w then [.add e kv.eTo n pos]
    else if kv.eTo = w then [.relax w n e]
    else []

end Verif.Restrictor
