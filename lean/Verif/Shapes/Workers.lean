import Verif.Shapes.Ids
import Verif.Shapes.Props

/-!
# Shape workers (model)

Small-step model of `ShapeBuilder::shapeify` (`src/pfaedle/router/ShapeBuilder.cpp:400-406,
430-444`) and `ShapeBuilder::shapeWorker` (`:1160-1226`): any number of threads
fetch trip forests from an atomic counter, hand out shape ids, maintain the
unsynchronised use counters of the old shapes and register the new shapes.

Every step of a thread is one atomic action: a critical section of `_shpMutex`,
the atomic increment of `at`, or an access to `shpUse`. A schedule is a list of
thread numbers. With `atomicDec = false` the decrement of `shpUse` is a load and a
store, as compiled from the code (formally a data race); with `true` it is a
single action.

Left out: routing (`shapeify(trie)`), geometry and colours; the points of a leaf's
shape are given. Trips and jobs are numbers.
-/

namespace Verif.Shapes.Workers
open Verif.Shapes

/-- A trie leaf (ShapeBuilder.cpp:1190-1196): route type of its first trip, its
trips, and the points of the shape computed for it. -/
structure Leaf where
  ty : Nat
  trips : List Nat
  pts : List Point

/-- The atomic actions of a worker. -/
inductive Instr where
  /-- ShapeBuilder.cpp:568: `getFreeShapeId` -/
  | free (ty : Nat)
  /-- ShapeBuilder.cpp:1214-1215: test and decrement the use counter of the
  trip's old shape -/
  | use (t : Nat)
  /-- second half of a non-atomic decrement -/
  | store (s : Str) (v : Nat)
  /-- ShapeBuilder.cpp:1216-1219: remove the old shape if its counter is 0 -/
  | chk (s : Str)
  /-- ShapeBuilder.cpp:1221, 558-560: register the new shape, assign it -/
  | set (t : Nat) (pts : List Point)
deriving DecidableEq

/-- ShapeBuilder.cpp:1190-1223: the actions for one leaf. -/
def Leaf.code (l : Leaf) : List Instr :=
  .free l.ty :: l.trips.flatMap fun t => [.use t, .set t l.pts]

/-- ShapeBuilder.cpp:1186-1224: the actions for one forest. -/
def jobCode (j : List Leaf) : List Instr := j.flatMap Leaf.code

/-- A worker thread: remaining actions of its current job, the id in `shp`, and
whether it has returned. -/
structure Thread where
  code : List Instr
  cur : Str
  stopped : Bool

/-- Input of a run. `feed` are all trips, `shape0` their shapes (`[]` = none),
`past` the calls on the shape container before the run: ids are registered when
the feed is read, and there may have been runs for other mode configurations. -/
structure Cfg where
  limit : Nat
  jobs : List (List Leaf)
  feed : List Nat
  shape0 : Nat → Str
  past : List Op
  atomicDec : Bool

/-- Shared state and threads. `hist` is the history of the shape container; `log`
(jobs fetched), `handed` (ids handed out), `decd` and `setd` (trips whose
`use`/`set` was executed) are bookkeeping. -/
structure Sys where
  hist : List Op
  cnt : Nat
  use : Str → Nat
  shape : Nat → Str
  next : Nat
  thr : Nat → Thread
  log : List Nat
  handed : List Str
  decd : List Nat
  setd : List Nat

/-- ShapeBuilder.cpp:402-406: initial use counters. -/
def use0 (g : Cfg) (s : Str) : Nat :=
  if s = [] then 0 else g.feed.countP (fun t => decide (g.shape0 t = s))

/-- State before the threads start. -/
def init (g : Cfg) : Sys :=
  { hist := g.past, cnt := 0, use := use0 g, shape := g.shape0, next := 0,
    thr := fun _ => ⟨[], [], false⟩, log := [], handed := [], decd := [], setd := [] }

/-- Function update. -/
def upd {α β : Type} [DecidableEq α] (f : α → β) (a : α) (b : β) : α → β :=
  fun x => if x = a then b else f x

/-- ShapeBuilder.cpp:1166-1167: fetch the next job or return. -/
def fetch (g : Cfg) (w : Nat) (s : Sys) : Sys :=
  match g.jobs[s.next]? with
  | none => { s with next := s.next + 1, thr := upd s.thr w { s.thr w with stopped := true } }
  | some j => { s with
      next := s.next + 1
      log := s.log ++ [s.next]
      thr := upd s.thr w { s.thr w with code := jobCode j } }

/-- One action of thread `w`; `rest` are its remaining actions. -/
def runInstr (g : Cfg) (w : Nat) (s : Sys) (rest : List Instr) : Instr → Sys
  | .free ty =>
    match getFreeShapeId (exec g.limit s.hist) ty s.cnt with
    | none => s
    | some (id, cnt) => { s with
        cnt := cnt, handed := s.handed ++ [id]
        thr := upd s.thr w { s.thr w with cur := id, code := rest } }
  | .use t =>
    let sh := s.shape t
    if sh ≠ [] ∧ s.use sh > 0 then
      if g.atomicDec then { s with
        use := upd s.use sh (s.use sh - 1), decd := s.decd ++ [t]
        thr := upd s.thr w { s.thr w with code := .chk sh :: rest } }
      else { s with
        decd := s.decd ++ [t]
        thr := upd s.thr w { s.thr w with code := .store sh (s.use sh - 1) :: .chk sh :: rest } }
    else { s with decd := s.decd ++ [t], thr := upd s.thr w { s.thr w with code := rest } }
  | .store sh v => { s with
      use := upd s.use sh v, thr := upd s.thr w { s.thr w with code := rest } }
  | .chk sh => { s with
      hist := if s.use sh = 0 then s.hist ++ [.remove sh] else s.hist
      thr := upd s.thr w { s.thr w with code := rest } }
  | .set t pts => { s with
      hist := s.hist ++ [.add ⟨(s.thr w).cur, pts⟩]
      shape := upd s.shape t (s.thr w).cur
      setd := s.setd ++ [t]
      thr := upd s.thr w { s.thr w with code := rest } }

/-- One turn of thread `w`. -/
def step (g : Cfg) (s : Sys) (w : Nat) : Sys :=
  if (s.thr w).stopped then s
  else
    match (s.thr w).code with
    | [] => fetch g w s
    | i :: rest => runInstr g w s rest i

/-- A run under a schedule. -/
def run (g : Cfg) (sched : List Nat) : Sys := sched.foldl (step g) (init g)

/-- ShapeBuilder.cpp:1169-1171: the divisor of the progress output for `n`
forests (`n > 0` whenever it is evaluated). -/
def progressDivisor (n : Nat) : Nat := n / (if n < 10 then n else 10)

end Verif.Shapes.Workers
