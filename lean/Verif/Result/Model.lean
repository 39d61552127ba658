import Verif.Content.Props
import Verif.Shapes.WorkersProps

/-!
# From the matched trips to the written feed (model)

The workers are those of `Verif.Shapes.Workers`, the container of the shapes is that of `Verif.Shapes`, the writer is that of
`Verif.Content` and `Verif.Out`. Here they work on the same feed: trips are numbered by their places in trips.txt.
-/

namespace Verif.Result
open Verif.Shapes (Str Widths Container Point readAll)
open Verif.Shapes.Workers (Leaf)
open Verif.Content (Tables Env Matching)

/-- Rows of shapes.txt, and other rows. -/
abbrev FRow (A B X Y : Type) := Content.Row A B X (Shapes.Row ⊕ Y)

variable {A B X Y : Type}

def shapeRow (r : Shapes.Row) : FRow A B X Y := .other (.inl r)

def shapeOf : FRow A B X Y → Option Shapes.Row
  | .other (.inl r) => some r
  | _ => none

/-- Writer.cpp:617-634: `curShapeId` and `curSkipShapeId` after some rows. -/
def memo (ids : List Str) : Str → Str → List Shapes.Row → Str × Str
  | cur, skip, [] => (cur, skip)
  | cur, skip, sp :: rest =>
    if sp.id = skip then memo ids cur skip rest
    else if sp.id ≠ cur then
      if sp.id ∈ ids then memo ids sp.id skip rest
      else memo ids cur sp.id rest
    else memo ids cur skip rest

/-- Writer.cpp:621-633: is this row written? `pre`: the rows read before. -/
def keepRow (ids : List Str) (pre : List Shapes.Row) (r : Shapes.Row) : Bool :=
  let m := memo ids [] [] pre
  if r.id = m.2 then false else if r.id ≠ m.1 then decide (r.id ∈ ids) else true

/-- Writer.cpp:607-641 `writeShapes`, as a part of the writer. `c`: the shapes in memory when the workers have returned. -/
def shapesEnv (w : Widths) (c : Container) (e : Env A B X (Shapes.Row ⊕ Y)) : Env A B X (Shapes.Row ⊕ Y) :=
  { e with
    keepShape := fun pre row =>
      match shapeOf row with
      | some r => keepRow c.ids (pre.filterMap shapeOf) r
      | none => false
    newShapes := (readAll w c.ids ((c.storage ++ c.buf).length + 1) c.open).map shapeRow }

/-- One mode configuration (`src/pfaedle/PfaedleMain.cpp:256-355`): the lines found for the trips of each forest, the number of workers
and their schedule; and what is needed for the colours of the routes (`Verif.Color`). -/
structure Run where
  jobs : List (List Leaf)
  W : Nat
  sched : List Nat
  keep : Nat → Bool
  threads : List (List (Nat × List Nat))

/-- The feed between two mode configurations: the calls on the container of the shapes so far, and the shape of each trip. -/
structure St where
  hist : List Shapes.Op
  shape : Nat → Str

/-- `src/pfaedle/router/ShapeBuilder.cpp:402-444`: what the workers start with, for a feed of `n` trips. The counter of the ids starts at 0
again (ShapeBuilder.cpp:70). -/
def workers (limit : Nat) (atomicDec : Bool) (n : Nat) (jobs : List (List Leaf)) (s : St) : Shapes.Workers.Cfg where
  limit := limit
  jobs := jobs
  feed := List.range n
  shape0 := s.shape
  past := s.hist
  atomicDec := atomicDec

/-- PfaedleMain.cpp:355: the workers for one mode configuration. -/
def after (limit : Nat) (atomicDec : Bool) (n : Nat) (r : Run) (s : St) : St :=
  let e := Shapes.Workers.run (workers limit atomicDec n r.jobs s) r.sched
  ⟨e.hist, e.shape⟩

/-- PfaedleMain.cpp:256-355: all mode configurations. -/
def allRuns (limit : Nat) (atomicDec : Bool) (n : Nat) (rs : List Run) (s : St) : St :=
  rs.foldl (fun s r => after limit atomicDec n r s) s

/-- When the feed has been read, the ids of the rows of shapes.txt are registered. -/
def start (trips : List (Content.TripRow X)) (src : List Shapes.Row) : St where
  hist := src.map fun r => .register r.id
  shape := fun k => (trips[k]?.map (·.shape)).getD []

/-- ShapeBuilder.cpp:402-466: what is needed for the colours of the routes, for all mode configurations. -/
def paints (rs : List Run) : List Color.Paint := rs.map fun r => ⟨r.keep, r.threads⟩

/-- PfaedleMain.cpp:256-447: after all workers have returned, the feed is written. `m` has the options. -/
def write (m : Matching) (e : Env A B X (Shapes.Row ⊕ Y)) (w : Widths) (limit : Nat) (i : Tables A B X (Shapes.Row ⊕ Y)) (rs : List Run)
    (s : St) : Option (Out.Feed (FRow A B X Y)) :=
  match Content.load i with
  | none => none
  | some F =>
    match Color.colorRuns m.noColor m.textColor m.writeColors (paints rs) F with
    | none => none
    | some F' =>
      match Content.flatTrips F' i.trips F'.trips ((List.range i.trips.length).map s.shape) with
      | none => none
      | some rows => some (Content.outFeed (shapesEnv w (Shapes.exec limit s.hist) e) i F' rows)

end Verif.Result
