import Verif.Base.FMap
/-!
# Writing the output feed (model)

Model of `Writer::write` and `moveIntoZip`, `src/pfaedle/gtfs/Writer.cpp:32-380` and `702-724`, as a machine whose
single steps change the file system: opening a temporary file, appending one row, renaming, unlinking, closing the archive.
The program can be interrupted between any two steps, an operation can fail (`Act.opErr`), and a write can fail
(`Act.wrErr`), which the code does not notice.

Simplifications: a row is written by one step; the input file is looked up by its path for every row that is read (the program keeps
it open; this is the worse case, since a replaced file would be noticed); the archive is written by one step of `zip_close`, to the
temporary file only; renaming is atomic; names are not changed by links.
`getTmpFName` (util) gives names that are no others.
-/

namespace Verif.Out
open Verif (FMap)

/-- The files, in the order of Writer.cpp:87-356. -/
inductive Name where
  | agency | stops | routes | calendar | calendarDates | transfers | fareAttributes | fareRules | pathways | levels | shapes
  | trips | frequencies | stopTimes | feedInfo | attributions
  deriving DecidableEq, Repr

variable {R : Type}

/-- What is written for one file. -/
structure Job (R : Type) where
  name : Name
  /-- only if the input has this file (`csvp->isGood()`) -/
  needsInput : Bool
  /-- any other condition -/
  cond : Bool
  /-- the row with the field names -/
  header : List R
  /-- Rows written for a row of the input file of this name, after the rows read before; `none`: the program crashes.
  `copies = false`: the input file is not read. -/
  copies : Bool
  copy : List R → R → Option (List R)
  /-- rows written from memory -/
  mem : List R

/-- What is written of the feed in memory. -/
structure Feed (R : Type) where
  header : Name → List R
  /-- a row read by `next...` and written by `w.write...` -/
  echo : Name → R → R
  routes : List R
  /-- is this row kept by `writeShapes`? See `Verif.Shapes` -/
  keepShape : List R → R → Bool
  newShapes : List R
  trips : List R
  /-- a trip has frequencies -/
  hasFreqs : Bool
  /-- see `writeStopTimes` -/
  stopTime : List R → R → Option R
  /-- publisher name and URL are not empty -/
  hasPublisher : Bool
  feedInfo : List R
  attribution : List R

/-- The file contains what is in the input. -/
def echoJob (f : Feed R) (n : Name) (needsInput cond : Bool) : Job R :=
  { name := n, needsInput, cond, header := f.header n, copies := true, copy := fun _ r => some [f.echo n r], mem := [] }

/-- The file contains what is in memory. -/
def memJob (f : Feed R) (n : Name) (cond : Bool) (mem : List R) : Job R :=
  { name := n, needsInput := false, cond, header := f.header n, copies := false, copy := fun _ _ => some [], mem }

/-- Writer.cpp:85-356: all files in order. -/
def jobs (f : Feed R) : List (Job R) :=
  [echoJob f .agency false true,
   echoJob f .stops false true,
   memJob f .routes true f.routes,
   echoJob f .calendar true true,
   echoJob f .calendarDates true true,
   echoJob f .transfers true true,
   echoJob f .fareAttributes true true,
   echoJob f .fareRules true true,
   echoJob f .pathways true true,
   echoJob f .levels true true,
   { name := .shapes, needsInput := false, cond := true, header := f.header .shapes, copies := true,
     copy := fun pre r => some (if f.keepShape pre r then [f.echo .shapes r] else []), mem := f.newShapes },
   memJob f .trips true f.trips,
   echoJob f .frequencies true f.hasFreqs,
   { name := .stopTimes, needsInput := false, cond := true, header := f.header .stopTimes, copies := true,
     copy := fun pre r => (f.stopTime pre r).map ([·]), mem := [] },
   memJob f .feedInfo f.hasPublisher f.feedInfo,
   memJob f .attributions true f.attribution]

/-- Content of a path. -/
inductive Node (R : Type) where
  | file (rows : List R)
  | zip (files : List (Name × List R))
  deriving DecidableEq, Repr

abbrev FS (R : Type) := FMap Nat (Node R)

/-- Where the input is: files of a directory, or an archive. -/
inductive Src where
  | dir (path : Name → Nat)
  | zip (path : Nat)

/-- Where the output goes: files of a directory, or an archive (with the path of the temporary archive). -/
inductive Tgt where
  | dir (path : Name → Nat)
  | zip (path tmp : Nat)

structure Cfg where
  src : Src
  tgt : Tgt
  /-- `getTmpFName` -/
  tmp : Name → Nat

/-- `ip.getCsvParser(name)`: the rows of an input file, if there is one. -/
def read (c : Cfg) (fs : FS R) (n : Name) : Option (List R) :=
  match c.src with
  | .dir p =>
    match fs.get (p n) with
    | some (.file rows) => some rows
    | _ => none
  | .zip p =>
    match fs.get p with
    | some (.zip files) => files.lookup n
    | _ => none

/-- What the program does next for the first of the remaining files. -/
inductive Phase (R : Type) where
  | start
  /-- writing the `k`-th of the header rows -/
  | hdr (k : Nat)
  /-- reading the `k`-th row of the input -/
  | rows (k : Nat)
  | mem (k : Nat)
  /-- the stream is closed -/
  | close
  /-- the file has been unlinked, and is to be added to the archive -/
  | unlinked (rows : List R)
  /-- the temporary archive is to be renamed -/
  | renameZip
  | done
  /-- an exception was thrown, or the program crashed -/
  | aborted
  deriving DecidableEq, Repr

structure St (R : Type) where
  fs : FS R
  todo : List (Job R)
  phase : Phase R
  /-- files added to the archive -/
  za : List (Name × List R)
  /-- `badbit` of the stream -/
  bad : Bool

/-- What happens to the next operation. -/
inductive Act where
  | go | opErr | wrErr
  deriving DecidableEq, Repr

/-- Rows of the temporary file. -/
def tmpRows (fs : FS R) (p : Nat) : List R :=
  match fs.get p with
  | some (.file rows) => rows
  | _ => []

/-- Rows are appended to the open stream; after an error, nothing is written any more. -/
def emit (s : St R) (p : Nat) (rows : List R) (a : Act) : St R :=
  if s.bad || a = .wrErr then { s with bad := true }
  else { s with fs := s.fs.put p (.file (tmpRows s.fs p ++ rows)) }

/-- One step. -/
def step (c : Cfg) (s : St R) (a : Act) : St R :=
  match s.phase, s.todo with
  | .done, _ => s
  | .aborted, _ => s
  -- 366-379
  | .renameZip, _ =>
    if a = .opErr then { s with phase := .aborted }
    else
      match c.tgt with
      | .dir _ => { s with phase := .done }
      | .zip p tmp =>
        match s.fs.get tmp with
        | some n => { s with fs := (s.fs.put p n).erase tmp, phase := .done }
        | none => { s with phase := .aborted }
  | _, [] =>
    match c.tgt with
    | .dir _ => { s with phase := .done }
    -- 370: the result of `zip_close` is not checked
    | .zip _ tmp =>
      if a = .go then { s with fs := s.fs.put tmp (.zip s.za), phase := .renameZip } else { s with phase := .renameZip }
  | .start, j :: js =>
    -- e.g. 134-139
    if j.cond && (!j.needsInput || (read c s.fs j.name).isSome) then
      if a = .opErr then { s with phase := .aborted }
      else { s with fs := s.fs.put (c.tmp j.name) (.file []), phase := .hdr 0, bad := false }
    else { s with todo := js }
  | .hdr k, j :: _ =>
    match j.header[k]? with
    | some r => { emit s (c.tmp j.name) [r] a with phase := .hdr (k + 1) }
    | none => { s with phase := if j.copies then .rows 0 else .mem 0 }
  | .rows k, j :: _ =>
    match ((read c s.fs j.name).getD [])[k]? with
    | some r =>
      match j.copy (((read c s.fs j.name).getD []).take k) r with
      | some rows => { emit s (c.tmp j.name) rows a with phase := .rows (k + 1) }
      | none => { s with phase := .aborted }
    | none => { s with phase := .mem 0 }
  | .mem k, j :: _ =>
    match j.mem[k]? with
    | some r => { emit s (c.tmp j.name) [r] a with phase := .mem (k + 1) }
    | none => { s with phase := .close }
  | .close, j :: js =>
    if a = .opErr then { s with phase := .aborted }
    else
      match c.tgt with
      -- e.g. 99-100
      | .dir p => { s with fs := (s.fs.put (p j.name) (.file (tmpRows s.fs (c.tmp j.name)))).erase (c.tmp j.name),
                           todo := js, phase := .start }
      -- 706-716
      | .zip _ _ => { s with fs := s.fs.erase (c.tmp j.name), phase := .unlinked (tmpRows s.fs (c.tmp j.name)) }
  -- 718-722
  | .unlinked rows, j :: js =>
    if a = .opErr then { s with phase := .aborted }
    else { s with za := s.za ++ [(j.name, rows)], todo := js, phase := .start }

/-- The state after some steps. -/
def run (c : Cfg) (s : St R) (as : List Act) : St R := as.foldl (step c) s

/-- Before `write`. -/
def init (fs : FS R) (js : List (Job R)) : St R := { fs, todo := js, phase := .start, za := [], bad := false }

end Verif.Out
