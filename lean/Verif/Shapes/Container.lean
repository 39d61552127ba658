/-!
# Shape container and shapes.txt (model)

Models `src/pfaedle/gtfs/ShapeContainer.tpp` and `Writer::writeShapes`
(`src/pfaedle/gtfs/Writer.cpp:607-641`).

Simplifications, valid throughout:
* bytes are `Nat`, strings are byte lists
* the file works: writes are complete, reads return what was written
* shapes are only added before `open` is called (the writer opens the storage
  once, after all shapes have been computed)
* a failed stream is the outcome `none`: every read on it fails again
-/

namespace Verif.Shapes

abbrev Byte := Nat
abbrev Str := List Byte

/-- Widths in bytes of the fields of a stored point (`sizeof(p.lat)`,
`sizeof(p.lng)`, `sizeof(p.travelDist)`, ShapeContainer.tpp:83-86; their types
are declared in an absent submodule). -/
structure Widths where
  lat : Nat
  lng : Nat
  dist : Nat

/-- A shape point: the object representations of its three fields. -/
structure Point where
  lat : List Byte
  lng : List Byte
  dist : List Byte
deriving DecidableEq, Repr

/-- A shape (`ad::cppgtfs::gtfs::Shape`): id and points. -/
structure Shape where
  id : Str
  pts : List Point
deriving DecidableEq, Repr

/-- A row of shapes.txt (`flat::ShapePoint`). -/
structure Row where
  id : Str
  pt : Point
  seq : Nat
deriving DecidableEq, Repr

/-- `k` byte little endian object representation of an unsigned number
(ShapeContainer.tpp:80: `write(reinterpret_cast<const char*>(&size), 8)`). -/
def le : Nat → Nat → List Byte
  | 0, _ => []
  | k + 1, n => n % 256 :: le k (n / 256)

/-- Value of a little endian representation. -/
def unle : List Byte → Nat
  | [] => 0
  | b :: bs => b + 256 * unle bs

/-- Fields of the container (ShapeContainer.h:53-59). `ids` is the set `_ids`;
`buf` is the unread part of `_writeBuffer`, `put` its put position (`tellp`). -/
structure Container where
  ids : List Str
  storage : List Byte
  buf : List Byte
  put : Nat
  lastBuff : Nat
deriving Repr

/-- ShapeContainer.tpp:10-21, constructor. -/
def Container.empty : Container := ⟨[], [], [], 0, 0⟩

/-- ShapeContainer.tpp:61-63 `has`. -/
def Container.has (c : Container) (id : Str) : Bool := decide (id ∈ c.ids)

/-- ShapeContainer.tpp:33-36 `add(const T&)`: register the id of a shape whose
points stay in the input file. -/
def Container.register (c : Container) (id : Str) : Container :=
  { c with ids := if id ∈ c.ids then c.ids else id :: c.ids }

/-- ShapeContainer.tpp:40-43 `remove`. -/
def Container.remove (c : Container) (id : Str) : Container :=
  { c with ids := c.ids.filter (fun x => decide (x ≠ id)) }

/-- ShapeContainer.tpp:82-87: object representation of a point. -/
def encPt (p : Point) : List Byte := p.lat ++ p.lng ++ p.dist

/-- ShapeContainer.tpp:78-87: the bytes appended for a shape. -/
def encShape (s : Shape) : List Byte :=
  s.id ++ [32] ++ le 8 s.pts.length ++ s.pts.flatMap encPt

/-- ShapeContainer.tpp:73-96 `add(const Shape&)`; `limit` is `1000 * 5000`.
`_storage << _writeBuffer.rdbuf()` moves everything unread to the file. -/
def Container.add (limit : Nat) (c : Container) (s : Shape) : Container :=
  if c.has s.id then c
  else
    let bytes := encShape s
    let buf := c.buf ++ bytes
    let put := c.put + bytes.length
    let ids := s.id :: c.ids
    if put - c.lastBuff > limit then
      { ids := ids, storage := c.storage ++ buf, buf := [], put := put, lastBuff := put }
    else { ids := ids, storage := c.storage, buf := buf, put := put, lastBuff := c.lastBuff }

/-! ## Reading back -/

/-- Read position: `_ptr`, `_max`, `_curId` and the unread part of the file. -/
structure Rd where
  ptr : Nat
  max : Nat
  curId : Str
  rest : List Byte
deriving DecidableEq, Repr

/-- ShapeContainer.tpp:100-109 `open`: flush the buffer and rewind. -/
def Container.open (c : Container) : Rd := ⟨0, 0, [], c.storage ++ c.buf⟩

/-- `isspace` in the C locale. -/
def isSpace (b : Byte) : Bool := b == 32 || (9 ≤ b && b ≤ 13)

/-- `_storage.read(_, k)`: `none` if fewer than `k` bytes are left. -/
def readN (k : Nat) (l : List Byte) : Option (List Byte × List Byte) :=
  if l.length < k then none else some (l.take k, l.drop k)

/-- `_storage >> _curId; _storage.ignore();` (ShapeContainer.tpp:117-118): skip
white space, read up to the next white space, drop one character. -/
def readId (l : List Byte) : Option (Str × List Byte) :=
  let l := l.dropWhile isSpace
  let w := l.takeWhile (fun b => !isSpace b)
  if w = [] then none
  else
    match l.dropWhile (fun b => !isSpace b) with
    | [] => none
    | _ :: t => some (w, t)

/-- ShapeContainer.tpp:116-121: header of the next shape, if at its start. -/
def header (r : Rd) : Option Rd :=
  if r.ptr = 0 then
    match readId r.rest with
    | none => none
    | some (w, t) =>
      match readN 8 t with
      | none => none
      | some (sz, t) => some { r with curId := w, max := unle sz, rest := t }
  else some r

/-- ShapeContainer.tpp:125-128: the three fields of a point. -/
def readPt (w : Widths) (l : List Byte) : Option (Point × List Byte) :=
  match readN w.lat l with
  | none => none
  | some (a, l) =>
    match readN w.lng l with
    | none => none
    | some (b, l) =>
      match readN w.dist l with
      | none => none
      | some (d, l) => some (⟨a, b, d⟩, l)

/-- One pass through the loop body, ShapeContainer.tpp:116-138. -/
def stepPt (w : Widths) (r : Rd) : Option (Row × Rd) :=
  match header r with
  | none => none
  | some r =>
    match readPt w r.rest with
    | none => none
    | some (p, t) =>
      some (⟨r.curId, p, r.ptr + 1⟩,
        { r with ptr := if r.ptr + 1 = r.max then 0 else r.ptr + 1, rest := t })

/-- ShapeContainer.tpp:113-144 `nextStoragePt`; `fuel` bounds the loop. -/
def nextPt (w : Widths) (ids : List Str) : Nat → Rd → Option (Row × Rd)
  | 0, _ => none
  | fuel + 1, r =>
    match stepPt w r with
    | none => none
    | some (row, r) => if row.id ∈ ids then some (row, r) else nextPt w ids fuel r

/-- Writer.cpp:638-640: `while (nextStoragePt(&sp)) writeShapePoint(sp)`. -/
def readAll (w : Widths) (ids : List Str) : Nat → Rd → List Row
  | 0, _ => []
  | fuel + 1, r =>
    match nextPt w ids (fuel + 1) r with
    | none => []
    | some (row, r) => row :: readAll w ids fuel r

/-- Writer.cpp:619-634: copy the points of the input file. `cur` and `skip` are
`curShapeId` and `curSkipShapeId`. -/
def copyRows (ids : List Str) : Str → Str → List Row → List Row
  | _, _, [] => []
  | cur, skip, sp :: rest =>
    if sp.id = skip then copyRows ids cur skip rest
    else if sp.id ≠ cur then
      if sp.id ∈ ids then sp :: copyRows ids sp.id skip rest
      else copyRows ids cur sp.id rest
    else sp :: copyRows ids cur skip rest

/-- Writer.cpp:607-641 `writeShapes`: all rows written. `src` are the rows of
the input's shapes.txt (empty if it has none). -/
def writeShapes (w : Widths) (src : List Row) (c : Container) : List Row :=
  copyRows c.ids [] [] src ++
    readAll w c.ids ((c.storage ++ c.buf).length + 1) c.open

end Verif.Shapes
