/-!
# OSM id set (model)

Models `src/pfaedle/osm/OsmIdSet.h` and `src/pfaedle/osm/OsmIdSet.cpp`.

Simplifications, valid throughout:
* ids are `Nat` (the C++ type is `uint64_t`); hypotheses bound them where needed
* a file or buffer of 8 byte ids is a `List Nat`; all byte offsets used by the
  code are multiples of 8 and are modelled as the offset divided by 8, except in
  the binary search, which keeps byte offsets
* `read` and `write` transfer everything available/requested (short transfers
  and I/O errors are not modelled)
* `std::bitset` is the list of set positions
* a read outside a buffer or a failed `assert` is the outcome `none`
-/

namespace Verif.OsmIdSet

/-- Sizes and hash functions. `B = BUFFER_S / 8`, `S = SORT_BUFFER_S / 8`,
`bits = BLOOMF_BITS` (OsmIdSet.h:24-28); `h1` is `MurmurHash3_x86_32` (absent
submodule) and `h2` is `jenkins` (OsmIdSet.cpp:297-305), both arbitrary here. -/
structure Params where
  B : Nat
  S : Nat
  bits : Nat
  h1 : Nat → Nat
  h2 : Nat → Nat

/-- `UINT64_MAX`, also the value of `_smallest(-1)`. -/
def maxId : Nat := 18446744073709551615

/-- The object's fields (OsmIdSet.h:52-76). `obuf` is the used part of
`_outBuffer` (`_obufpos = 8 * obuf.length`); `file` is the temporary file
(`_fsize = 8 * file.length`); `curBlock`/`buffer` are `_curBlock`/`_buffer` with
`_curBlockSize = 8 * buffer.length`. -/
structure St where
  closed : Bool
  sorted : Bool
  last : Nat
  smallest : Nat
  biggest : Nat
  hasInv : Bool
  obuf : List Nat
  file : List Nat
  blockEnds : List Nat
  bitsIn : List Nat
  bitsNotIn : List Nat
  curBlock : Option Nat
  buffer : List Nat
deriving DecidableEq, Repr

/-- OsmIdSet.cpp:26-42, constructor. -/
def init : St :=
  { closed := false, sorted := true, last := 0, smallest := maxId, biggest := 0,
    hasInv := false, obuf := [], file := [], blockEnds := [], bitsIn := [],
    bitsNotIn := [], curBlock := none, buffer := [] }

/-- OsmIdSet.cpp:63, 84, 167: `(h1 + i * h2) % BLOOMF_BITS` in `uint32_t`. -/
def bitPos (P : Params) (id i : Nat) : Nat := ((P.h1 id + i * P.h2 id) % 4294967296) % P.bits

/-- The five positions `i = 0..4` (OsmIdSet.cpp:62, 83, 166). -/
def positions (P : Params) (id : Nat) : List Nat := (List.range 5).map (bitPos P id)

/-- OsmIdSet.cpp:53-66 `nadd`; `none` is the thrown exception. -/
def nadd (P : Params) (s : St) (id : Nat) : Option St :=
  if s.closed then none
  else some { s with hasInv := true, bitsNotIn := positions P id ++ s.bitsNotIn }

/-- OsmIdSet.cpp:90-105 `diskAdd`. -/
def diskAdd (P : Params) (s : St) (id : Nat) : St :=
  let obuf := s.obuf ++ [id]
  let ends := if obuf.length % P.B = 0 then s.blockEnds ++ [id] else s.blockEnds
  if obuf.length ≥ P.B then
    { s with obuf := [], file := s.file ++ obuf.take P.B, blockEnds := ends }
  else { s with obuf := obuf, blockEnds := ends }

/-- OsmIdSet.cpp:69-87 `add`; `none` is the thrown exception. -/
def add (P : Params) (s : St) (id : Nat) : Option St :=
  if s.closed then none
  else
    let s := diskAdd P s id
    some { s with
      sorted := if s.last > id then false else s.sorted
      last := id
      smallest := if id < s.smallest then id else s.smallest
      biggest := if id > s.biggest then id else s.biggest
      bitsIn := positions P id ++ s.bitsIn }

/-! ## External sort, OsmIdSet.cpp:193-268 -/

/-- Insertion into an ascending list (part of the `qsort` contract). -/
def insertSorted (x : Nat) : List Nat → List Nat
  | [] => [x]
  | y :: ys => if x ≤ y then x :: y :: ys else y :: insertSorted x ys

/-- `qsort` of libc with `qsortCmp` (OsmIdSet.h:90-96): some ascending
permutation; on numbers it is unique, so any sorting function will do. -/
def qsort : List Nat → List Nat
  | [] => []
  | x :: xs => insertSorted x (qsort xs)

/-- Per-part merge state: `partbufs[i]`, `partpos[i]/8`, `partsize[i]/8`
(OsmIdSet.cpp:201-203). -/
structure Part where
  buf : List Nat
  pos : Nat
  size : Nat
deriving DecidableEq, Repr

/-- OsmIdSet.cpp:206-216: sort every part in place. Part `i` covers the ids
`S*i .. S*i+S-1` of the file. -/
def sortParts (S : Nat) (file : List Nat) : Nat → List Nat
  | 0 => []
  | parts + 1 => sortParts S file parts ++ qsort ((file.drop (S * parts)).take S)

/-- OsmIdSet.cpp:207-219: initial part buffers. -/
def initParts (S pbs : Nat) (sf : List Nat) (parts : Nat) : List Part :=
  (List.range parts).map fun i =>
    let p := (sf.drop (S * i)).take S
    ⟨p.take pbs, 0, p.length⟩

/-- OsmIdSet.cpp:225-238: the last non-empty part with the smallest head.
`none`: read of an invalid buffer position. -/
def pick (pbs : Nat) : List Part → Nat → Nat → Option Nat → Option (Nat × Option Nat)
  | [], _, sm, sp => some (sm, sp)
  | p :: ps, j, sm, sp =>
    if p.pos = p.size then pick pbs ps (j + 1) sm sp
    else
      match p.buf[p.pos % pbs]? with
      | none => none
      | some v => if v ≤ sm then pick pbs ps (j + 1) v (some j) else pick pbs ps (j + 1) sm sp

/-- OsmIdSet.cpp:251-256: advance part `j` and refill its buffer from the file;
a read shorter than the buffer leaves the tail unchanged. -/
def advance (S pbs : Nat) (sf : List Nat) (j : Nat) (p : Part) : Part :=
  let pos := p.pos + 1
  if pos % pbs = 0 then
    let r := (sf.drop (S * j + pos)).take pbs
    { p with pos := pos, buf := r ++ p.buf.drop r.length }
  else { p with pos := pos }

/-- State of the merge loop: parts, `buf`, the new file and the block ends. -/
structure MergeSt where
  parts : List Part
  buf : List Nat
  out : List Nat
  ends : List Nat
deriving DecidableEq, Repr

/-- One iteration of OsmIdSet.cpp:224-257 with `i = 8 * k`, `n = _fsize / 8`.
`none`: failed assertion (240) or invalid read. -/
def mergeStep (B S pbs n : Nat) (sf : List Nat) (k : Nat) (m : MergeSt) : Option MergeSt :=
  match pick pbs m.parts 0 maxId none with
  | some (v, some j) =>
    match m.parts[j]? with
    | none => none
    | some p =>
      let buf := m.buf.set (k % S) v
      let ends := if (k + 1) % B = 0 then m.ends ++ [v] else m.ends
      let out := if k % S = S - 1 ∨ k = n - 1 then m.out ++ buf.take (k % S + 1) else m.out
      some ⟨m.parts.set j (advance S pbs sf j p), buf, out, ends⟩
  | _ => none

/-- OsmIdSet.cpp:224 the loop, `k` iterations done when called with fuel
`n - k`. -/
def mergeLoop (B S pbs n : Nat) (sf : List Nat) : Nat → Nat → MergeSt → Option MergeSt
  | 0, _, m => some m
  | fuel + 1, k, m =>
    match mergeStep B S pbs n sf k m with
    | none => none
    | some m => mergeLoop B S pbs n sf fuel (k + 1) m

/-- OsmIdSet.cpp:193-268 `sort`: returns new file and block ends. The content of
the freshly allocated `buf` is irrelevant; zeros here. -/
def extSort (P : Params) (file : List Nat) : Option (List Nat × List Nat) :=
  let n := file.length
  let parts := n / P.S + 1
  let pbs := P.S / parts + 1
  let sf := sortParts P.S file parts
  let m : MergeSt := ⟨initParts P.S pbs sf parts, List.replicate P.S 0, [], []⟩
  match mergeLoop P.B P.S pbs n sf n 0 m with
  | none => none
  | some m => some (m.out, m.ends)

/-- OsmIdSet.cpp:181-190 `close`. -/
def close (P : Params) (s : St) : Option St :=
  let file := s.file ++ s.obuf
  let ends := s.blockEnds ++ [s.biggest]
  if s.sorted then some { s with file := file, blockEnds := ends, closed := true }
  else
    match extSort P file with
    | none => none
    | some (f, e) =>
      some { s with file := f, blockEnds := e, closed := true, sorted := true }

/-! ## Queries -/

/-- `std::lower_bound` on an ascending range: number of leading elements
smaller than `id` (OsmIdSet.cpp:117). -/
def lowerBound (l : List Nat) (id : Nat) : Nat := (l.takeWhile (fun x => decide (x < id))).length

/-- `std::upper_bound` on an ascending range (OsmIdSet.cpp:109). -/
def upperBound (l : List Nat) (id : Nat) : Nat := (l.takeWhile (fun x => decide (x ≤ id))).length

/-- Read the id at byte offset `p` of a buffer of ids; `none` if the offset is
negative, unaligned or outside. -/
def readAt (buf : List Nat) (p : Int) : Option Nat :=
  if p < 0 ∨ p % 8 ≠ 0 then none else buf[(p / 8).toNat]?

/-- OsmIdSet.cpp:139-149, the binary search loop over byte offsets `l`, `r`
(`ssize_t`). `/` on non-negative operands is C++ division. `none`: invalid read
or fuel exhausted. -/
def bsearch (buf : List Nat) (id : Nat) : Nat → Int → Int → Option Bool
  | 0, _, _ => none
  | fuel + 1, l, r =>
    if l ≤ r then
      let p := l + ((r - l) / 16) * 8
      match readAt buf p with
      | none => none
      | some cur =>
        if cur = id then some true
        else if cur < id then bsearch buf id fuel (p + 8) r
        else bsearch buf id fuel l (p - 8)
    else some false

/-- OsmIdSet.cpp:122-131: load the block for `id` unless cached. -/
def loadBlock (P : Params) (s : St) (id : Nat) : St :=
  let block := upperBound s.blockEnds id
  if s.curBlock = some block then s
  else { s with curBlock := some block, buffer := (s.file.drop (block * P.B)).take P.B }

/-- OsmIdSet.cpp:114-150 `diskHas`. -/
def diskHas (P : Params) (s : St) (id : Nat) : Option (Bool × St) :=
  if s.sorted = false then none
  else if s.blockEnds[lowerBound s.blockEnds id]? = some id then some (true, s)
  else
    let s := loadBlock P s id
    match s.buffer with
    | [] => some (false, s)
    | first :: _ =>
      if first > id then some (false, s)
      else
        match bsearch s.buffer id (s.buffer.length + 1) 0 (8 * (s.buffer.length : Int) - 8) with
        | none => none
        | some b => some (b, s)

/-- OsmIdSet.cpp:166-174: the bloom filter loop; `none` = undecided. -/
def bloom (s : St) : List Nat → Option Bool
  | [] => none
  | h :: hs =>
    if h ∉ s.bitsIn then some false
    else if s.hasInv ∧ h ∉ s.bitsNotIn then some true
    else bloom s hs

/-- OsmIdSet.cpp:158-178, the part of `has` after closing. -/
def hasClosed (P : Params) (s : St) (id : Nat) : Option (Bool × St) :=
  if id < s.smallest ∨ id > s.biggest then some (false, s)
  else
    match bloom s (positions P id) with
    | some b => some (b, s)
    | none => diskHas P s id

/-- OsmIdSet.cpp:153-178 `has`. The statistics counters are left out. -/
def has (P : Params) (s : St) (id : Nat) : Option (Bool × St) :=
  if s.closed then hasClosed P s id
  else
    match close P s with
    | none => none
    | some s => hasClosed P s id

end Verif.OsmIdSet
