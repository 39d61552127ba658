import Verif.Base.FMap

/-!
# Edge payloads (model)

Model of `src/pfaedle/trgraph/EdgePL.cpp`/`.h`: payload objects, their geometry objects
(`LINE*`, counted in `_flines`) and the transit lines on them (`TransitEdgeLine*`,
counted in `_tlines`).

Payload objects have names. Geometry objects live at addresses given by an arbitrary
allocator that may reuse the addresses of freed objects; `_flines` keeps its entries for
freed addresses, as in the code. Transit lines are created outside of the class
(OsmBuilder.cpp:1359-1441) at an address chosen by the operation. `none` is an access to
freed memory, a double free or an underflow of a counter. Operations the caller cannot
perform (naming an object that does not exist, creating one that does, passing a dead
transit line) do nothing.
-/

namespace Verif.Payload

/-- EdgePL.h:119-123. `oneWay` has two bits, `lvl` four. -/
structure Attrs where
  oneWay : Fin 4
  restr : Bool
  rev : Bool
  lvl : Fin 16
  cost : Nat
deriving DecidableEq

/-- EdgePL.h:118-127. -/
structure EPL where
  a : Attrs
  l : Option Nat
  lines : List Nat

/-- All payloads, all geometry objects, `_flines`, `_tlines`, the live transit lines. -/
structure EState (P : Type) where
  objs : FMap Nat EPL
  heap : FMap Nat (List P)
  flines : Nat → Nat
  tcnt : FMap Nat Nat
  tlive : Nat → Bool

inductive EOp (P : Type) where
  | new (p : Nat)
  | copy (p q : Nat) (flat : Bool)
  | revCopy (p q : Nat)
  | destroy (p : Nat)
  | addPoint (p : Nat) (x : P)
  | addLine (p l : Nat)
  | newTLine (l : Nat)
  | setAttrs (p : Nat) (f : Attrs → Attrs)
  | mutGeom (p : Nat) (f : List P → List P)

variable {P : Type}

def upd {V : Type} (f : Nat → V) (a : Nat) (v : V) : Nat → V := fun b => if b = a then v else f b

/-- EdgePL.cpp:18-20. -/
def attrs0 : Attrs := ⟨0, false, false, 0, 0⟩

/-- EdgePL.cpp:90-94: `lower_bound` and `insert` in the vector sorted by address. -/
def insertPtr (l : Nat) : List Nat → List Nat
  | [] => [l]
  | x :: xs => if x < l then x :: insertPtr l xs else l :: x :: xs

/-- EdgePL.cpp:89-100. The test uses `lower_bound` on the sorted vector. -/
def addLineTo (e : EPL) (tcnt : FMap Nat Nat) (l : Nat) : EPL × FMap Nat Nat :=
  if l ∈ e.lines then (e, tcnt)
  else
    ({ e with lines := insertPtr l e.lines },
      match tcnt.get l with
      | some n => tcnt.put l (n + 1)
      | none => tcnt.put l 1)

/-- EdgePL.cpp:42: `for (auto l : pl._lines) addLine(l)`. -/
def addLinesTo (e : EPL) (tcnt : FMap Nat Nat) (ls : List Nat) : EPL × FMap Nat Nat :=
  ls.foldl (fun r l => addLineTo r.1 r.2 l) (e, tcnt)

/-- EdgePL.cpp:33-40: the geometry of a copy. -/
def copyGeom (alloc : EState P → Nat) (st : EState P) (l : Option Nat) (flat : Bool) :
    Option (Option Nat × EState P) :=
  match l with
  | none => some (none, st)
  | some a =>
    if flat then some (some a, { st with flines := upd st.flines a (st.flines a + 1) })
    else
      match st.heap.get a with
      | none => none
      | some pts =>
        let b := alloc st
        some (some b, { st with heap := st.heap.put b pts, flines := upd st.flines b (st.flines b + 1) })

/-- EdgePL.cpp:26-43: the copy `q` of `e`, with attributes `at`. -/
def copyTo (alloc : EState P → Nat) (st : EState P) (e : EPL) (q : Nat) (flat : Bool) (at' : Attrs) :
    Option (EState P) :=
  match copyGeom alloc st e.l flat with
  | none => none
  | some (l, st') =>
    let r := addLinesTo ⟨at', l, []⟩ st'.tcnt e.lines
    some { st' with objs := st'.objs.put q r.1, tcnt := r.2 }

/-- EdgePL.cpp:68-73: attributes of a reversed copy. -/
def Attrs.reversed (a : Attrs) : Attrs :=
  { a with rev := true, oneWay := if a.oneWay = 1 then 2 else if a.oneWay = 2 then 1 else a.oneWay }

/-- EdgePL.cpp:47-50: release of the geometry. -/
def dropGeom (st : EState P) : Option Nat → Option (EState P)
  | none => some st
  | some a =>
    if st.flines a = 0 then none
    else
      let st' := { st with flines := upd st.flines a (st.flines a - 1) }
      if st'.flines a = 0 then
        match st.heap.get a with
        | none => none
        | some _ => some { st' with heap := st.heap.erase a }
      else some st'

/-- EdgePL.cpp:56-64. -/
def unRef (tcnt : FMap Nat Nat) (tlive : Nat → Bool) (l : Nat) : Option (FMap Nat Nat × (Nat → Bool)) :=
  match tcnt.get l with
  | none => none
  | some 0 => none
  | some (n + 1) =>
    if n = 0 then
      if tlive l then some (tcnt.erase l, upd tlive l false) else none
    else some (tcnt.put l n, tlive)

/-- EdgePL.cpp:52. -/
def unRefs (tcnt : FMap Nat Nat) (tlive : Nat → Bool) : List Nat → Option (FMap Nat Nat × (Nat → Bool))
  | [] => some (tcnt, tlive)
  | l :: ls =>
    match unRef tcnt tlive l with
    | none => none
    | some (t, v) => unRefs t v ls

def EState.exec (alloc : EState P → Nat) (st : EState P) : EOp P → Option (EState P)
  -- EdgePL.cpp:18-20
  | .new p =>
    match st.objs.get p with
    | some _ => some st
    | none => some { st with objs := st.objs.put p ⟨attrs0, none, []⟩ }
  -- EdgePL.cpp:23-43
  | .copy p q flat =>
    match st.objs.get p, st.objs.get q with
    | some e, none => copyTo alloc st e q flat e.a
    | _, _ => some st
  -- EdgePL.cpp:67-75; the returned object is the one built here (a further copy and
  -- the destruction of the local object would have the same effect)
  | .revCopy p q =>
    match st.objs.get p, st.objs.get q with
    | some e, none => copyTo alloc st e q false e.a.reversed
    | _, _ => some st
  -- EdgePL.cpp:46-53
  | .destroy p =>
    match st.objs.get p with
    | none => some st
    | some e =>
      match dropGeom st e.l with
      | none => none
      | some st' =>
        match unRefs st'.tcnt st'.tlive e.lines with
        | none => none
        | some (t, v) => some { st' with objs := st'.objs.erase p, tcnt := t, tlive := v }
  -- EdgePL.cpp:113-119
  | .addPoint p x =>
    match st.objs.get p with
    | none => some st
    | some e =>
      match e.l with
      | none =>
        let b := alloc st
        some { st with
          objs := st.objs.put p { e with l := some b }
          heap := st.heap.put b [x]
          flines := upd st.flines b 1 }
      | some a =>
        match st.heap.get a with
        | none => none
        | some pts => some { st with heap := st.heap.put a (pts ++ [x]) }
  -- EdgePL.cpp:89-105
  | .addLine p l =>
    match st.objs.get p with
    | none => some st
    | some e =>
      if st.tlive l then
        let r := addLineTo e st.tcnt l
        some { st with objs := st.objs.put p r.1, tcnt := r.2 }
      else some st
  -- `new TransitEdgeLine` outside of the class
  | .newTLine l => if st.tlive l then some st else some { st with tlive := upd st.tlive l true }
  -- EdgePL.cpp:154, 163-166, 172-175, EdgePL.h:74
  | .setAttrs p f =>
    match st.objs.get p with
    | none => some st
    | some e => some { st with objs := st.objs.put p { e with a := f e.a } }
  -- changes through `getGeom()`, EdgePL.cpp:125
  | .mutGeom p f =>
    match st.objs.get p with
    | none => some st
    | some e =>
      match e.l with
      | none => some st
      | some a =>
        match st.heap.get a with
        | none => none
        | some pts => some { st with heap := st.heap.put a (f pts) }

def EState.init (P : Type) : EState P := ⟨[], [], fun _ => 0, [], fun _ => false⟩

def erun (alloc : EState P → Nat) : List (EOp P) → EState P → Option (EState P)
  | [], st => some st
  | op :: h, st =>
    match st.exec alloc op with
    | none => none
    | some st' => erun alloc h st'

/-- The assignment operator. The class does not define one (EdgePL.h:49-56), so the
compiler's copies all members without touching the counters. -/
def EState.assign (st : EState P) (p q : Nat) : EState P :=
  match st.objs.get p, st.objs.get q with
  | some e, some _ => { st with objs := st.objs.put q e }
  | _, _ => st

/-- EdgePL.cpp:181-186; `none` if there are fewer than two points. -/
def backHop (rev : Bool) (g : List P) : Option P := if rev then g[1]? else g.reverse[1]?

/-- EdgePL.cpp:189-194. -/
def frontHop (rev : Bool) (g : List P) : Option P := if rev then g.reverse[1]? else g[1]?

end Verif.Payload
