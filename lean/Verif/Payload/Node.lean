/-!
# Node payloads (model)

Model of `src/pfaedle/trgraph/NodePL.cpp`/`.h`: the marker field `_si` of each node and
the table of station infos shared by all nodes. Nodes are names of type `N`; positions,
component numbers and the debug field are left out. `S` is the type of station infos.
-/

namespace Verif.Payload

/-- NodePL.h:82, 88: `_si` per node and the static vector. -/
structure NState (N S : Type) where
  si : N → Nat
  infos : List S

inductive NOp (N S : Type) where
  | setSI (n : N) (s : S)
  | noStat (n : N)
  | blocker (n : N)
  | turnCycle (n : N)
  /-- copy of a payload, e.g. `g->addNd(*s)` (OsmBuilder.cpp:1328) -/
  | copy (src dst : N)
  /-- change through the pointer given by `getSI()`, e.g. `getSI()->setTrack(…)`
  (OsmBuilder.cpp:1352, 1733) -/
  | modify (n : N) (f : S → S)

variable {N S : Type} [DecidableEq N]

/-- `std::numeric_limits<uint32_t>::max()`. -/
def u32max : Nat := 4294967295

def NState.write (st : NState N S) (n : N) (v : Nat) : NState N S :=
  { st with si := fun m => if m = n then v else st.si m }

/-- NodePL.cpp:140-142. -/
def NState.isBlocker (st : NState N S) (n : N) : Bool := st.si n == u32max

/-- NodePL.cpp:132-134. -/
def NState.isTurnCycle (st : NState N S) (n : N) : Bool := st.si n == u32max - 1

/-- NodePL.cpp:113-126. Outer `none`: read outside of the vector; inner `none`: null. -/
def NState.getSI (st : NState N S) (n : N) : Option (Option S) :=
  if st.isBlocker n then some none
  else if st.isTurnCycle n then some none
  else if st.si n = 0 then some none
  else
    match st.infos[st.si n - 1]? with
    | none => none
    | some s => some (some s)

/-- NodePL.cpp:65, 107-110, 129, 137; the size is stored in 32 bits. A change through a
null pointer does not happen in the program (all uses are guarded) and does nothing here. -/
def NState.exec (st : NState N S) : NOp N S → NState N S
  | .setSI n s => { st with infos := st.infos ++ [s] }.write n ((st.infos.length + 1) % (u32max + 1))
  | .noStat n => st.write n 0
  | .blocker n => st.write n u32max
  | .turnCycle n => st.write n (u32max - 1)
  | .copy a b => st.write b (st.si a)
  | .modify n f =>
    match st.getSI n with
    | some (some s) => { st with infos := st.infos.set (st.si n - 1) (f s) }
    | _ => st

/-- NodePL.cpp:21-23, 33-35: all nodes start without marker. -/
def NState.init (N S : Type) : NState N S := ⟨fun _ => 0, []⟩

def nrun (h : List (NOp N S)) : NState N S := h.foldl NState.exec (NState.init N S)

end Verif.Payload
