import Verif.Trie.Model

/-!
# Trip trie (specification)

Independent of the insertion code: what the events of a trip are, what the path of
a node is, and what is added to the statistics of a node.
-/

namespace Verif.Trie
variable {T P A : Type}

/-- One event of a trip: departure from (`arr = false`) or arrival at a stop. -/
structure Ev (P : Type) where
  st : StopTime P
  arr : Bool

/-- The events of a stop sequence: for each two consecutive stops the departure
from the first and the arrival at the second. -/
def spell : List (StopTime P) → List (Ev P)
  | s :: s' :: rest => ⟨s, false⟩ :: ⟨s', true⟩ :: spell (s' :: rest)
  | _ => []

/-- Time of an event relative to the start of the trip; an event without time counts
with the start time itself. -/
def Ev.time (start : Int) (e : Ev P) : Int :=
  match (if e.arr then e.st.arr else e.st.dep) with
  | some t => t - start
  | none => start

/-- The node numbers on the way from the root (excluded) to node `i` (included),
following parent links. -/
def pathF (nds : List (Nd P A)) : Nat → Nat → List Nat
  | 0, _ => []
  | _ + 1, 0 => []
  | f + 1, i + 1 =>
    match nds[i + 1]? with
    | none => []
    | some n => pathF nds f n.parent ++ [i + 1]

def pathOf (nds : List (Nd P A)) (i : Nat) : List Nat := pathF nds i i

/-- A call of `addTrip`. -/
structure Op (T A : Type) where
  t : T
  a : A
  timeEx : Bool
  degen : Bool

/-- The start time used for a call: the departure time at the first stop. If it is
empty, it counts as 0 in normal mode and as the library's value in degenerate mode. -/
def Op.start (env : Env T P A) (op : Op T A) : Int :=
  match (env.stops op.t).head?.bind (·.dep) with
  | some t => t
  | none => if op.degen && !(env.stops op.t).isEmpty then env.emptySecs else 0

/-- A history of calls on a trie, with the log of the accepted calls and the node
under which the trip is found right after the call. `none` is undefined behaviour. -/
def run [DecidableEq T] (env : Env T P A) :
    List (Op T A) → Trie T P A × List (Op T A × Nat) → Option (Trie T P A × List (Op T A × Nat))
  | [], s => some s
  | op :: ops, (tr, log) =>
    match tr.addTrip env op.t op.a op.timeEx op.degen with
    | none => none
    | some (false, tr') => run env ops (tr', log)
    | some (true, tr') =>
      match tr'.tripNds.lookup op.t with
      | none => none
      | some nid => run env ops (tr', log ++ [(op, nid)])

/-- Node `k` of the trie fits the event `e`. -/
def Fits (env : Env T P A) (nds : List (Nd P A)) (timeEx : Bool) (start : Int) (k : Nat) (e : Ev P) :
    Prop :=
  ∃ n, nds[k]? = some n ∧ n.name = e.st.name ∧ n.platform = e.st.platform ∧
    env.near n.pos e.st.pos = true ∧ n.arr = e.arr ∧ (timeEx = true → n.time = e.time start)

/-- The node `nid` spells the stops of the trip: its path has one node per event, and
the m-th node fits the m-th event. -/
def Spells (env : Env T P A) (nds : List (Nd P A)) (op : Op T A) (nid : Nat) : Prop :=
  (pathOf nds nid).length = 2 * ((env.stops op.t).length - 1) ∧
  ∀ p ∈ (pathOf nds nid).zip (spell (env.stops op.t)), Fits env nds op.timeEx (op.start env) p.1 p.2

/-- The accepted calls whose trip passes through node `i`, with the trip's relative
time there, in the order of the calls. -/
def hits (env : Env T P A) (nds : List (Nd P A)) (log : List (Op T A × Nat)) (i : Nat) :
    List (Op T A × Int) :=
  log.flatMap fun (op, nid) =>
    ((pathOf nds nid).zip (spell (env.stops op.t))).filterMap fun (k, e) =>
      if k = i then some (op, e.time (op.start env)) else none

end Verif.Trie
