/-!
# Trip trie (model)

Model of `src/pfaedle/router/TripTrie.h` and `TripTrie.tpp`.

Trips are pointers `T`; `Env.stops` gives their stop times. Positions are an
abstract type `P` with the test `near a b` for `util::geo::dist(a, b) < 1`
(TripTrie.tpp:198). Routing attributes are an abstract type `A` with an operation
`merge` (RoutingAttrs.h:80-89, modelled elsewhere). `lat`, `lng` and `reprStop` of
a node are left out: they are never read by the trie. Times are unbounded
integers (`int` in the code). An index outside of `_nds` is undefined behaviour
and is the outcome `none` here.
-/

namespace Verif.Trie

/-- The parts of a GTFS stop time read by the trie (TripTrie.tpp:49-56, 61, 84);
`none` is an empty time. -/
structure StopTime (P : Type) where
  name : String
  platform : String
  pos : P
  arr : Option Int
  dep : Option Int

/-- TripTrie.h:19-32. -/
structure Nd (P A : Type) where
  name : String
  platform : String
  pos : P
  time : Int
  arr : Bool
  accTime : Int
  trips : Nat
  parent : Nat
  childs : List Nat
  attrs : A

/-- TripTrie.h:49-51. `_ndTrips` is a function (a missing key is the empty list). -/
structure Trie (T P A : Type) where
  nds : List (Nd P A)
  tripNds : List (T × Nat)
  ndTrips : Nat → List T

/-- What is not part of this code: the trips' stop times, the position test,
attribute merging, the value of `seconds()` on an empty time, and the position and
attributes of the value-initialised root node. -/
structure Env (T P A : Type) where
  stops : T → List (StopTime P)
  near : P → P → Bool
  merge : A → A → A
  emptySecs : Int
  rootPos : P
  rootAttrs : A

variable {T P A : Type}

/-- TripTrie.h:38: `_nds(1)`, one value-initialised node. -/
def Trie.empty (env : Env T P A) : Trie T P A :=
  { nds := [⟨"", "", env.rootPos, 0, false, 0, 0, 0, [], env.rootAttrs⟩],
    tripNds := [], ndTrips := fun _ => [] }

/-- TripTrie.tpp:197-199: the test on one child. -/
def matchNd (env : Env T P A) (timeEx : Bool) (st : StopTime P) (time : Int) (n : Nd P A) : Bool :=
  n.name == st.name && n.platform == st.platform && env.near n.pos st.pos &&
    (!timeEx || n.time == time)

/-- TripTrie.tpp:196-203: the loop over the children. -/
def firstMatch (env : Env T P A) (timeEx : Bool) (st : StopTime P) (time : Int)
    (nds : List (Nd P A)) : List Nat → Option Nat
  | [] => some 0
  | c :: cs =>
    match nds[c]? with
    | none => none
    | some n => if matchNd env timeEx st time n then some c else firstMatch env timeEx st time nds cs

/-- TripTrie.tpp:191-204; 0 stands for "no match". -/
def getMatchChild (env : Env T P A) (timeEx : Bool) (st : StopTime P) (time : Int)
    (nds : List (Nd P A)) (parent : Nat) : Option Nat :=
  match nds[parent]? with
  | none => none
  | some p => firstMatch env timeEx st time nds p.childs

/-- TripTrie.tpp:163-181. -/
def insert (st : StopTime P) (a : A) (time : Int) (arr : Bool) (nds : List (Nd P A)) (parent : Nat) :
    Option (List (Nd P A) × Nat) :=
  let nds' := nds ++ [⟨st.name, st.platform, st.pos, time, arr, time, 1, parent, [], a⟩]
  match nds'[parent]? with
  | none => none
  | some p => some (nds'.set parent { p with childs := p.childs ++ [nds'.length - 1] }, nds'.length - 1)

/-- TripTrie.tpp:69-72 and 90-93: new statistics of a matched child. -/
def Nd.bump (env : Env T P A) (a : A) (time : Int) (n : Nd P A) : Nd P A :=
  { n with accTime := n.accTime + time, trips := n.trips + 1, attrs := env.merge n.attrs a }

/-- TripTrie.tpp:69-72 and 90-93: update of a matched child. -/
def bump (env : Env T P A) (a : A) (time : Int) (nds : List (Nd P A)) (c : Nat) :
    Option (List (Nd P A)) :=
  match nds[c]? with
  | none => none
  | some n => some (nds.set c (n.bump env a time))

/-- TripTrie.tpp:63-76 (`arr = true`, `rej = false`) and 86-98 (`arr = false`, `rej`
is the test of line 95): follow or insert a child of `cur`. The result is `false`
for `return false`. -/
def visit (env : Env T P A) (timeEx : Bool) (a : A) (rej : Bool) (st : StopTime P) (time : Int)
    (arr : Bool) (nds : List (Nd P A)) (cur : Nat) : Option (Bool × List (Nd P A) × Nat) :=
  match getMatchChild env timeEx st time nds cur with
  | none => none
  | some 0 =>
    if rej then some (false, nds, cur)
    else match insert st a time arr nds cur with
      | none => none
      | some (nds', c) => some (true, nds', c)
  | some (c + 1) =>
    match bump env a time nds (c + 1) with
    | none => none
    | some nds' => some (true, nds', c + 1)

/-- TripTrie.tpp:57-61 and 79-84: time relative to the start; the value of an empty
time is `startSecs` itself. -/
def relTime (start : Int) : Option Int → Int
  | none => start
  | some t => t - start

/-- TripTrie.tpp:46-99: the loop over the stop times; `first` is `stId == 0`,
`filed` is `_tripNds.size() > 0`. -/
def addLoop (env : Env T P A) (timeEx : Bool) (a : A) (start : Int) (filed : Bool) :
    Bool → List (StopTime P) → List (Nd P A) → Nat → Option (Bool × List (Nd P A) × Nat)
  | _, [], nds, cur => some (true, nds, cur)
  | first, st :: rest, nds, cur =>
    match (if first then some (true, nds, cur)
           else visit env timeEx a false st (relTime start st.arr) true nds cur) with
    | none => none
    | some (false, nds, cur) => some (false, nds, cur)
    | some (true, nds, cur) =>
      match (if rest.isEmpty then some (true, nds, cur)
             else visit env timeEx a (first && filed) st (relTime start st.dep) false nds cur) with
      | none => none
      | some (false, nds, cur) => some (false, nds, cur)
      | some (true, nds, cur) => addLoop env timeEx a start filed false rest nds cur

/-- `std::map::operator[]` with assignment. -/
def assign [DecidableEq T] (m : List (T × Nat)) (t : T) (v : Nat) : List (T × Nat) :=
  (t, v) :: m.filter fun p => p.1 ≠ t

/-- TripTrie.tpp:25-26 and 101-102. -/
def Trie.file [DecidableEq T] (tr : Trie T P A) (t : T) (nid : Nat) : Trie T P A :=
  { tr with tripNds := assign tr.tripNds t nid,
            ndTrips := fun i => if i = nid then tr.ndTrips i ++ [t] else tr.ndTrips i }

/-- TripTrie.tpp:39-43: start time in `add`. -/
def startAdd (stops : List (StopTime P)) : Int :=
  match stops with
  | [] => 0
  | s :: _ => s.dep.getD 0

/-- TripTrie.tpp:112: start time in `get`: `seconds()` without a test. -/
def startGet (env : Env T P A) (stops : List (StopTime P)) : Int :=
  match stops with
  | [] => 0
  | s :: _ => s.dep.getD env.emptySecs

/-- TripTrie.tpp:36-105. -/
def Trie.add [DecidableEq T] (env : Env T P A) (tr : Trie T P A) (t : T) (a : A) (timeEx : Bool) :
    Option (Bool × Trie T P A) :=
  if (env.stops t).isEmpty then some (false, tr)
  else
    match addLoop env timeEx a (startAdd (env.stops t)) (decide (tr.tripNds.length > 0)) true
        (env.stops t) tr.nds 0 with
    | none => none
    | some (false, nds, _) => some (false, { tr with nds := nds })
    | some (true, nds, cur) => some (true, Trie.file { tr with nds := nds } t cur)

/-- TripTrie.tpp:115-156: the loop of `get`; 0 stands for `return 0`. -/
def getLoop (env : Env T P A) (timeEx : Bool) (start : Int) (nds : List (Nd P A)) :
    Bool → List (StopTime P) → Nat → Option Nat
  | _, [], cur => some cur
  | first, st :: rest, cur =>
    match (if first then some (true, cur)
           else (getMatchChild env timeEx st (relTime start st.arr) nds cur).map
              fun c => (decide (c ≠ 0), c)) with
    | none => none
    | some (false, _) => some 0
    | some (true, cur) =>
      match (if rest.isEmpty then some (true, cur)
             else (getMatchChild env timeEx st (relTime start st.dep) nds cur).map
                fun c => (decide (c ≠ 0), c)) with
      | none => none
      | some (false, _) => some 0
      | some (true, cur) => getLoop env timeEx start nds false rest cur

/-- TripTrie.tpp:109-159. -/
def Trie.get (env : Env T P A) (tr : Trie T P A) (t : T) (timeEx : Bool) : Option Nat :=
  if (env.stops t).isEmpty then some 0
  else getLoop env timeEx (startGet env (env.stops t)) tr.nds true (env.stops t) 0

/-- TripTrie.tpp:19-32. -/
def Trie.addTrip [DecidableEq T] (env : Env T P A) (tr : Trie T P A) (t : T) (a : A)
    (timeEx degen : Bool) : Option (Bool × Trie T P A) :=
  if degen then
    match tr.get env t timeEx with
    | none => none
    | some e =>
      if e ≠ 0 then
        match tr.nds[e]? with
        | none => none
        | some n => if n.childs.length = 0 then some (true, tr.file t e) else some (false, tr)
      else some (false, tr)
  else tr.add env t a timeEx

end Verif.Trie
