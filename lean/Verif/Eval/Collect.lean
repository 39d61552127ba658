import Verif.Eval.Cut
/-!
# The collector of the evaluation (shapevl)

Of the report only the columns trip, A_N, A_L and average Frechet distance are modelled (they are the same in all levels); the columns of
level 2 that are computed from `_fdCache`, `_dCache` and `_lenDiffCache` do not enter anything else.
-/
namespace Verif.Eval

/-- Collector.h:34: two points are more than .00001 apart (squares are compared). -/
def far (p q : Pt) : Bool := decide ((1 / 100000) * (1 / 100000) < (p.1 - q.1) * (p.1 - q.1) + (p.2 - q.2) * (p.2 - q.2))

/-- Collector.h:33-39. -/
def ltLoop : Ln → Ln → Bool
  | p :: a, q :: b => if far p q then decide (p.1 < q.1) || (decide (p.1 = q.1) && decide (p.2 < q.2)) else ltLoop a b
  | _, _ => false

/-- `lineCmp`, Collector.h:27-43. -/
def lineLt (a b : Ln) : Bool := if a.length ≠ b.length then decide (a.length < b.length) else ltLoop a b

/-- Equivalent keys of a `std::map` with `lineCmp`. -/
def same (a b : Ln) : Bool := !lineLt a b && !lineLt b a

/-- A `std::map<LINE, std::map<LINE, double, lineCmp>, lineCmp>`. Keys are kept in the order of insertion and searched from the front; a map with
one key behaves in the same way, a map with several keys does so if `same` is an equivalence (it is not in general: `C64_limit_order`). -/
abbrev Cache := List (Ln × List (Ln × Rat))

/-- Collector.cpp:117-121. -/
def Cache.look (c : Cache) (a b : Ln) : Option Rat :=
  match c.find? (fun e => same a e.1) with
  | none => none
  | some e => (e.2.find? fun x => same b x.1).map (·.2)

/-- `cache[a][b] = v`. -/
def Cache.store : Cache → Ln → Ln → Rat → Cache
  | [], a, b, v => [(a, [(b, v)])]
  | e :: c, a, b, v => if same a e.1 then (e.1, e.2 ++ [(b, v)]) :: c else e :: Cache.store c a b v

/-- Collector.cpp:117-129 (and 530-542): look up, compute and store. -/
def memo (c : Cache) (f : Ln → Ln → Rat) (a b : Ln) : Rat × Cache :=
  match c.look a b with
  | some v => (v, c)
  | none => (f a b, c.store a b (f a b))

/-- One line of the report, Collector.cpp:214-217. -/
structure Row where
  trip : Nat
  an : Rat
  al : Rat
  avgFd : Rat
deriving DecidableEq

/-- The state of the collector, Collector.h:91-117. The trip of a result is its address. -/
structure Coll where
  trips : Nat := 0
  noOrig : Nat := 0
  distDiffs : List Rat := []
  hopDists : List Rat := []
  accFdSum : Rat := 0
  unmatched : Nat := 0
  unmatchedLen : Rat := 0
  an0 : Nat := 0
  an5 : Nat := 0
  an10 : Nat := 0
  an20 : Nat := 0
  an30 : Nat := 0
  an50 : Nat := 0
  an70 : Nat := 0
  an90 : Nat := 0
  results : List (Rat × Nat) := []
  accC : Cache := []
  daC : Cache := []
  rows : List Row := []

/-- A trip of a feed. -/
structure Trip (S : Type) where
  id : Nat
  typ : Nat
  sts : List (ST S)
  shape : Option Shp

/-- `Result::operator<`, Result.h:32-35. -/
def resLt (a b : Rat × Nat) : Bool := decide (a.1 < b.1) || (decide (a.1 = b.1) && decide (a.2 < b.2))

/-- `std::set<Result>::insert`. -/
def insertRes (r : Rat × Nat) : List (Rat × Nat) → List (Rat × Nat)
  | [] => [r]
  | x :: xs => if resLt r x then r :: x :: xs else if resLt x r then x :: insertRes r xs else x :: xs

/-- Collector.cpp:521-548. `none`: the assertion fails, the front of an empty line or a line that is not there is used. -/
def daLoop {S : Type} (g : Geo S) : Cache → List Ln → List Ln → Nat × Rat → Option ((Nat × Rat) × Cache)
  | c, [], _, acc => some (acc, c)
  | c, a :: as, bs, acc =>
    match a.head?, bs with
    | some p, b :: bs =>
      let aS := g.simplify p a
      let bS := g.simplify p b
      let r := memo c g.fd aS bS
      daLoop g r.2 as bs (if r.1 ≥ 100 then (acc.1 + 1, acc.2 + g.len aS) else acc)
    | _, _ => none

/-- Collector.cpp:514-516: with the assertion (`asserts`) or without. -/
def getDa {S : Type} (g : Geo S) (asserts : Bool) (c : Cache) (a b : List Ln) : Option ((Nat × Rat) × Cache) :=
  if asserts && a.length != b.length then none else daLoop g c a b (0, 0)

/-- Collector.cpp:75 and 81: the average distance of anchor points is too large. (0/0 is not larger than 1000.) -/
def sparse {S : Type} (g : Geo S) (l : Ln) : Bool := decide (1000 < g.len l / (l.length : Rat))

/-- Collector.cpp:39-55: some stop has no measure. -/
def noDist {S : Type} (t : Trip S) : Bool := t.sts.any fun st => decide (st.2 < 0)

/-- Collector.cpp:177-178. -/
def total {S : Type} (g : Geo S) (segs : List Ln) : Rat := segs.foldl (fun x l => x + g.len l) 0

/-- Collector.cpp:33-37, 182-185: not compared. -/
def Coll.skip (c : Coll) : Coll := { c with noOrig := c.noOrig + 1 }

/-- Collector.cpp:93-96. What is called `oldLenDists` there has been filled from the new trip (90-91). -/
def Coll.lens (c : Coll) (l : List (Rat × Rat)) : Coll :=
  { c with distDiffs := c.distDiffs ++ l.map (fun p => (p.1 - p.2).abs), hopDists := c.hopDists ++ l.map (·.1) }

/-- Collector.cpp:187-205 and 214-217. -/
def Coll.record (c : Coll) (trip n segs : Nat) (acc len tot : Rat) : Coll :=
  let an := (n : Rat) / (segs : Rat)
  { c with
    accFdSum := c.accFdSum + acc / tot
    unmatched := c.unmatched + n
    unmatchedLen := c.unmatchedLen + len
    results := insertRes (acc / tot, trip) c.results
    an0 := if an ≤ 1 / 10000 then c.an0 + 1 else c.an0
    an5 := if an ≤ 5 / 100 then c.an5 + 1 else c.an5
    an10 := if an ≤ 1 / 10 then c.an10 + 1 else c.an10
    an20 := if an ≤ 2 / 10 then c.an20 + 1 else c.an20
    an30 := if an ≤ 3 / 10 then c.an30 + 1 else c.an30
    an50 := if an ≤ 5 / 10 then c.an50 + 1 else c.an50
    an70 := if an ≤ 7 / 10 then c.an70 + 1 else c.an70
    an90 := if an ≤ 9 / 10 then c.an90 + 1 else c.an90
    rows := c.rows ++ [⟨trip, an, len / tot, acc / tot⟩] }

/-- Collector.cpp:98-205: comparison of the cut shapes. -/
def compareSegs {S : Type} (g : Geo S) (asserts : Bool) (c : Coll) (trip : Nat) (oldSegs newSegs : List Ln) : Option Coll :=
  match oldSegs.flatten.head? with
  | none => none
  | some p =>
    let r := memo c.accC g.accFd (g.simplify p oldSegs.flatten) (g.simplify p newSegs.flatten)
    match getDa g asserts c.daC oldSegs newSegs with
    | none => none
    | some (d, daC) =>
      let c := { c with accC := r.2, daC := daC }
      let tot := total g oldSegs
      if tot < 5 then some c.skip
      else some (c.record trip d.1 oldSegs.length r.1 d.2 tot)

/-- `Collector::add`, Collector.cpp:28-252, for a new trip with a shape. -/
def add {S : Type} (g : Geo S) (asserts : Bool) (c : Coll) (old new : Trip S) (newS : Shp) : Option Coll :=
  let c := { c with trips := c.trips + 1 }
  match old.shape with
  | none => some c.skip
  | some oldS =>
    if noDist old then some c.skip
    else if noDist new then some c.skip
    else if sparse g (oldS.map (·.1)) then some c.skip
    else if sparse g (newS.map (·.1)) then some c.skip
    else
      match segmentize g old.sts (oldS.map (·.1)) (oldS.map (·.2)), segmentize g new.sts (newS.map (·.1)) (newS.map (·.2)) with
      | some (oldSegs, _), some (newSegs, lens) => compareSegs g asserts (c.lens lens) old.id oldSegs newSegs
      | _, _ => none

/-- A comparison: the trip of the ground truth, the trip of the feed and its shape. -/
abbrev Cmp (S : Type) := Trip S × Trip S × Shp

/-- A sequence of comparisons. -/
def run {S : Type} (g : Geo S) (asserts : Bool) (c : Coll) : List (Cmp S) → Option Coll
  | [] => some c
  | (o, n, s) :: rest =>
    match add g asserts c o n s with
    | none => none
    | some c => run g asserts c rest

/-- Collector.cpp:336: `none` is 0/0. -/
def Coll.avgDist (c : Coll) : Option Rat := if c.results.length = 0 then none else some (c.accFdSum / (c.results.length : Rat))

/-- Collector.cpp:488-492. -/
def Coll.maxDist (c : Coll) : Rat :=
  match c.results.getLast? with
  | some r => r.1
  | none => -1

/-- Collector.cpp:493-508, e.g. `an-0`; `none` is 0/0. -/
def Coll.percent (c : Coll) (n : Nat) : Option Rat :=
  if c.results.length = 0 then none else some ((n : Rat) / (c.results.length : Rat) * 100)

/-- Collector.cpp:464-473; `std::nth_element` puts the element there that sorting would put there. -/
def Coll.median (c : Coll) : Rat :=
  match (c.distDiffs.mergeSort fun a b => decide (a ≤ b))[c.distDiffs.length / 2]? with
  | some m => m
  | none => -1

/-- Collector.cpp:475-482. -/
def Coll.avgHop (c : Coll) : Rat :=
  if c.hopDists.length = 0 then -1 else c.hopDists.foldl (· + ·) 0 / (c.hopDists.length : Rat)

end Verif.Eval
