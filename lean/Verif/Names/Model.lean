/-!
# Name similarity, station infos, routing attributes (model)

Model of `src/pfaedle/router/Comp.h`, `trgraph/StatInfo.cpp`,
`router/RoutingAttrs.h` and the edit distance classifiers of
`statsimi-classifier/StatsimiClassifier.cpp`.

A `std::string` is a list of bytes. `util::editDist`, `util::prefixEditDist` (util
submodule, absent) are parameters. Quotients of two sizes compared with a constant are
computed exactly; the code uses doubles, which decide the same for strings shorter than
2^40 bytes.
-/

namespace Verif.Names

abbrev Str := List Nat

def sp : Nat := 32

/-- Comp.h:24-34 / 64-74 (for `a` longer than `b`): `a` begins with `b + " "` or ends
with `" " + b`. -/
def wordIn (a b : Str) : Bool :=
  if a.length > b.length + 1 then
    if a.take (b.length + 1) == b ++ [sp] then true
    else (a.drop (a.length - (b.length + 1))).take (b.length + 1) == sp :: b
  else false

/-- Comp.h:58-88. -/
def lineSimi (a b : Str) : Bool :=
  if a == b then true
  else if a.isEmpty || b.isEmpty then false
  else if wordIn a b then true
  else if wordIn b a then true
  else false

/-- Comp.h:18-55; the last test is `editDist(a, b) / max(|a|, |b|) < 0.05`. -/
def statSimi (editDist : Str → Str → Nat) (a b : Str) : Bool :=
  if a == b then true
  else if a.isEmpty || b.isEmpty then false
  else if wordIn a b then true
  else if wordIn b a then true
  else decide (20 * editDist a b < max a.length b.length)

/-- StatsimiClassifier.cpp:82-87 (EDClassifier): `1 - ed / max > 0.85`; 0/0 is not a
number, every comparison with it is false. -/
def edSimilar (editDist : Str → Str → Nat) (a b : Str) : Bool :=
  if max a.length b.length = 0 then false
  else decide (20 * editDist a b < 3 * max a.length b.length)

/-- `StatInfo` (StatInfo.h:17-58), as far as read by `simi`. -/
structure StatInfo where
  name : Str
  alts : List Str

/-- StatInfo.cpp:38-40, 43-45: a loop over `other->getAltNames()`. -/
def anySimi (simi : Str → Str → Bool) (a : Str) : List Str → Bool
  | [] => false
  | b :: bs => if simi a b then true else anySimi simi a bs

/-- StatInfo.cpp:36-41: the loop over the own alternative names. -/
def altLoop (simi : Str → Str → Bool) (o : StatInfo) : List Str → Bool
  | [] => false
  | a :: as =>
    if simi a o.name then true
    else if anySimi simi a o.alts then true
    else altLoop simi o as

/-- StatInfo.cpp:32-48; `none` is the null pointer, the result is 0 or 1. -/
def StatInfo.simi (simi : Str → Str → Bool) (s : StatInfo) : Option StatInfo → Bool
  | none => false
  | some o =>
    if simi s.name o.name then true
    else if altLoop simi o s.alts then true
    else if anySimi simi s.name o.alts then true
    else false

/-! ### routing attributes -/

/-- `TransitEdgeLine` (EdgePL.h:25-30) without its colour. -/
structure TLine where
  fromStr : Str
  toStr : Str
  shortName : Str
deriving DecidableEq

/-- RoutingAttrs.h:19-23. -/
structure LineSim where
  name : Bool
  fr : Bool
  to : Bool
deriving DecidableEq

/-- RoutingAttrs.h:30-46. The cache maps line pointers to results; the line behind a
pointer is given by `lines` below. `classifier` is a parameter of `simi`. -/
structure RAttrs where
  lineFrom : Str
  lineTo : List Str
  shortName : Str
  cache : List (Nat × LineSim)

/-- RoutingAttrs.h:64-69: loop over the destinations. -/
def toLoop (similar : Str → Str → Bool) (toStr : Str) : List Str → Bool
  | [] => false
  | l :: ls => if l.isEmpty || similar toStr l then true else toLoop similar toStr ls

/-- RoutingAttrs.h:48-78. `lines p` is the line object behind pointer `p`. -/
def RAttrs.simi (similar : Str → Str → Bool) (lines : Nat → TLine) (r : RAttrs) (p : Nat) :
    LineSim × RAttrs :=
  let line := lines p
  if line.shortName.isEmpty && line.toStr.isEmpty && line.fromStr.isEmpty then (⟨true, true, true⟩, r)
  else
    match r.cache.lookup p with
    | some s => (s, r)
    | none =>
      let nm := r.shortName.isEmpty || lineSimi line.shortName r.shortName
      let to := if r.lineTo.length = 0 then true else toLoop similar line.toStr r.lineTo
      let fr := r.lineFrom.isEmpty || similar line.fromStr r.lineFrom
      (⟨nm, fr, to⟩, { r with cache := (p, ⟨nm, fr, to⟩) :: r.cache })

/-- RoutingAttrs.h:85-87: `lower_bound` and `insert` unless present. The vector is
sorted, so the position is the first element that is not smaller. -/
def insertTo (l : Str) : List Str → List Str
  | [] => [l]
  | x :: xs => if x < l then x :: insertTo l xs else if x = l then x :: xs else l :: x :: xs

/-- RoutingAttrs.h:80-89 (the assertions are the precondition; the cache is kept). -/
def RAttrs.merge (r o : RAttrs) : RAttrs :=
  { r with lineTo := o.lineTo.foldl (fun acc l => insertTo l acc) r.lineTo }

/-- RoutingAttrs.h:100-103. -/
def RAttrs.lt (a b : RAttrs) : Bool :=
  decide (a.lineFrom < b.lineFrom) || (a.lineFrom == b.lineFrom && decide (a.shortName < b.shortName))

/-- RoutingAttrs.h:92-94. -/
def RAttrs.eq (a b : RAttrs) : Bool := a.shortName == b.shortName && a.lineFrom == b.lineFrom

end Verif.Names
