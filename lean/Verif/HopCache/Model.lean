/-!
# Hop cache (model)

Models `src/pfaedle/router/HopCache.h`, `src/pfaedle/router/HopCache.cpp` and
the two cost helpers of `src/pfaedle/router/Router.tpp` that use it.
Edges are abstract identities (`Nat`), `uint32_t` is `UInt32`.
-/

namespace Verif.HopCache

/-- Edge identity (`const trgraph::Edge*`). -/
abbrev EdgeId := Nat

/-- The backing store, HopCache.h:33 `util::SparseMatrix<const Edge*, int64_t, 0>`.
`SparseMatrix` is not part of the checkout: it is modelled as a total map with
default `0`. -/
structure Cache where
  cells : EdgeId → EdgeId → Int

/-- A freshly constructed cache (HopCache.h:33, default value 0). -/
def empty : Cache := ⟨fun _ _ => 0⟩

/-- `SparseMatrix::set` (absent submodule): overwrite one cell. -/
def Cache.set (c : Cache) (a b : EdgeId) (v : Int) : Cache :=
  ⟨fun x y => if x = a ∧ y = b then v else c.cells x y⟩

/-- HopCache.cpp:15-17 `setMin(a, b, val)`. -/
def setMin (c : Cache) (a b : EdgeId) (val : UInt32) : Cache :=
  c.set a b ((val.toNat : Int))

/-- HopCache.cpp:20-23 `setEx(a, b, val)`: `int64_t v = val; set(-(v + 1))`. -/
def setEx (c : Cache) (a b : EdgeId) (val : UInt32) : Cache :=
  c.set a b (-((val.toNat : Int) + 1))

/-- HopCache.cpp:26-28 `setMin(a, {b...}, val)`. -/
def setMinTos (c : Cache) (a : EdgeId) (bs : List EdgeId) (val : UInt32) : Cache :=
  bs.foldl (fun c b => c.set a b ((val.toNat : Int))) c

/-- HopCache.cpp:31-33 `setMin({a...}, b, val)`. -/
def setMinFroms (c : Cache) (as : List EdgeId) (b : EdgeId) (val : UInt32) : Cache :=
  as.foldl (fun c a => c.set a b ((val.toNat : Int))) c

/-- The implicit narrowing `int64_t -> uint32_t` of HopCache.cpp:38-39. -/
def narrow (v : Int) : UInt32 := UInt32.ofNat (v % 4294967296).toNat

/-- HopCache.cpp:36-40 `get`. -/
def get (c : Cache) (a b : EdgeId) : UInt32 × Bool :=
  let v := c.cells a b
  if v < 0 then (narrow ((-v) - 1), true) else (narrow v, false)

/-- Router.tpp:610-618 `cacheDrop`. -/
def cacheDrop (c : Cache) (froms : List EdgeId) (to : EdgeId) (maxCost : UInt32) : Bool :=
  match froms with
  | [] => true
  | fr :: rest => if (get c fr to).1 ≤ maxCost then false else cacheDrop c rest to maxCost

/-- `std::numeric_limits<uint32_t>::max()`. -/
def maxU32 : UInt32 := 4294967295

/-- Router.tpp:622-629 `addNonOverflow`; `+` on `UInt32` wraps as in C++. -/
def addNonOverflow (a b : UInt32) : UInt32 :=
  if a = maxU32 ∨ b = maxU32 then maxU32
  else
    let res := a + b
    if a ≤ res ∧ b ≤ res then res else maxU32

end Verif.HopCache
