import Verif.Base.FMap

/-!
# Name normaliser (model)

Model of `src/pfaedle/trgraph/Normalizer.cpp`/`.h`. Strings, patterns and compiled regular
expressions are values of arbitrary types; `std::regex_replace`, the compilation of a
pattern and `tolower` are parameters (`Env`).
-/

namespace Verif.Normalizer

structure Env (S P X : Type) where
  /-- `std::regex(pattern, …)`; `none` is a `regex_error`. -/
  compile : P → Option X
  /-- `std::regex_replace(string, regex, replacement)`. -/
  replace : X → S → S → S
  lower : S → S

variable {S P X : Type} [DecidableEq S]

/-- Normalizer.h:52-54. -/
structure Normalizer (S P X : Type) where
  rules : List (X × S)
  rulesOrig : List (P × S)
  cache : FMap S S

/-- Normalizer.h:31. -/
def Normalizer.empty : Normalizer S P X := ⟨[], [], []⟩

/-- Normalizer.cpp:66-80; `none` is the exception. -/
def buildRules (env : Env S P X) : List (P × S) → Option (List (X × S))
  | [] => some []
  | (p, s) :: rs =>
    match env.compile p with
    | none => none
    | some x =>
      match buildRules env rs with
      | none => none
      | some cs => some ((x, s) :: cs)

/-- Normalizer.cpp:19-22. -/
def Normalizer.mk? (env : Env S P X) (rs : List (P × S)) : Option (Normalizer S P X) :=
  match buildRules env rs with
  | none => none
  | some cs => some ⟨cs, rs, []⟩

/-- Normalizer.cpp:40-58: result and changed cache. -/
def Normalizer.norm (env : Env S P X) (n : Normalizer S P X) (s : S) : S × Normalizer S P X :=
  match n.cache.get s with
  | some r => (r, n)
  | none =>
    let ret := env.lower (n.rules.foldl (fun acc rule => env.replace rule.1 rule.2 acc) s)
    (ret, { n with cache := n.cache.put s ret })

/-- Normalizer.cpp:61-63. -/
def Normalizer.eq [DecidableEq P] (a b : Normalizer S P X) : Bool := decide (a.rulesOrig = b.rulesOrig)

/-- A program state: normalisers by name. -/
abbrev St (S P X : Type) := Nat → Option (Normalizer S P X)

inductive Op (S P : Type) where
  /-- Normalizer.h:31 -/
  | default (i : Nat)
  /-- Normalizer.cpp:19 -/
  | create (i : Nat) (rs : List (P × S))
  /-- copy constructor, Normalizer.cpp:25-28 -/
  | copy (i j : Nat)
  /-- `i = j`: copy of `j` swapped into `i`, Normalizer.cpp:31-37 -/
  | assign (i j : Nat)
  | norm (i : Nat) (s : S)

def St.set (st : St S P X) (i : Nat) (n : Normalizer S P X) : St S P X :=
  fun k => if k = i then some n else st k

/-- One operation: the new state and the string returned, if it is a normalisation. A
failing construction leaves no object behind; operations on missing objects do nothing. -/
def exec (env : Env S P X) (st : St S P X) : Op S P → St S P X × Option S
  | .default i => (st.set i Normalizer.empty, none)
  | .create i rs =>
    match Normalizer.mk? env rs with
    | none => (st, none)
    | some n => (st.set i n, none)
  | .copy i j =>
    match st j with
    | none => (st, none)
    | some n => (st.set i ⟨n.rules, n.rulesOrig, n.cache⟩, none)
  | .assign i j =>
    match st i, st j with
    | some _, some n => (st.set i ⟨n.rules, n.rulesOrig, n.cache⟩, none)
    | _, _ => (st, none)
  | .norm i s =>
    match st i with
    | none => (st, none)
    | some n =>
      let r := n.norm env s
      (st.set i r.2, some r.1)

def run (env : Env S P X) (ops : List (Op S P)) : St S P X :=
  ops.foldl (fun st op => (exec env st op).1) (fun _ => none)

end Verif.Normalizer
