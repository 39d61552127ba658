import Verif.Out.Model
/-!
# Writing the output feed (specification)
-/

namespace Verif.Out
open Verif (FMap)
variable {R : Type}

/-- The input has a file `n` with these rows. -/
def HasInput (c : Cfg) (fs : FS R) (n : Name) (rows : List R) : Prop :=
  match c.src with
  | .dir p => fs.get (p n) = some (.file rows)
  | .zip p => ∃ files, fs.get p = some (.zip files) ∧ files.lookup n = some rows

/-- The rows of the input file `n`; without the file, there are none. -/
def Input (c : Cfg) (fs : FS R) (n : Name) (rows : List R) : Prop :=
  HasInput c fs n rows ∨ (rows = [] ∧ ¬ ∃ rows, HasInput c fs n rows)

/-- Has the file to be written? -/
def Enabled (c : Cfg) (fs : FS R) (j : Job R) : Prop :=
  j.cond = true ∧ (j.needsInput = true → ∃ rows, HasInput c fs j.name rows)

/-- `parts` are the rows written for each of the rows of the input. -/
def Parts (j : Job R) (rows : List R) (parts : List (List R)) : Prop :=
  parts.length = rows.length ∧
    ∀ (i : Nat) r out, rows[i]? = some r → parts[i]? = some out → j.copy (rows.take i) r = some out

/-- `new` is **the complete new version** of a file, with the input in `fs`. -/
def Complete (c : Cfg) (fs : FS R) (j : Job R) (new : List R) : Prop :=
  if j.copies then ∃ rows parts, Input c fs j.name rows ∧ Parts j rows parts ∧ new = j.header ++ parts.flatten ++ j.mem
  else new = j.header ++ j.mem

/-- `files` are the complete new versions of all files that have to be written, in order. -/
inductive Written (c : Cfg) (fs : FS R) : List (Job R) → List (Name × List R) → Prop
  | nil : Written c fs [] []
  | skip {j js files} : ¬ Enabled c fs j → Written c fs js files → Written c fs (j :: js) files
  | put {j js files new} : Enabled c fs j → Complete c fs j new → Written c fs js files →
      Written c fs (j :: js) ((j.name, new) :: files)

/-- The path an input file is read from. -/
def srcPath (c : Cfg) (n : Name) : Nat :=
  match c.src with
  | .dir p => p n
  | .zip p => p

/-- A temporary path. -/
def IsTmp (c : Cfg) (q : Nat) : Prop := (∃ n, q = c.tmp n) ∨ ∃ p, c.tgt = .zip p q

/-- **Assumptions on the paths.** Temporary names are different from all others. The files of a directory have different paths. If an output
file is an input file, then it is the one with the same name: the directories are the same or are different. -/
structure Paths (c : Cfg) : Prop where
  src : ∀ n, ¬ IsTmp c (srcPath c n)
  dir : ∀ p, c.tgt = .dir p → (∀ n, ¬ IsTmp c (p n)) ∧ (∀ n m, p n = p m → n = m) ∧ ∀ n m, srcPath c n = p m → n = m
  zip : ∀ p t, c.tgt = .zip p t → ¬ IsTmp c p ∧ ∀ n, c.tmp n ≠ t

end Verif.Out
