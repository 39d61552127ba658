import Verif.HopCache.Model

/-!
# Hop cache (properties)

C01 (last write wins), C17 (saturating addition), C51 (cached skipping).
-/

namespace Verif.HopCache

/-! ## Specification of C01 -/

/-- One public write operation on the cache. -/
inductive Op where
  | min (a b : EdgeId) (v : UInt32)
  | ex (a b : EdgeId) (v : UInt32)
  | minTos (a : EdgeId) (bs : List EdgeId) (v : UInt32)
  | minFroms (as : List EdgeId) (b : EdgeId) (v : UInt32)

/-- Run one operation on the model. -/
def Op.run (c : Cache) : Op → Cache
  | .min a b v => setMin c a b v
  | .ex a b v => setEx c a b v
  | .minTos a bs v => setMinTos c a bs v
  | .minFroms as b v => setMinFroms c as b v

/-- What an operation, by its documentation, records for the pair `(x, y)`:
`none` if the pair is not concerned. -/
def Op.writes (x y : EdgeId) : Op → Option (UInt32 × Bool)
  | .min a b v => if x = a ∧ y = b then some (v, false) else none
  | .ex a b v => if x = a ∧ y = b then some (v, true) else none
  | .minTos a bs v => if x = a ∧ y ∈ bs then some (v, false) else none
  | .minFroms as b v => if x ∈ as ∧ y = b then some (v, false) else none

/-- The last record for `(x, y)` in a history (oldest operation first). -/
def lastWrite (x y : EdgeId) (h : List Op) : Option (UInt32 × Bool) :=
  (h.reverse.filterMap (Op.writes x y)).head?

/-! ## Helpers -/

theorem narrow_ofNat (v : UInt32) : narrow ((v.toNat : Int)) = v := by
  have h := v.toNat_lt
  have e : ((v.toNat : Int) % 4294967296).toNat = v.toNat := by omega
  unfold narrow
  rw [e]
  exact UInt32.ofNat_toNat

theorem narrow_ex (v : UInt32) : narrow (-(-((v.toNat : Int) + 1)) - 1) = v := by
  rw [show -(-((v.toNat : Int) + 1)) - 1 = (v.toNat : Int) by omega]
  exact narrow_ofNat v

theorem cells_setMinTos (c : Cache) (a : EdgeId) (bs : List EdgeId) (v : UInt32) (x y : EdgeId) :
    (setMinTos c a bs v).cells x y
      = if x = a ∧ y ∈ bs then (v.toNat : Int) else c.cells x y := by
  induction bs generalizing c with
  | nil => simp [setMinTos]
  | cons b bs ih =>
    have := ih (c.set a b ((v.toNat : Int)))
    simp only [setMinTos, List.foldl_cons] at this ⊢
    rw [this]
    by_cases hx : x = a <;> by_cases hy : y = b <;> by_cases hm : y ∈ bs <;>
      simp [Cache.set, hx, hy, hm]

theorem cells_setMinFroms (c : Cache) (as : List EdgeId) (b : EdgeId) (v : UInt32) (x y : EdgeId) :
    (setMinFroms c as b v).cells x y
      = if x ∈ as ∧ y = b then (v.toNat : Int) else c.cells x y := by
  induction as generalizing c with
  | nil => simp [setMinFroms]
  | cons a as ih =>
    have := ih (c.set a b ((v.toNat : Int)))
    simp only [setMinFroms, List.foldl_cons] at this ⊢
    rw [this]
    by_cases hx : x = a <;> by_cases hy : y = b <;> by_cases hm : x ∈ as <;>
      simp [Cache.set, hx, hy, hm]

theorem get_run (c : Cache) (op : Op) (x y : EdgeId) :
    get (op.run c) x y = (op.writes x y).getD (get c x y) := by
  have hlt : ∀ v : UInt32, ¬ ((v.toNat : Int) < 0) := fun v => by omega
  have hlt2 : ∀ v : UInt32, (-((v.toNat : Int) + 1) < 0) := fun v => by omega
  cases op with
  | min a b v =>
    by_cases h : x = a ∧ y = b
    · simp only [Op.run, Op.writes, get, setMin, Cache.set, h, and_self, if_true, Option.getD_some,
        hlt, if_false, narrow_ofNat]
    · simp only [Op.run, Op.writes, get, setMin, Cache.set, h, if_false, Option.getD_none]
  | ex a b v =>
    by_cases h : x = a ∧ y = b
    · simp only [Op.run, Op.writes, get, setEx, Cache.set, h, and_self, if_true, Option.getD_some,
        hlt2, narrow_ex]
    · simp only [Op.run, Op.writes, get, setEx, Cache.set, h, if_false, Option.getD_none]
  | minTos a bs v =>
    by_cases h : x = a ∧ y ∈ bs
    · simp only [Op.run, Op.writes, get, cells_setMinTos, h, and_self, if_true, Option.getD_some,
        hlt, if_false, narrow_ofNat]
    · simp only [Op.run, Op.writes, get, cells_setMinTos, h, if_false, Option.getD_none]
  | minFroms as b v =>
    by_cases h : x ∈ as ∧ y = b
    · simp only [Op.run, Op.writes, get, cells_setMinFroms, h, and_self, if_true, Option.getD_some,
        hlt, if_false, narrow_ofNat]
    · simp only [Op.run, Op.writes, get, cells_setMinFroms, h, if_false, Option.getD_none]

/-! ## C01 -/

/-- **C01.** After any history of writes, a lookup returns the last record that
concerned the pair, and `(0, not exact)` if there was none. -/
theorem C01_hopcache_last_write (h : List Op) (x y : EdgeId) :
    get (h.foldl Op.run empty) x y = (lastWrite x y h).getD (0, false) := by
  suffices H : ∀ (l : List Op), get (l.reverse.foldl Op.run empty) x y
      = ((l.filterMap (Op.writes x y)).head?).getD (0, false) by
    have := H h.reverse
    simpa [lastWrite] using this
  intro l
  induction l with
  | nil => rfl
  | cons op l ih =>
    rw [List.reverse_cons, List.foldl_append]
    simp only [List.foldl_cons, List.foldl_nil]
    rw [get_run, ih]
    cases hw : op.writes x y <;> simp [hw]

/-- A non-trivial history: an exact value is overwritten by a bulk bound and
the extreme cost `2^32-1` survives the encoding. -/
example : get ([Op.ex 1 2 7, .ex 1 3 4294967295, .minTos 1 [2, 4] 9, .min 5 5 0].foldl
    Op.run empty) 1 2 = (9, false) ∧
  get ([Op.ex 1 2 7, .ex 1 3 4294967295, .minTos 1 [2, 4] 9].foldl Op.run empty) 1 3
    = (4294967295, true) := by
  constructor <;> decide

/-! ## C17 -/

/-- **C17.** `addNonOverflow` is the mathematical sum clipped to `2^32-1`. -/
theorem C17_addNonOverflow_spec (a b : UInt32) :
    (addNonOverflow a b).toNat = min (a.toNat + b.toNat) 4294967295 := by
  have ha := a.toNat_lt
  have hb := b.toNat_lt
  have hm : maxU32.toNat = 4294967295 := rfl
  unfold addNonOverflow
  split
  · rename_i h
    rcases h with h | h <;> subst h <;> rw [hm] <;> omega
  · rename_i h
    simp only [not_or] at h
    have h1 : a.toNat ≠ 4294967295 := fun e => h.1 (UInt32.toNat_inj.mp (e.trans hm.symm))
    have h2 : b.toNat ≠ 4294967295 := fun e => h.2 (UInt32.toNat_inj.mp (e.trans hm.symm))
    simp only [UInt32.le_iff_toNat_le, UInt32.toNat_add]
    split
    · simp only [UInt32.toNat_add]; omega
    · rw [hm]; omega

/-- **C17.** Commutativity. -/
theorem C17_addNonOverflow_comm (a b : UInt32) : addNonOverflow a b = addNonOverflow b a := by
  apply UInt32.toNat_inj.mp; simp only [C17_addNonOverflow_spec]; omega

/-- **C17.** Associativity. -/
theorem C17_addNonOverflow_assoc (a b c : UInt32) :
    addNonOverflow (addNonOverflow a b) c = addNonOverflow a (addNonOverflow b c) := by
  apply UInt32.toNat_inj.mp; simp only [C17_addNonOverflow_spec]; omega

/-- **C17.** Monotonicity in both arguments. -/
theorem C17_addNonOverflow_mono {a a' b b' : UInt32} (ha : a ≤ a') (hb : b ≤ b') :
    addNonOverflow a b ≤ addNonOverflow a' b' := by
  rw [UInt32.le_iff_toNat_le] at *
  simp only [C17_addNonOverflow_spec]; omega

example : addNonOverflow 4294967290 5 = 4294967295 ∧ addNonOverflow 4294967290 6 = 4294967295 ∧
    addNonOverflow 2 3 = 5 := by decide

/-! ## C51 -/

/-- **C51 (decision).** After any history, a target is skipped iff for *every*
start edge the last record exceeds the maximum cost. -/
theorem C51_cacheDrop_iff (h : List Op) (froms : List EdgeId) (to : EdgeId) (maxCost : UInt32) :
    cacheDrop (h.foldl Op.run empty) froms to maxCost = true ↔
      ∀ fr ∈ froms, ∃ v ex, lastWrite fr to h = some (v, ex) ∧ maxCost < v := by
  induction froms with
  | nil => simp [cacheDrop]
  | cons fr rest ih =>
    have hg := C01_hopcache_last_write h fr to
    unfold cacheDrop
    rw [hg]
    cases hw : lastWrite fr to h with
    | none =>
      simp only [Option.getD_none, UInt32.zero_le, if_true]
      simp [hw]
    | some p =>
      obtain ⟨v, ex⟩ := p
      simp only [Option.getD_some]
      by_cases hle : v ≤ maxCost
      · rw [if_pos hle]
        simp only [Bool.false_eq_true, false_iff]
        intro H
        obtain ⟨v', ex', e, hlt⟩ := H fr (List.mem_cons_self)
        rw [hw] at e
        cases e
        exact absurd hle (UInt32.not_le.mpr hlt)
      · rw [if_neg hle, ih]
        constructor
        · intro H f hf
          rcases List.mem_cons.mp hf with rfl | hf
          · exact ⟨v, ex, hw, UInt32.not_le.mp hle⟩
          · exact H f hf
        · intro H f hf
          exact H f (List.mem_cons_of_mem _ hf)

/-- The records are truthful for true edge-to-edge costs `d` if exact records
equal `d` and bounds are at most `d`. -/
def Truthful (d : EdgeId → EdgeId → Nat) (h : List Op) : Prop :=
  ∀ x y v ex, lastWrite x y h = some (v, ex) → v.toNat ≤ d x y

/-- **C51 (partial).** With truthful records, a skipped target costs more than
the maximum from every start edge, *edge to edge*. What the full claim needs in
addition is that the progress on the start edge is accounted for, which fails:
see `C51_negation`. -/
theorem C51_cacheDrop_sound_partial (d : EdgeId → EdgeId → Nat) (h : List Op)
    (ht : Truthful d h) (froms : List EdgeId) (to : EdgeId) (maxCost : UInt32)
    (hd : cacheDrop (h.foldl Op.run empty) froms to maxCost = true) :
    ∀ fr ∈ froms, maxCost.toNat < d fr to := by
  intro fr hfr
  obtain ⟨v, ex, hw, hlt⟩ := (C51_cacheDrop_iff h froms to maxCost).mp hd fr hfr
  exact Nat.lt_of_lt_of_le (UInt32.lt_iff_toNat_lt.mp hlt) (ht fr to v ex hw)

/-- The cost of a hop whose start lies `progr` cost units into the start edge
(Router.tpp:407-412, 560-564: `c -= progrCFr`). -/
def hopCost (d : EdgeId → EdgeId → Nat) (fr to : EdgeId) (progr : Nat) : Nat := d fr to - progr

/-- **C51 (negation).** There are truthful records, and a candidate that lies
well into its start edge, such that the hop is affordable (cost 70 ≤ 90, and it
passes the final filter `< maxCost`) but the target is skipped: line 461 of
Router.tpp compares with the maximum cost *before* line 514 adds the start
offset. -/
theorem C51_negation : ∃ (d : EdgeId → EdgeId → Nat) (h : List Op) (fr to : EdgeId)
    (maxCost : UInt32) (progr : Nat), Truthful d h ∧
    cacheDrop (h.foldl Op.run empty) [fr] to maxCost = true ∧
    hopCost d fr to progr < maxCost.toNat := by
  refine ⟨fun _ _ => 120, [.min 1 2 100], 1, 2, 90, 50, ?_, by decide, by decide⟩
  intro x y v ex hw
  simp only [lastWrite, List.reverse_cons, List.reverse_nil, List.nil_append,
    List.filterMap_cons, List.filterMap_nil, Op.writes] at hw
  split at hw
  · simp at hw
  · rename_i hh
    split at hh
    · cases hh; simp at hw; rw [← hw.1]; show (100 : UInt32).toNat ≤ 120; decide
    · simp at hh

example : cacheDrop ([Op.min 1 9 100, .ex 2 9 200].foldl Op.run empty) [1, 2] 9 99 = true ∧
    cacheDrop ([Op.min 1 9 100, .ex 2 9 200].foldl Op.run empty) [1, 2] 9 100 = false := by
  constructor <;> decide

end Verif.HopCache
