import Verif.Payload.Node

/-!
# Node payloads (property C23)
-/

namespace Verif.Payload
variable {N S : Type} [DecidableEq N]

/-! ### specification: every node has its own marker, a plain value -/

inductive Kind (S : Type) where
  | plain
  | station (s : S)
  | blocker
  | turnCycle

def Kind.change (f : S → S) : Kind S → Kind S
  | .station s => .station (f s)
  | k => k

/-- Effect of an operation on the marker of node `m`. -/
def vstep (k : N → Kind S) (op : NOp N S) (m : N) : Kind S :=
  match op with
  | .setSI n s => if m = n then .station s else k m
  | .noStat n => if m = n then .plain else k m
  | .blocker n => if m = n then .blocker else k m
  | .turnCycle n => if m = n then .turnCycle else k m
  | .copy a b => if m = b then k a else k m
  | .modify n f => if m = n then (k m).change f else k m

def vrun (h : List (NOp N S)) : N → Kind S := h.foldl vstep fun _ => .plain

/-- What can be seen of a node: blocker?, turn cycle?, station info. -/
def Kind.view : Kind S → Bool × Bool × Option (Option S)
  | .plain => (false, false, some none)
  | .station s => (false, false, some (some s))
  | .blocker => (true, false, some none)
  | .turnCycle => (false, true, some none)

def NState.view (st : NState N S) (n : N) : Bool × Bool × Option (Option S) :=
  (st.isBlocker n, st.isTurnCycle n, st.getSI n)

def NOp.isSet : NOp N S → Bool
  | .setSI _ _ => true
  | _ => false

def NOp.isCopy : NOp N S → Bool
  | .copy _ _ => true
  | _ => false

def NOp.isModify : NOp N S → Bool
  | .modify _ _ => true
  | _ => false

/-! ### proofs -/

/-- The marker value `v` stands for kind `k`. -/
def Stands (infos : List S) (v : Nat) : Kind S → Prop
  | .plain => v = 0
  | .station s => 0 < v ∧ v < u32max - 1 ∧ infos[v - 1]? = some s
  | .blocker => v = u32max
  | .turnCycle => v = u32max - 1

omit [DecidableEq N] in
theorem Stands.view {st : NState N S} {n : N} {k : Kind S} (h : Stands st.infos (st.si n) k) :
    st.view n = k.view := by
  cases k with
  | plain => simp only [Stands] at h; simp [NState.view, Kind.view, NState.isBlocker, NState.isTurnCycle, NState.getSI, h, u32max]
  | blocker => simp only [Stands] at h; simp [NState.view, Kind.view, NState.isBlocker, NState.isTurnCycle, NState.getSI, h, u32max]
  | turnCycle => simp only [Stands] at h; simp [NState.view, Kind.view, NState.isBlocker, NState.isTurnCycle, NState.getSI, h, u32max]
  | station s =>
    obtain ⟨h0, h1, h2⟩ := h
    have e1 : st.si n ≠ u32max := by unfold u32max at *; omega
    have e2 : st.si n ≠ u32max - 1 := by omega
    have e3 : st.si n ≠ 0 := by omega
    simp [NState.view, Kind.view, NState.isBlocker, NState.isTurnCycle, NState.getSI, e1, e2, e3, h2]

theorem Stands.append {infos : List S} {v : Nat} {k : Kind S} (h : Stands infos v k) (s : S) :
    Stands (infos ++ [s]) v k := by
  cases k with
  | station x =>
    obtain ⟨h0, h1, h2⟩ := h
    refine ⟨h0, h1, ?_⟩
    have := (List.getElem?_eq_some_iff.mp h2).1
    rw [List.getElem?_append_left this]; exact h2
  | _ => exact h

structure NInv (st : NState N S) (k : N → Kind S) (c : Nat) : Prop where
  len : st.infos.length = c
  all : ∀ n, Stands st.infos (st.si n) (k n)

/-- No two nodes share a station info. -/
def Unshared (st : NState N S) (k : N → Kind S) : Prop :=
  ∀ a b s, a ≠ b → k a = .station s → st.si a ≠ st.si b

theorem NInv.step {st : NState N S} {k : N → Kind S} {c : Nat} (I : NInv st k c) (op : NOp N S)
    (hb : op.isSet = true → c + 1 < u32max - 1)
    (hm : op.isModify = true → Unshared st k) :
    NInv (st.exec op) (vstep k op) (if op.isSet then c + 1 else c) := by
  have hlen := I.len
  cases op with
  | setSI n s =>
    have hb := hb rfl
    refine ⟨by simp [NState.exec, NState.write, NOp.isSet, I.len], fun m => ?_⟩
    simp only [NState.exec, NState.write, vstep]
    by_cases e : m = n
    · have hmod : (st.infos.length + 1) % (u32max + 1) = st.infos.length + 1 := by
        apply Nat.mod_eq_of_lt; unfold u32max at *; omega
      simp only [e, if_true, hmod, Stands]
      refine ⟨by omega, by omega, ?_⟩
      simp
    · simp only [e, if_false]
      exact (I.all m).append s
  | noStat n =>
    refine ⟨by simp [NState.exec, NState.write, NOp.isSet, I.len], fun m => ?_⟩
    simp only [NState.exec, NState.write, vstep]
    by_cases e : m = n
    · simp [e, Stands]
    · simpa only [e, if_false] using I.all m
  | blocker n =>
    refine ⟨by simp [NState.exec, NState.write, NOp.isSet, I.len], fun m => ?_⟩
    simp only [NState.exec, NState.write, vstep]
    by_cases e : m = n
    · simp [e, Stands]
    · simpa only [e, if_false] using I.all m
  | turnCycle n =>
    refine ⟨by simp [NState.exec, NState.write, NOp.isSet, I.len], fun m => ?_⟩
    simp only [NState.exec, NState.write, vstep]
    by_cases e : m = n
    · simp [e, Stands]
    · simpa only [e, if_false] using I.all m
  | copy a b =>
    refine ⟨by simp [NState.exec, NState.write, NOp.isSet, I.len], fun m => ?_⟩
    simp only [NState.exec, NState.write, vstep]
    by_cases e : m = b
    · simpa only [e, if_true] using I.all a
    · simpa only [e, if_false] using I.all m
  | modify n f =>
    have hu := hm rfl
    have hv := (I.all n).view
    cases hk : k n with
    | station s =>
      have hn := I.all n
      rw [hk] at hn hv
      obtain ⟨h0, h1, h2⟩ := hn
      have hg : st.getSI n = some (some s) := congrArg (fun p => p.2.2) hv
      refine ⟨by simp [NState.exec, hg, NOp.isSet, I.len], fun m => ?_⟩
      simp only [NState.exec, hg, vstep]
      by_cases e : m = n
      · subst e
        simp only [if_true, hk, Kind.change]
        refine ⟨h0, h1, ?_⟩
        have := (List.getElem?_eq_some_iff.mp h2).1
        simp [this]
      · simp only [e, if_false]
        have hmm := I.all m
        cases hkm : k m with
        | station s' =>
          rw [hkm] at hmm
          obtain ⟨g0, g1, g2⟩ := hmm
          refine ⟨g0, g1, ?_⟩
          have := hu m n s' e hkm
          rw [List.getElem?_set_ne (by omega)]
          exact g2
        | _ => rw [hkm] at hmm; exact hmm
    | _ =>
      rw [hk] at hv
      have hg : st.getSI n = some none := congrArg (fun p => p.2.2) hv
      have e : st.exec (.modify n f) = st := by simp [NState.exec, hg]
      have e' : vstep k (.modify n f) = k := by
        funext m
        simp only [vstep]
        split
        · rename_i h; subst h; simp [hk, Kind.change]
        · rfl
      rw [e, e']; exact I

theorem Unshared.step {st : NState N S} {k : N → Kind S} {c : Nat} (I : NInv st k c)
    (hu : Unshared st k) (op : NOp N S) (hb : op.isSet = true → c + 1 < u32max - 1)
    (hc : op.isCopy = false) : Unshared (st.exec op) (vstep k op) := by
  -- the value of a marked non-station is outside of the range of station values
  have range : ∀ m, 0 < st.si m → st.si m < u32max - 1 → st.si m ≤ c := by
    intro m h0 h1
    have h := I.all m
    cases hk : k m with
    | station s =>
      rw [hk] at h
      have := (List.getElem?_eq_some_iff.mp h.2.2).1
      have := I.len
      omega
    | plain => rw [hk] at h; simp only [Stands] at h; omega
    | blocker => rw [hk] at h; simp only [Stands] at h; omega
    | turnCycle => rw [hk] at h; simp only [Stands] at h; omega
  have stat : ∀ m s, k m = .station s → 0 < st.si m ∧ st.si m < u32max - 1 := by
    intro m s h
    have := I.all m
    rw [h] at this
    exact ⟨this.1, this.2.1⟩
  have hlen := I.len
  intro a b s hab hka
  cases op with
  | setSI n x =>
    have hb := hb rfl
    have hmod : (st.infos.length + 1) % (u32max + 1) = st.infos.length + 1 := by
      apply Nat.mod_eq_of_lt; unfold u32max at *; omega
    simp only [NState.exec, NState.write, hmod]
    simp only [vstep] at hka
    by_cases e : a = n
    · have e' : b ≠ n := fun h => hab (e.trans h.symm)
      simp only [e, if_true, e', if_false]
      have := range b
      omega
    · simp only [e, if_false] at hka ⊢
      have hs := stat a s hka
      have := range a hs.1 hs.2
      split
      · omega
      · exact hu a b s hab hka
  | noStat n =>
    simp only [NState.exec, NState.write]
    simp only [vstep] at hka
    by_cases e : a = n
    · simp [e] at hka
    · simp only [e, if_false] at hka ⊢
      have hs := stat a s hka
      split
      · omega
      · exact hu a b s hab hka
  | blocker n =>
    simp only [NState.exec, NState.write]
    simp only [vstep] at hka
    by_cases e : a = n
    · simp [e] at hka
    · simp only [e, if_false] at hka ⊢
      have hs := stat a s hka
      split
      · omega
      · exact hu a b s hab hka
  | turnCycle n =>
    simp only [NState.exec, NState.write]
    simp only [vstep] at hka
    by_cases e : a = n
    · simp [e] at hka
    · simp only [e, if_false] at hka ⊢
      have hs := stat a s hka
      split
      · omega
      · exact hu a b s hab hka
  | copy x y => simp [NOp.isCopy] at hc
  | modify n f =>
    have hsi : (st.exec (.modify n f)).si = st.si := by
      simp only [NState.exec]; split <;> rfl
    rw [hsi]
    simp only [vstep] at hka
    by_cases e : a = n
    · simp only [e, if_true] at hka
      cases hk : k n with
      | station s' => exact hu a b s' hab (e ▸ hk)
      | plain => rw [hk] at hka; simp [Kind.change] at hka
      | blocker => rw [hk] at hka; simp [Kind.change] at hka
      | turnCycle => rw [hk] at hka; simp [Kind.change] at hka
    · simp only [e, if_false] at hka
      exact hu a b s hab hka

theorem run_inv (h : List (NOp N S)) (st : NState N S) (k : N → Kind S) (c : Nat) (I : NInv st k c)
    (hb : c + h.countP NOp.isSet < u32max - 1)
    (hm : (Unshared st k ∧ ∀ op ∈ h, op.isCopy = false) ∨ ∀ op ∈ h, op.isModify = false) :
    NInv (h.foldl NState.exec st) (h.foldl vstep k) (c + h.countP NOp.isSet) := by
  induction h generalizing st k c with
  | nil => simpa using I
  | cons op h ih =>
    have hb' : op.isSet = true → c + 1 < u32max - 1 := by
      intro e; rw [List.countP_cons, e] at hb; simp at hb; omega
    have hmod : op.isModify = true → Unshared st k := by
      intro e
      rcases hm with ⟨hu, _⟩ | hm
      · exact hu
      · have := hm op (by simp); rw [this] at e; cases e
    have I' := I.step op hb' hmod
    have hcnt : (if op.isSet then c + 1 else c) + h.countP NOp.isSet = c + (op :: h).countP NOp.isSet := by
      rw [List.countP_cons]; split <;> simp_all; omega
    have := ih (st.exec op) (vstep k op) _ I' (by rw [hcnt]; exact hb) (by
      rcases hm with ⟨hu, hc⟩ | hm
      · exact Or.inl ⟨hu.step I op hb' (hc op (by simp)), fun o ho => hc o (by simp [ho])⟩
      · exact Or.inr fun o ho => hm o (by simp [ho]))
    rw [hcnt] at this
    exact this

/-- C23. After every history of fewer than 2^32-2 station settings, in which payloads are
either never copied or never changed through the station pointer, each node is exactly
what the operations on it made it: the program shows the marker of the value
specification. No access to the shared table is out of bounds. -/
theorem C23_markers (h : List (NOp N S)) (hb : h.countP NOp.isSet < u32max - 1)
    (hm : (∀ op ∈ h, op.isCopy = false) ∨ ∀ op ∈ h, op.isModify = false) (n : N) :
    (nrun h).view n = (vrun h n).view := by
  have I0 : NInv (NState.init N S) (fun _ => .plain) 0 := ⟨rfl, fun _ => rfl⟩
  have := run_inv h (NState.init N S) (fun _ => .plain) 0 I0 (by simpa using hb) (by
    rcases hm with hm | hm
    · exact Or.inl ⟨by intro _ _ _ _ e; simp at e, hm⟩
    · exact Or.inr hm)
  exact (this.all n).view

/-- The node an operation is about. -/
def NOp.node : NOp N S → N
  | .setSI n _ | .noStat n | .blocker n | .turnCycle n | .modify n _ => n
  | .copy _ b => b

/-- C23. Without copies, only the operations on the node itself matter. -/
theorem C23_other_nodes (h : List (NOp N S)) (hb : h.countP NOp.isSet < u32max - 1)
    (hm : ∀ op ∈ h, op.isCopy = false) (n : N) :
    (nrun h).view n = (nrun (h.filter fun op => op.node = n)).view n := by
  have hb' : (h.filter fun op => op.node = n).countP NOp.isSet < u32max - 1 :=
    Nat.lt_of_le_of_lt ((List.filter_sublist).countP_le) hb
  rw [C23_markers h hb (Or.inl hm), C23_markers _ hb' (Or.inl fun op ho => hm op (List.mem_filter.mp ho).1)]
  congr 1
  have key : ∀ (h : List (NOp N S)) (k k' : N → Kind S), (∀ op ∈ h, op.isCopy = false) → k n = k' n →
      h.foldl vstep k n = (h.filter fun op => op.node = n).foldl vstep k' n := by
    intro h
    induction h with
    | nil => intro k k' _ e; exact e
    | cons op h ih =>
      intro k k' hc e
      have hc' : ∀ o ∈ h, o.isCopy = false := fun o ho => hc o (by simp [ho])
      by_cases hn : op.node = n
      · have : (op :: h).filter (fun op => op.node = n) = op :: h.filter fun op => op.node = n := by
          simp [hn]
        rw [this, List.foldl_cons, List.foldl_cons]
        apply ih _ _ hc'
        cases op with
        | copy a b => exact absurd (hc (.copy a b) (by simp)) (by simp [NOp.isCopy])
        | _ => simp only [NOp.node] at hn; simp [vstep, hn, e]
      · have : (op :: h).filter (fun op => op.node = n) = h.filter fun op => op.node = n := by
          simp [hn]
        rw [this, List.foldl_cons]
        apply ih _ _ hc'
        rw [← e]
        cases op with
        | copy a b => exact absurd (hc (.copy a b) (by simp)) (by simp [NOp.isCopy])
        | _ =>
          simp only [NOp.node] at hn
          have hn' : ¬ n = _ := fun h => hn h.symm
          simp [vstep, hn']
  exact key h _ _ hm rfl

theorem infos_length (h : List (NOp N S)) (st : NState N S) :
    (h.foldl NState.exec st).infos.length = st.infos.length + h.countP NOp.isSet := by
  induction h generalizing st with
  | nil => simp
  | cons op h ih =>
    rw [List.foldl_cons, ih, List.countP_cons]
    cases op with
    | modify n f => simp only [NState.exec, NOp.isSet]; split <;> simp
    | _ => simp [NState.exec, NState.write, NOp.isSet]; try omega

/-- C23, the proviso on the number of station infos is needed: the station set after
2^32-3 others is taken for a turn cycle. -/
theorem C23_limit_count (h : List (NOp N S)) (hb : h.countP NOp.isSet = u32max - 2) (n : N) (s : S) :
    (nrun (h ++ [.setSI n s])).view n = (false, true, some none) := by
  have hl := infos_length h (NState.init N S)
  simp only [NState.init, List.length_nil] at hl
  rw [hb] at hl
  have e : (nrun (h ++ [.setSI n s])).si n = u32max - 1 := by
    simp only [nrun, List.foldl_append, List.foldl_cons, List.foldl_nil, NState.exec, NState.write,
      if_true, NState.init]
    rw [hl]; decide
  simp [NState.view, NState.isBlocker, NState.isTurnCycle, NState.getSI, e, u32max]

/-- C23, finding: copies share the station info. A station placed on several edges
(OsmBuilder.cpp:1328) and then given a track (1352) through one of its nodes gets it at all
of them; in the value specification the other node is unchanged. -/
theorem C23_copies_share (a b : N) (hab : a ≠ b) (s : S) (f : S → S) :
    (nrun [.setSI a s, .copy a b, .modify b f]).view a = (false, false, some (some (f s))) ∧
    vrun [.setSI a s, .copy a b, .modify b f] a = .station s := by
  constructor
  · simp [nrun, NState.init, NState.exec, NState.write, NState.view, NState.isBlocker,
      NState.isTurnCycle, NState.getSI, u32max]
  · simp [vrun, vstep, hab]

/-- A history meeting the hypotheses, with all four kinds at the end. -/
example : ((List.range 4).map fun n => (nrun (N := Nat) (S := String)
    [.setSI 0 "A", .setSI 1 "B", .blocker 2, .turnCycle 3, .setSI 2 "C", .noStat 1, .blocker 2,
     .modify 0 fun s => s ++ "1"]).view n) =
    [(false, false, some (some "A1")), (false, false, some none), (true, false, some none),
     (false, true, some none)] := by decide

end Verif.Payload
