import Verif.Payload.Edge

/-!
# Edge payloads (property C24, payload part of C36)
-/

namespace Verif.Payload
variable {P : Type}

/-! ### specification: values, no counters, no addresses

A payload has attributes, a set of lines and possibly a geometry. Geometries are numbered
in the order of their creation; a flat copy has the same geometry as its original, every
other copy has its own. A transit line lives from its creation until the last payload that
has it is destroyed. -/

structure SObj where
  a : Attrs
  fam : Option Nat
  lines : List Nat

structure SState (P : Type) where
  objs : FMap Nat SObj
  fams : Nat → List P
  next : Nat
  alive : Nat → Bool

def SState.init (P : Type) : SState P := ⟨[], fun _ => [], 0, fun _ => false⟩

/-- A copy with attributes `at'`. -/
def SState.copyTo (sp : SState P) (s : SObj) (q : Nat) (flat : Bool) (at' : Attrs) : SState P :=
  match s.fam with
  | none => { sp with objs := sp.objs.put q ⟨at', none, s.lines⟩ }
  | some f =>
    if flat then { sp with objs := sp.objs.put q ⟨at', some f, s.lines⟩ }
    else
      { sp with
        objs := sp.objs.put q ⟨at', some sp.next, s.lines⟩
        fams := upd sp.fams sp.next (sp.fams f)
        next := sp.next + 1 }

/-- One-way marker seen from the other end: 1 and 2 swapped. -/
def flipWay (w : Fin 4) : Fin 4 := if w = 1 then 2 else if w = 2 then 1 else w

def SState.exec (sp : SState P) : EOp P → SState P
  | .new p =>
    match sp.objs.get p with
    | some _ => sp
    | none => { sp with objs := sp.objs.put p ⟨⟨0, false, false, 0, 0⟩, none, []⟩ }
  | .copy p q flat =>
    match sp.objs.get p, sp.objs.get q with
    | some s, none => sp.copyTo s q flat s.a
    | _, _ => sp
  | .revCopy p q =>
    match sp.objs.get p, sp.objs.get q with
    | some s, none => sp.copyTo s q false { s.a with rev := true, oneWay := flipWay s.a.oneWay }
    | _, _ => sp
  | .destroy p =>
    match sp.objs.get p with
    | none => sp
    | some s =>
      { sp with
        objs := sp.objs.erase p
        alive := fun l => sp.alive l && (!(s.lines.contains l) || (sp.objs.erase p).any fun q => q.2.lines.contains l) }
  | .addPoint p x =>
    match sp.objs.get p with
    | none => sp
    | some s =>
      match s.fam with
      | none =>
        { sp with
          objs := sp.objs.put p { s with fam := some sp.next }
          fams := upd sp.fams sp.next [x]
          next := sp.next + 1 }
      | some f => { sp with fams := upd sp.fams f (sp.fams f ++ [x]) }
  | .addLine p l =>
    match sp.objs.get p with
    | none => sp
    | some s => if sp.alive l then { sp with objs := sp.objs.put p { s with lines := l :: s.lines } } else sp
  | .newTLine l => { sp with alive := upd sp.alive l true }
  | .setAttrs p f =>
    match sp.objs.get p with
    | none => sp
    | some s => { sp with objs := sp.objs.put p { s with a := f s.a } }
  | .mutGeom p f =>
    match sp.objs.get p with
    | none => sp
    | some s =>
      match s.fam with
      | none => sp
      | some g => { sp with fams := upd sp.fams g (f (sp.fams g)) }

/-! ### invariant -/

def usesGeo (a : Nat) (e : EPL) : Bool := decide (e.l = some a)
def usesLine (l : Nat) (e : EPL) : Bool := decide (l ∈ e.lines)

structure EInv (st : EState P) : Prop where
  wf : st.objs.WF
  fl : ∀ a, st.flines a = st.objs.count (usesGeo a)
  hp : ∀ a, st.heap.get a ≠ none ↔ 0 < st.flines a
  tc : ∀ l, st.tcnt.get l = if st.objs.count (usesLine l) = 0 then none else some (st.objs.count (usesLine l))
  tl : ∀ l, 0 < st.objs.count (usesLine l) → st.tlive l = true
  nd : ∀ p e, st.objs.get p = some e → e.lines.Pairwise (· < ·)

/-- Same payload, seen in the model and in the specification. -/
structure ObjRel (φ : Nat → Nat) (e : EPL) (s : SObj) : Prop where
  a : e.a = s.a
  fam : s.fam = e.l.map φ
  lines : ∀ l, l ∈ e.lines ↔ l ∈ s.lines

structure Rel (st : EState P) (sp : SState P) (φ : Nat → Nat) : Prop where
  swf : sp.objs.WF
  none : ∀ p, st.objs.get p = none ↔ sp.objs.get p = none
  obj : ∀ p e s, st.objs.get p = some e → sp.objs.get p = some s → ObjRel φ e s
  inj : ∀ a b, st.heap.get a ≠ Option.none → st.heap.get b ≠ Option.none → φ a = φ b → a = b
  pts : ∀ a, st.heap.get a ≠ Option.none → st.heap.get a = some (sp.fams (φ a)) ∧ φ a < sp.next
  alive : ∀ l, st.tlive l = sp.alive l

theorem Rel.get {st : EState P} {sp : SState P} {φ : Nat → Nat} (R : Rel st sp φ) {p : Nat} {e : EPL}
    (h : st.objs.get p = some e) : ∃ s, sp.objs.get p = some s ∧ ObjRel φ e s := by
  cases hs : sp.objs.get p with
  | none => rw [(R.none p).mpr hs] at h; cases h
  | some s => exact ⟨s, rfl, R.obj p e s h hs⟩

theorem EInv.owned {st : EState P} (I : EInv st) {p : Nat} {e : EPL} {a : Nat}
    (h : st.objs.get p = some e) (ha : e.l = some a) : st.heap.get a ≠ none := by
  rw [I.hp, I.fl, FMap.count_pos_iff I.wf]
  exact ⟨p, e, h, by simp [usesGeo, ha]⟩

theorem count_fresh {m : FMap Nat EPL} {q : Nat} (h : m.get q = none) (e : EPL) (f : EPL → Bool) :
    (m.put q e).count f = (if f e then 1 else 0) + m.count f := by
  rw [FMap.count_put, FMap.erase_of_get_none h]

theorem count_same {m : FMap Nat EPL} (w : m.WF) {p : Nat} {e : EPL} (h : m.get p = some e) (e' : EPL)
    (f : EPL → Bool) (hf : f e' = f e) : (m.put p e').count f = m.count f := by
  rw [FMap.count_put, FMap.count_split w h, hf]

theorem upd_self {V : Type} (f : Nat → V) (a : Nat) (v : V) : upd f a v a = v := by simp [upd]

theorem upd_ne {V : Type} (f : Nat → V) (a : Nat) (v : V) {b : Nat} (h : b ≠ a) : upd f a v b = f b := by
  simp [upd, h]

/-! ### adding lines -/

theorem mem_insertPtr (l x : Nat) (ls : List Nat) : x ∈ insertPtr l ls ↔ x = l ∨ x ∈ ls := by
  induction ls with
  | nil => simp [insertPtr]
  | cons y ys ih =>
    simp only [insertPtr]
    split
    · simp only [List.mem_cons, ih]
      constructor
      · rintro (h | h | h) <;> simp [h]
      · rintro (h | h | h) <;> simp [h]
    · simp

theorem insertPtr_sorted (l : Nat) (ls : List Nat) (h : ls.Pairwise (· < ·)) (hn : l ∉ ls) :
    (insertPtr l ls).Pairwise (· < ·) := by
  induction ls with
  | nil => simp [insertPtr]
  | cons y ys ih =>
    have hp := List.pairwise_cons.mp h
    simp only [List.mem_cons, not_or] at hn
    simp only [insertPtr]
    split
    · rename_i hlt
      refine List.pairwise_cons.mpr ⟨?_, ih hp.2 hn.2⟩
      intro z hz
      rcases (mem_insertPtr l z ys).mp hz with rfl | hz
      · exact hlt
      · exact hp.1 z hz
    · refine List.pairwise_cons.mpr ⟨?_, h⟩
      intro z hz
      rcases List.mem_cons.mp hz with rfl | hz
      · omega
      · have := hp.1 z hz; omega

/-- Counter after one more payload has the line. -/
def bumped (o : Option Nat) : Option Nat := some (o.getD 0 + 1)

theorem addLineTo_spec (e : EPL) (t : FMap Nat Nat) (l : Nat) (hs : e.lines.Pairwise (· < ·)) :
    (addLineTo e t l).1.a = e.a ∧ (addLineTo e t l).1.l = e.l ∧
    (addLineTo e t l).1.lines.Pairwise (· < ·) ∧
    (∀ x, x ∈ (addLineTo e t l).1.lines ↔ x = l ∨ x ∈ e.lines) ∧
    ∀ x, (addLineTo e t l).2.get x = if x = l ∧ l ∉ e.lines then bumped (t.get x) else t.get x := by
  unfold addLineTo
  by_cases h : l ∈ e.lines
  · simp only [h, if_true]
    refine ⟨trivial, trivial, hs, ?_, by simp⟩
    intro x
    constructor
    · exact Or.inr
    · rintro (rfl | hx)
      · exact h
      · exact hx
  · simp only [h, if_false]
    refine ⟨trivial, trivial, insertPtr_sorted l e.lines hs h, fun x => mem_insertPtr l x e.lines, ?_⟩
    intro x
    cases ht : t.get l with
    | none =>
      simp only [FMap.get_put]
      by_cases e : x = l
      · simp [e, ht, bumped]
      · simp [e]
    | some n =>
      simp only [FMap.get_put]
      by_cases e : x = l
      · simp [e, ht, bumped]
      · simp [e]

theorem addLinesTo_spec (ls : List Nat) : ∀ (e : EPL) (t : FMap Nat Nat), e.lines.Pairwise (· < ·) →
    (addLinesTo e t ls).1.a = e.a ∧ (addLinesTo e t ls).1.l = e.l ∧
    (addLinesTo e t ls).1.lines.Pairwise (· < ·) ∧
    (∀ x, x ∈ (addLinesTo e t ls).1.lines ↔ x ∈ ls ∨ x ∈ e.lines) ∧
    ∀ x, (addLinesTo e t ls).2.get x = if x ∈ ls ∧ x ∉ e.lines then bumped (t.get x) else t.get x := by
  induction ls with
  | nil => intro e t hs; exact ⟨rfl, rfl, hs, by simp [addLinesTo], by simp [addLinesTo]⟩
  | cons l ls ih =>
    intro e t hs
    obtain ⟨a1, a2, a3, a4, a5⟩ := addLineTo_spec e t l hs
    have hstep : addLinesTo e t (l :: ls) = addLinesTo (addLineTo e t l).1 (addLineTo e t l).2 ls := rfl
    obtain ⟨b1, b2, b3, b4, b5⟩ := ih (addLineTo e t l).1 (addLineTo e t l).2 a3
    rw [hstep]
    refine ⟨b1.trans a1, b2.trans a2, b3, ?_, ?_⟩
    · intro x
      rw [b4, a4, List.mem_cons]
      constructor
      · rintro (h | h | h) <;> simp [h]
      · rintro ((h | h) | h) <;> simp [h]
    · intro x
      simp only [b5, a4, a5]
      by_cases hx : x ∈ e.lines
      · have : ¬ (x = l ∧ l ∉ e.lines) := fun ⟨h1, h2⟩ => h2 (h1 ▸ hx)
        simp [hx, this]
      · by_cases hl : x = l
        · subst hl; simp [hx]
        · simp [hx, hl]

/-! ### releasing lines -/

theorem unRefs_spec (n : Nat → Nat) (ls : List Nat) : ∀ (t : FMap Nat Nat) (v : Nat → Bool), ls.Nodup →
    (∀ l ∈ ls, t.get l = some (n l + 1)) → (∀ l ∈ ls, v l = true) →
    ∃ t' v', unRefs t v ls = some (t', v') ∧
      (∀ l, t'.get l = if l ∈ ls then (if n l = 0 then none else some (n l)) else t.get l) ∧
      ∀ l, v' l = if l ∈ ls ∧ n l = 0 then false else v l := by
  induction ls with
  | nil => intro t v _ _ _; exact ⟨t, v, rfl, by simp, by simp⟩
  | cons l ls ih =>
    intro t v hnd ht hv
    obtain ⟨hl, hnd'⟩ := List.nodup_cons.mp hnd
    have hne : ∀ x ∈ ls, x ≠ l := fun x hx e => hl (e ▸ hx)
    simp only [unRefs, unRef, ht l (by simp)]
    by_cases h0 : n l = 0
    · simp only [h0, if_true, hv l (by simp)]
      obtain ⟨t', v', e1, e2, e3⟩ := ih (t.erase l) (upd v l false) hnd'
        (fun x hx => by rw [FMap.get_erase, if_neg (hne x hx)]; exact ht x (by simp [hx]))
        (fun x hx => by rw [upd_ne _ _ _ (hne x hx)]; exact hv x (by simp [hx]))
      refine ⟨t', v', e1, ?_, ?_⟩
      · intro x
        rw [e2, FMap.get_erase]
        by_cases hx : x = l
        · subst hx; simp [hl, h0]
        · simp [hx]
      · intro x
        rw [e3]
        by_cases hx : x = l
        · subst hx; simp [hl, h0, upd]
        · simp [hx, upd]
    · simp only [h0, if_false]
      obtain ⟨t', v', e1, e2, e3⟩ := ih (t.put l (n l)) v hnd'
        (fun x hx => by rw [FMap.get_put, if_neg (hne x hx)]; exact ht x (by simp [hx]))
        (fun x hx => hv x (by simp [hx]))
      refine ⟨t', v', e1, ?_, ?_⟩
      · intro x
        rw [e2, FMap.get_put]
        by_cases hx : x = l
        · subst hx; simp [hl, h0]
        · simp [hx]
      · intro x
        rw [e3]
        by_cases hx : x = l
        · subst hx; simp [hl, h0]
        · simp [hx]

/-! ### the steps -/

/-- Step claim: no error, and invariant and relation are kept. -/
def StepOK (st' : Option (EState P)) (sp' : SState P) : Prop :=
  ∃ s φ, st' = some s ∧ EInv s ∧ Rel s sp' φ

/-- Adding a new payload (name `q` unused) that has geometry `l` and lines `ls`, given the
changed heap, counters and families. -/
theorem insert_ok {st : EState P} {sp : SState P} {φ : Nat → Nat} (I : EInv st) (R : Rel st sp φ)
    {q : Nat} (hq : st.objs.get q = none) (e : EPL) (heap' : FMap Nat (List P)) (fl' : Nat → Nat)
    (tc' : FMap Nat Nat) (s : SObj) (fams' : Nat → List P) (next' : Nat) (φ' : Nat → Nat)
    (hfl : ∀ a, fl' a = (if usesGeo a e then 1 else 0) + st.flines a)
    (hhp : ∀ a, heap'.get a ≠ none ↔ 0 < fl' a)
    (htc : ∀ x, tc'.get x = if x ∈ e.lines then bumped (st.tcnt.get x) else st.tcnt.get x)
    (hlv : ∀ x ∈ e.lines, st.tlive x = true)
    (hnd : e.lines.Pairwise (· < ·))
    (hφ : ∀ a, st.heap.get a ≠ none → φ' a = φ a)
    (hobj : ObjRel φ' e s)
    (hinj : ∀ a b, heap'.get a ≠ none → heap'.get b ≠ none → φ' a = φ' b → a = b)
    (hpts : ∀ a, heap'.get a ≠ none → heap'.get a = some (fams' (φ' a)) ∧ φ' a < next') :
    StepOK (some { st with objs := st.objs.put q e, heap := heap', flines := fl', tcnt := tc' })
      { sp with objs := sp.objs.put q s, fams := fams', next := next' } := by
  refine ⟨_, φ', rfl, ?_, ?_⟩
  · refine ⟨I.wf.put q e, ?_, hhp, ?_, ?_, ?_⟩
    · intro a
      simp only [hfl, I.fl, count_fresh hq]
    · intro l
      simp only [htc, I.tc, count_fresh hq]
      by_cases h : l ∈ e.lines
      · simp only [h, if_true, usesLine, decide_true]
        split
        · rename_i h0; simp [bumped, h0]
        · simp [bumped]; omega
      · simp only [h, if_false, usesLine, decide_false]
        simp
    · intro l hl
      simp only [count_fresh hq] at hl
      by_cases h : l ∈ e.lines
      · exact hlv l h
      · simp only [usesLine, h, decide_false] at hl
        exact I.tl l (by simpa [usesLine] using hl)
    · intro p e' he'
      simp only [FMap.get_put] at he'
      split at he'
      · cases he'; exact hnd
      · exact I.nd p e' he'
  · refine ⟨R.swf.put q s, ?_, ?_, hinj, hpts, R.alive⟩
    · intro p
      simp only [FMap.get_put]
      split
      · simp
      · exact R.none p
    · intro p e' s' he' hs'
      simp only [FMap.get_put] at he' hs'
      split at he'
      · rename_i h
        simp only [h, if_true] at hs'
        cases he'; cases hs'
        exact hobj
      · rename_i h
        simp only [h, if_false] at hs'
        have r := R.obj p e' s' he' hs'
        refine ⟨r.a, ?_, r.lines⟩
        rw [r.fam]
        cases hl : e'.l with
        | none => rfl
        | some a => simp [hφ a (I.owned he' hl)]

theorem copy_ok {st : EState P} {sp : SState P} {φ : Nat → Nat} (I : EInv st) (R : Rel st sp φ)
    (alloc : EState P → Nat) (hal : ∀ st : EState P, st.heap.get (alloc st) = none)
    {p q : Nat} {e : EPL} {s : SObj} (hp : st.objs.get p = some e) (hs : sp.objs.get p = some s)
    (hq : st.objs.get q = none) (flat : Bool) (at' : Attrs) :
    StepOK (copyTo alloc st e q flat at') (sp.copyTo s q flat at') := by
  have r := R.obj p e s hp hs
  have hlv : ∀ x ∈ e.lines, st.tlive x = true := fun x hx =>
    I.tl x ((FMap.count_pos_iff I.wf _).mpr ⟨p, e, hp, by simp [usesLine, hx]⟩)
  have hE : ∀ l : Option Nat, ∀ t : FMap Nat Nat, _ := fun l t =>
    addLinesTo_spec e.lines ⟨at', l, []⟩ t List.Pairwise.nil
  cases hl : e.l with
  | none =>
    have hf : s.fam = none := by rw [r.fam, hl]; rfl
    obtain ⟨b1, b2, b3, b4, b5⟩ := hE none st.tcnt
    have e1 : copyTo alloc st e q flat at' = some { st with
        objs := st.objs.put q (addLinesTo ⟨at', none, []⟩ st.tcnt e.lines).1
        heap := st.heap, flines := st.flines
        tcnt := (addLinesTo ⟨at', none, []⟩ st.tcnt e.lines).2 } := by simp [copyTo, copyGeom, hl]
    have e2 : sp.copyTo s q flat at' = { sp with
        objs := sp.objs.put q ⟨at', none, s.lines⟩, fams := sp.fams, next := sp.next } := by
      simp [SState.copyTo, hf]
    rw [e1, e2]
    refine insert_ok I R hq _ _ _ _ _ _ _ φ ?_ I.hp ?_ ?_ b3 (fun _ _ => rfl) ?_ R.inj R.pts
    · intro a; simp [usesGeo, b2]
    · intro x; rw [b5]; simp [b4]
    · intro x hx; exact hlv x (by simpa [b4] using hx)
    · exact ⟨b1, by simp [b2], fun x => by rw [b4]; simpa using r.lines x⟩
  | some a =>
    have hf : s.fam = some (φ a) := by rw [r.fam, hl]; rfl
    have hown := I.owned hp hl
    cases flat with
    | true =>
      obtain ⟨b1, b2, b3, b4, b5⟩ := hE (some a) st.tcnt
      have e1 : copyTo alloc st e q true at' = some { st with
          objs := st.objs.put q (addLinesTo ⟨at', some a, []⟩ st.tcnt e.lines).1
          heap := st.heap, flines := upd st.flines a (st.flines a + 1)
          tcnt := (addLinesTo ⟨at', some a, []⟩ st.tcnt e.lines).2 } := by simp [copyTo, copyGeom, hl]
      have e2 : sp.copyTo s q true at' = { sp with
          objs := sp.objs.put q ⟨at', some (φ a), s.lines⟩, fams := sp.fams, next := sp.next } := by
        simp [SState.copyTo, hf]
      rw [e1, e2]
      refine insert_ok I R hq _ _ _ _ _ _ _ φ ?_ ?_ ?_ ?_ b3 (fun _ _ => rfl) ?_ R.inj R.pts
      · intro b
        simp only [usesGeo, b2]
        by_cases h : b = a
        · simp [h, upd]; omega
        · have : ¬ a = b := fun e => h e.symm
          simp [h, upd, this]
      · intro b
        by_cases h : b = a
        · subst h; simp [upd, hown]
        · rw [upd_ne _ _ _ h]; exact I.hp b
      · intro x; rw [b5]; simp [b4]
      · intro x hx; exact hlv x (by simpa [b4] using hx)
      · exact ⟨b1, by simp [b2], fun x => by rw [b4]; simpa using r.lines x⟩
    | false =>
      obtain ⟨pts, hpts⟩ := Option.ne_none_iff_exists'.mp hown
      have hP := R.pts a hown
      have hpe : pts = sp.fams (φ a) := by
        have := hP.1; rw [hpts] at this; exact Option.some.inj this
      have hb := hal st
      generalize hbb : alloc st = b at hb
      obtain ⟨b1, b2, b3, b4, b5⟩ := hE (some b) st.tcnt
      have hb0 : st.flines b = 0 := by
        have : ¬ 0 < st.flines b := fun h => (I.hp b).mpr h hb
        omega
      have e1 : copyTo alloc st e q false at' = some { st with
          objs := st.objs.put q (addLinesTo ⟨at', some b, []⟩ st.tcnt e.lines).1
          heap := st.heap.put b pts, flines := upd st.flines b (st.flines b + 1)
          tcnt := (addLinesTo ⟨at', some b, []⟩ st.tcnt e.lines).2 } := by
        simp [copyTo, copyGeom, hl, hpts, hbb]
      have e2 : sp.copyTo s q false at' = { sp with
          objs := sp.objs.put q ⟨at', some sp.next, s.lines⟩
          fams := upd sp.fams sp.next (sp.fams (φ a)), next := sp.next + 1 } := by
        simp [SState.copyTo, hf]
      rw [e1, e2]
      refine insert_ok I R hq _ _ _ _ _ _ _ (upd φ b sp.next) ?_ ?_ ?_ ?_ b3 ?_ ?_ ?_ ?_
      · intro c
        simp only [usesGeo, b2]
        by_cases h : c = b
        · simp [h, upd]; omega
        · have : ¬ b = c := fun e => h e.symm
          simp [h, upd, this]
      · intro c
        rw [FMap.get_put]
        by_cases h : c = b
        · subst h; simp [upd]
        · rw [upd_ne _ _ _ h]; simp only [h, if_false]; exact I.hp c
      · intro x; rw [b5]; simp [b4]
      · intro x hx; exact hlv x (by simpa [b4] using hx)
      · intro c hc
        exact upd_ne _ _ _ (fun e => hc (e ▸ hb))
      · exact ⟨b1, by simp [b2, upd], fun x => by rw [b4]; simpa using r.lines x⟩
      · intro c d hc hd hcd
        rw [FMap.get_put] at hc hd
        by_cases h : c = b
        · by_cases h' : d = b
          · rw [h, h']
          · simp only [h', if_false] at hd
            have := (R.pts d hd).2
            rw [h, upd_self, upd_ne _ _ _ h'] at hcd
            omega
        · simp only [h, if_false] at hc
          by_cases h' : d = b
          · have := (R.pts c hc).2
            rw [h', upd_self, upd_ne _ _ _ h] at hcd
            omega
          · simp only [h', if_false] at hd
            rw [upd_ne _ _ _ h, upd_ne _ _ _ h'] at hcd
            exact R.inj c d hc hd hcd
      · intro c hc
        rw [FMap.get_put] at hc ⊢
        by_cases h : c = b
        · subst h; simp [upd, hpe]
        · simp only [h, if_false] at hc ⊢
          have := R.pts c hc
          rw [upd_ne _ _ _ h, upd_ne _ _ _ (by omega)]
          exact ⟨this.1, by omega⟩

/-- Replacing the payload `p` by one with the same lines and geometry, or changing points only. -/
theorem replace_ok {st : EState P} {sp : SState P} {φ : Nat → Nat} (I : EInv st) (R : Rel st sp φ)
    {p : Nat} {e e' : EPL} {s' : SObj} (hp : st.objs.get p = some e)
    (hl : e'.l = e.l) (hls : e'.lines = e.lines) (r : ObjRel φ e' s') :
    EInv { st with objs := st.objs.put p e' } ∧
    Rel { st with objs := st.objs.put p e' } { sp with objs := sp.objs.put p s' } φ := by
  constructor
  · refine ⟨I.wf.put p e', ?_, I.hp, ?_, ?_, ?_⟩
    · intro a
      rw [I.fl]
      exact (count_same I.wf hp e' _ (by simp [usesGeo, hl])).symm
    · intro l
      have := count_same I.wf hp e' (usesLine l) (by simp [usesLine, hls])
      simp only [this]
      exact I.tc l
    · intro l h
      have := count_same I.wf hp e' (usesLine l) (by simp [usesLine, hls])
      simp only [this] at h
      exact I.tl l h
    · intro q x hx
      simp only [FMap.get_put] at hx
      split at hx
      · cases hx; rw [hls]; exact I.nd p e hp
      · exact I.nd q x hx
  · refine ⟨R.swf.put p s', ?_, ?_, R.inj, R.pts, R.alive⟩
    · intro q
      simp only [FMap.get_put]
      split
      · simp
      · exact R.none q
    · intro q x y hx hy
      simp only [FMap.get_put] at hx hy
      split at hx
      · rename_i h
        simp only [h, if_true] at hy
        cases hx; cases hy; exact r
      · rename_i h
        simp only [h, if_false] at hy
        exact R.obj q x y hx hy

theorem setPts_ok {st : EState P} {sp : SState P} {φ : Nat → Nat} (I : EInv st) (R : Rel st sp φ)
    {a : Nat} (ha : st.heap.get a ≠ none) (pts : List P) :
    EInv { st with heap := st.heap.put a pts } ∧
    Rel { st with heap := st.heap.put a pts } { sp with fams := upd sp.fams (φ a) pts } φ := by
  have dom : ∀ b, (st.heap.put a pts).get b ≠ none ↔ st.heap.get b ≠ none := by
    intro b
    rw [FMap.get_put]
    split
    · rename_i h; subst h; simp [ha]
    · rfl
  constructor
  · exact ⟨I.wf, I.fl, fun b => (dom b).trans (I.hp b), I.tc, I.tl, I.nd⟩
  · refine ⟨R.swf, R.none, R.obj, ?_, ?_, R.alive⟩
    · intro b c hb hc
      exact R.inj b c ((dom b).mp hb) ((dom c).mp hc)
    · intro b hb
      have hb' := (dom b).mp hb
      have := R.pts b hb'
      refine ⟨?_, this.2⟩
      simp only [FMap.get_put]
      by_cases h : b = a
      · subst h; simp [upd]
      · have hne : φ b ≠ φ a := fun e => h (R.inj b a hb' ha e)
        simp only [h, if_false]
        rw [upd_ne _ _ _ hne]; exact this.1

theorem dropGeom_spec {st : EState P} (I : EInv st) {p : Nat} {e : EPL} (hp : st.objs.get p = some e) :
    ∃ heap' fl', dropGeom st e.l = some { st with heap := heap', flines := fl' } ∧
      (∀ a, fl' a = (st.objs.erase p).count (usesGeo a)) ∧
      ∀ a, heap'.get a = if 0 < fl' a then st.heap.get a else none := by
  have hcnt : ∀ a, st.flines a = (if usesGeo a e then 1 else 0) + (st.objs.erase p).count (usesGeo a) := by
    intro a; rw [I.fl]; exact FMap.count_split I.wf hp _
  have hz : ∀ a, ¬ 0 < st.flines a → st.heap.get a = none := by
    intro a h
    cases hg : st.heap.get a with
    | none => rfl
    | some x => exact absurd ((I.hp a).mp (by simp [hg])) h
  cases hl : e.l with
  | none =>
    refine ⟨st.heap, st.flines, rfl, ?_, ?_⟩
    · intro a; rw [hcnt]; simp [usesGeo, hl]
    · intro a
      split
      · rfl
      · rename_i h; exact hz a h
  | some a =>
    have ha := hcnt a
    rw [show usesGeo a e = true by simp [usesGeo, hl], if_pos rfl] at ha
    have hne : ∀ b, b ≠ a → st.flines b = (st.objs.erase p).count (usesGeo b) := by
      intro b hb
      have := hcnt b
      have h' : ¬ a = b := fun e => hb e.symm
      simpa [usesGeo, hl, h'] using this
    have hown := I.owned hp hl
    obtain ⟨pts, hpts⟩ := Option.ne_none_iff_exists'.mp hown
    have h0 : ¬ st.flines a = 0 := by omega
    simp only [dropGeom, h0, if_false, upd_self]
    by_cases h1 : st.flines a - 1 = 0
    · simp only [h1, if_true, hpts]
      refine ⟨_, _, rfl, ?_, ?_⟩
      · intro b
        by_cases hb : b = a
        · subst hb; simp only [upd_self]
          omega
        · rw [upd_ne _ _ _ hb]; exact hne b hb
      · intro b
        rw [FMap.get_erase]
        by_cases hb : b = a
        · subst hb; simp [upd]
        · rw [upd_ne _ _ _ hb]
          simp only [hb, if_false]
          split
          · rfl
          · rename_i h; exact hz b h
    · simp only [h1, if_false]
      refine ⟨st.heap, _, rfl, ?_, ?_⟩
      · intro b
        by_cases hb : b = a
        · subst hb; simp only [upd_self]
          omega
        · rw [upd_ne _ _ _ hb]; exact hne b hb
      · intro b
        by_cases hb : b = a
        · subst hb
          rw [upd_self, if_pos (by omega)]
        · rw [upd_ne _ _ _ hb]
          split
          · rfl
          · rename_i h; exact hz b h

theorem destroy_ok {st : EState P} {sp : SState P} {φ : Nat → Nat} (I : EInv st) (R : Rel st sp φ)
    (alloc : EState P → Nat) (p : Nat) : StepOK (st.exec alloc (.destroy p)) (sp.exec (.destroy p)) := by
  simp only [EState.exec, SState.exec]
  cases hp : st.objs.get p with
  | none => rw [(R.none p).mp hp]; exact ⟨st, φ, rfl, I, R⟩
  | some e =>
    obtain ⟨s, hs, r⟩ := R.get hp
    rw [hs]
    obtain ⟨heap', fl', d1, d2, d3⟩ := dropGeom_spec I hp
    have hcnt : ∀ l, st.objs.count (usesLine l) =
        (if usesLine l e then 1 else 0) + (st.objs.erase p).count (usesLine l) :=
      fun l => FMap.count_split I.wf hp _
    obtain ⟨t', v', u1, u2, u3⟩ := unRefs_spec (fun l => (st.objs.erase p).count (usesLine l)) e.lines
      st.tcnt st.tlive ((I.nd p e hp).imp (fun h => Nat.ne_of_lt h))
      (fun l hl => by
        have := hcnt l
        rw [show usesLine l e = true by simp [usesLine, hl], if_pos rfl] at this
        rw [I.tc, if_neg (by omega), this]
        congr 1; omega)
      (fun l hl => I.tl l (by
        have := hcnt l
        rw [show usesLine l e = true by simp [usesLine, hl], if_pos rfl] at this
        omega))
    simp only [d1, u1]
    refine ⟨_, φ, rfl, ?_, ?_⟩
    · refine ⟨I.wf.erase p, d2, ?_, ?_, ?_, ?_⟩
      · intro a
        simp only [d3]
        by_cases h : 0 < fl' a
        · simp only [h, if_true, iff_true]
          rw [I.hp, I.fl, FMap.count_split I.wf hp]
          have := d2 a
          omega
        · simp [h]
      · intro l
        simp only [u2]
        by_cases h : l ∈ e.lines
        · simp [h]
        · simp only [h, if_false]
          rw [I.tc]
          have := hcnt l
          rw [show usesLine l e = false by simp [usesLine, h]] at this
          simp only [Bool.false_eq_true, if_false, Nat.zero_add] at this
          rw [this]
      · intro l hl
        have h' := hcnt l
        simp only at hl
        simp only [u3]
        rw [if_neg (by intro h; omega)]
        exact I.tl l (by omega)
      · intro q x hx
        simp only [FMap.get_erase] at hx
        split at hx
        · cases hx
        · exact I.nd q x hx
    · have hdom : ∀ a, heap'.get a ≠ none → st.heap.get a ≠ none ∧ heap'.get a = st.heap.get a := by
        intro a h
        rw [d3] at h ⊢
        split at h
        · rename_i hpos; rw [if_pos hpos]; exact ⟨h, rfl⟩
        · exact absurd rfl h
      refine ⟨R.swf.erase p, ?_, ?_, ?_, ?_, ?_⟩
      · intro q
        simp only [FMap.get_erase]
        split
        · simp
        · exact R.none q
      · intro q x y hx hy
        simp only [FMap.get_erase] at hx hy
        split at hx
        · cases hx
        · rename_i h
          simp only [h, if_false] at hy
          exact R.obj q x y hx hy
      · intro a b ha hb
        exact R.inj a b (hdom a ha).1 (hdom b hb).1
      · intro a ha
        obtain ⟨h1, h2⟩ := hdom a ha
        have := R.pts a h1
        exact ⟨by simp only [h2]; exact this.1, this.2⟩
      · intro l
        simp only [u3, R.alive l]
        have hc : s.lines.contains l = decide (l ∈ e.lines) := by
          rw [Bool.eq_iff_iff]; simp [r.lines l]
        have hany : (sp.objs.erase p).any (fun q => q.2.lines.contains l) =
            decide (0 < (st.objs.erase p).count (usesLine l)) := by
          rw [Bool.eq_iff_iff, decide_eq_true_eq, FMap.count_pos_iff (I.wf.erase p), List.any_eq_true]
          constructor
          · rintro ⟨⟨q, y⟩, hm, hy⟩
            have hg := FMap.get_of_mem (R.swf.erase p) hm
            rw [FMap.get_erase] at hg
            split at hg
            · cases hg
            · rename_i hqp
              cases hx : st.objs.get q with
              | none => rw [(R.none q).mp hx] at hg; cases hg
              | some x =>
                refine ⟨q, x, by rw [FMap.get_erase, if_neg hqp]; exact hx, ?_⟩
                simp only [usesLine, decide_eq_true_eq]
                exact ((R.obj q x y hx hg).lines l).mpr (by simpa using hy)
          · rintro ⟨q, x, hx, hl⟩
            rw [FMap.get_erase] at hx
            split at hx
            · cases hx
            · rename_i hqp
              obtain ⟨y, hy, ry⟩ := R.get hx
              refine ⟨(q, y), FMap.mem_of_get (by rw [FMap.get_erase, if_neg hqp]; exact hy), ?_⟩
              simp only [usesLine, decide_eq_true_eq] at hl
              simpa using (ry.lines l).mp hl
        rw [hc, hany]
        by_cases h : l ∈ e.lines
        · by_cases h0 : (st.objs.erase p).count (usesLine l) = 0
          · simp [h, h0]
          · have : 0 < (st.objs.erase p).count (usesLine l) := by omega
            simp [h, h0, this]
        · simp [h]

theorem step_ok {st : EState P} {sp : SState P} {φ : Nat → Nat} (I : EInv st) (R : Rel st sp φ)
    (alloc : EState P → Nat) (hal : ∀ st : EState P, st.heap.get (alloc st) = none) (op : EOp P) :
    StepOK (st.exec alloc op) (sp.exec op) := by
  cases op with
  | new p =>
    simp only [EState.exec, SState.exec]
    cases hp : st.objs.get p with
    | some e => obtain ⟨s, hs, _⟩ := R.get hp; rw [hs]; exact ⟨st, φ, rfl, I, R⟩
    | none =>
      rw [(R.none p).mp hp]
      exact insert_ok I R hp ⟨attrs0, none, []⟩ st.heap st.flines st.tcnt ⟨_, none, []⟩ sp.fams sp.next φ
        (by simp [usesGeo]) I.hp (by simp) (by simp) List.Pairwise.nil (fun _ _ => rfl)
        ⟨rfl, rfl, by simp⟩ R.inj R.pts
  | copy p q flat =>
    simp only [EState.exec, SState.exec]
    cases hp : st.objs.get p with
    | none => rw [(R.none p).mp hp]; exact ⟨st, φ, rfl, I, R⟩
    | some e =>
      obtain ⟨s, hs, r⟩ := R.get hp
      rw [hs]
      cases hq : st.objs.get q with
      | some _ => obtain ⟨s', hs', _⟩ := R.get hq; rw [hs']; exact ⟨st, φ, rfl, I, R⟩
      | none =>
        rw [(R.none q).mp hq]
        simp only [r.a]
        exact copy_ok I R alloc hal hp hs hq flat s.a
  | revCopy p q =>
    simp only [EState.exec, SState.exec]
    cases hp : st.objs.get p with
    | none => rw [(R.none p).mp hp]; exact ⟨st, φ, rfl, I, R⟩
    | some e =>
      obtain ⟨s, hs, r⟩ := R.get hp
      rw [hs]
      cases hq : st.objs.get q with
      | some _ => obtain ⟨s', hs', _⟩ := R.get hq; rw [hs']; exact ⟨st, φ, rfl, I, R⟩
      | none =>
        rw [(R.none q).mp hq]
        simp only [r.a]
        exact copy_ok I R alloc hal hp hs hq false _
  | destroy p => exact destroy_ok I R alloc p
  | addPoint p x =>
    simp only [EState.exec, SState.exec]
    cases hp : st.objs.get p with
    | none => rw [(R.none p).mp hp]; exact ⟨st, φ, rfl, I, R⟩
    | some e =>
      obtain ⟨s, hs, r⟩ := R.get hp
      rw [hs]
      cases hl : e.l with
      | some a =>
        have hf : s.fam = some (φ a) := by rw [r.fam, hl]; rfl
        have hown := I.owned hp hl
        have hP := (R.pts a hown).1
        simp only [hl, hf, hP]
        obtain ⟨A, B⟩ := setPts_ok I R hown (sp.fams (φ a) ++ [x])
        exact ⟨_, φ, rfl, A, B⟩
      | none =>
        have hf : s.fam = none := by rw [r.fam, hl]; rfl
        simp only [hl, hf]
        have hb := hal st
        generalize alloc st = b at hb
        have hb0 : st.flines b = 0 := by
          have : ¬ 0 < st.flines b := fun h => (I.hp b).mpr h hb
          omega
        refine ⟨_, upd φ b sp.next, rfl, ?_, ?_⟩
        · refine ⟨I.wf.put p _, ?_, ?_, ?_, ?_, ?_⟩
          · intro c
            simp only
            rw [FMap.count_put]
            have hsp := FMap.count_split I.wf hp (usesGeo c)
            have hfl := I.fl c
            simp only [usesGeo, hl] at hsp
            by_cases h : c = b
            · subst h
              simp only [upd_self, usesGeo, decide_true, if_true] at *
              simp at hsp
              omega
            · have h' : ¬ b = c := fun e => h e.symm
              rw [upd_ne _ _ _ h]
              simp only [usesGeo] at *
              simp [h'] at hsp ⊢
              omega
          · intro c
            simp only [FMap.get_put]
            by_cases h : c = b
            · subst h; simp [upd]
            · rw [upd_ne _ _ _ h]; simp only [h, if_false]; exact I.hp c
          · intro l
            have := count_same I.wf hp { e with l := some b } (usesLine l) rfl
            simp only [this]
            exact I.tc l
          · intro l h
            have := count_same I.wf hp { e with l := some b } (usesLine l) rfl
            simp only [this] at h
            exact I.tl l h
          · intro q y hy
            simp only [FMap.get_put] at hy
            split at hy
            · cases hy; exact I.nd p e hp
            · exact I.nd q y hy
        · have hne : ∀ c, st.heap.get c ≠ none → c ≠ b := fun c hc e => hc (e ▸ hb)
          refine ⟨R.swf.put p _, ?_, ?_, ?_, ?_, R.alive⟩
          · intro q
            simp only [FMap.get_put]
            split
            · simp
            · exact R.none q
          · intro q y z hy hz
            simp only [FMap.get_put] at hy hz
            split at hy
            · rename_i h
              simp only [h, if_true] at hz
              cases hy; cases hz
              exact ⟨r.a, by simp [upd], r.lines⟩
            · rename_i h
              simp only [h, if_false] at hz
              have ry := R.obj q y z hy hz
              refine ⟨ry.a, ?_, ry.lines⟩
              rw [ry.fam]
              cases hyl : y.l with
              | none => rfl
              | some c => simp [upd_ne φ b sp.next (hne c (I.owned hy hyl))]
          · intro c d hc hd hcd
            simp only [FMap.get_put] at hc hd
            by_cases h : c = b
            · by_cases h' : d = b
              · rw [h, h']
              · simp only [h', if_false] at hd
                have := (R.pts d hd).2
                rw [h, upd_self, upd_ne _ _ _ h'] at hcd
                omega
            · simp only [h, if_false] at hc
              by_cases h' : d = b
              · have := (R.pts c hc).2
                rw [h', upd_self, upd_ne _ _ _ h] at hcd
                omega
              · simp only [h', if_false] at hd
                rw [upd_ne _ _ _ h, upd_ne _ _ _ h'] at hcd
                exact R.inj c d hc hd hcd
          · intro c hc
            simp only [FMap.get_put] at hc ⊢
            by_cases h : c = b
            · subst h; simp [upd]
            · simp only [h, if_false] at hc ⊢
              have := R.pts c hc
              rw [upd_ne _ _ _ h, upd_ne _ _ _ (by omega)]
              exact ⟨this.1, by omega⟩
  | addLine p l =>
    simp only [EState.exec, SState.exec]
    cases hp : st.objs.get p with
    | none => rw [(R.none p).mp hp]; exact ⟨st, φ, rfl, I, R⟩
    | some e =>
      obtain ⟨s, hs, r⟩ := R.get hp
      rw [hs]
      simp only [R.alive l]
      cases ha : sp.alive l with
      | false => exact ⟨st, φ, rfl, I, R⟩
      | true =>
        simp only [if_true]
        obtain ⟨a1, a2, a3, a4, a5⟩ := addLineTo_spec e st.tcnt l (I.nd p e hp)
        generalize addLineTo e st.tcnt l = z at *
        obtain ⟨e', t'⟩ := z
        simp only at *
        have hc : ∀ x, (st.objs.put p e').count (usesLine x) =
            (if x = l ∧ l ∉ e.lines then 1 else 0) + st.objs.count (usesLine x) := by
          intro x
          rw [FMap.count_put, FMap.count_split I.wf hp (usesLine x)]
          simp only [usesLine, a4]
          by_cases hx : x = l
          · subst hx
            by_cases h' : x ∈ e.lines <;> simp [h']
          · simp [hx]
        refine ⟨_, φ, rfl, ?_, ?_⟩
        · refine ⟨I.wf.put p _, ?_, I.hp, ?_, ?_, ?_⟩
          · intro a
            rw [I.fl]
            exact (count_same I.wf hp e' _ (by simp [usesGeo, a2])).symm
          · intro x
            simp only [hc, a5, I.tc x]
            by_cases h : x = l ∧ l ∉ e.lines
            · simp only [h, not_false_eq_true, and_self, if_true]
              split
              · rename_i h0; simp [bumped, h0]
              · simp [bumped]; omega
            · simp [h]
          · intro x hx
            simp only [hc] at hx
            by_cases h : x = l ∧ l ∉ e.lines
            · simp only
              rw [h.1, R.alive, ha]
            · simp only [h, if_false] at hx
              exact I.tl x (by omega)
          · intro q y hy
            simp only [FMap.get_put] at hy
            split at hy
            · cases hy; exact a3
            · exact I.nd q y hy
        · refine ⟨R.swf.put p _, ?_, ?_, R.inj, R.pts, R.alive⟩
          · intro q
            simp only [FMap.get_put]
            split
            · simp
            · exact R.none q
          · intro q y z hy hz
            simp only [FMap.get_put] at hy hz
            split at hy
            · rename_i h
              simp only [h, if_true] at hz
              cases hy; cases hz
              exact ⟨a1.trans r.a, by rw [a2]; exact r.fam, fun x => by rw [a4]; simp [r.lines x]⟩
            · rename_i h
              simp only [h, if_false] at hz
              exact R.obj q y z hy hz
  | newTLine l =>
    simp only [EState.exec, SState.exec]
    cases ha : st.tlive l with
    | true =>
      have : upd sp.alive l true = sp.alive := by
        funext x; simp only [upd]; split
        · rename_i h; rw [h, ← R.alive, ha]
        · rfl
      rw [this]
      exact ⟨st, φ, rfl, I, R⟩
    | false =>
      simp only [Bool.false_eq_true, if_false]
      refine ⟨_, φ, rfl, ⟨I.wf, I.fl, I.hp, I.tc, ?_, I.nd⟩, ⟨R.swf, R.none, R.obj, R.inj, R.pts, ?_⟩⟩
      · intro x hx
        have := I.tl x hx
        simp only [upd]; split <;> simp [this]
      · intro x; simp only [upd, R.alive x]
  | setAttrs p f =>
    simp only [EState.exec, SState.exec]
    cases hp : st.objs.get p with
    | none => rw [(R.none p).mp hp]; exact ⟨st, φ, rfl, I, R⟩
    | some e =>
      obtain ⟨s, hs, r⟩ := R.get hp
      rw [hs]
      obtain ⟨A, B⟩ := replace_ok I R (e' := { e with a := f e.a }) (s' := { s with a := f s.a }) hp
        rfl rfl ⟨by simp [r.a], r.fam, r.lines⟩
      exact ⟨_, φ, rfl, A, B⟩
  | mutGeom p f =>
    simp only [EState.exec, SState.exec]
    cases hp : st.objs.get p with
    | none => rw [(R.none p).mp hp]; exact ⟨st, φ, rfl, I, R⟩
    | some e =>
      obtain ⟨s, hs, r⟩ := R.get hp
      rw [hs]
      cases hl : e.l with
      | none =>
        have hf : s.fam = none := by rw [r.fam, hl]; rfl
        simp only [hl, hf]
        exact ⟨st, φ, rfl, I, R⟩
      | some a =>
        have hf : s.fam = some (φ a) := by rw [r.fam, hl]; rfl
        have hown := I.owned hp hl
        have hP := (R.pts a hown).1
        simp only [hl, hf, hP]
        obtain ⟨A, B⟩ := setPts_ok I R hown (f (sp.fams (φ a)))
        exact ⟨_, φ, rfl, A, B⟩

theorem run_ok (alloc : EState P → Nat) (hal : ∀ st : EState P, st.heap.get (alloc st) = none) (h : List (EOp P)) :
    ∀ (st : EState P) (sp : SState P) (φ : Nat → Nat), EInv st → Rel st sp φ →
      StepOK (erun alloc h st) (h.foldl SState.exec sp) := by
  induction h with
  | nil => intro st sp φ I R; exact ⟨st, φ, rfl, I, R⟩
  | cons op h ih =>
    intro st sp φ I R
    obtain ⟨st', φ', e, I', R'⟩ := step_ok I R alloc hal op
    simp only [erun, e]
    exact ih st' (sp.exec op) φ' I' R'

theorem init_ok (P : Type) : EInv (EState.init P) ∧ Rel (EState.init P) (SState.init P) id := by
  constructor
  · exact ⟨FMap.WF.nil, fun _ => rfl, fun a => by simp [EState.init, FMap.get], fun _ => rfl,
      fun _ h => by simp [EState.init, FMap.count] at h, fun _ _ h => by simp [EState.init, FMap.get] at h⟩
  · exact ⟨FMap.WF.nil, fun _ => by simp [EState.init, SState.init, FMap.get],
      fun _ _ _ h => by simp [EState.init, FMap.get] at h,
      fun _ _ h => by simp [EState.init, FMap.get] at h,
      fun _ h => by simp [EState.init, FMap.get] at h, fun _ => rfl⟩

/-! ### C24 -/

/-- C24. For every history of payload operations and every allocator that does not hand
out an address in use, there is no access to freed memory, double free or counter
underflow, and
* the live payloads are those of the specification, with its attributes, exactly its lines
  (sorted, without duplicates), and exactly its points;
* every transit line on a live payload is alive, and the live transit lines are those of
  the specification: freed exactly when the last payload having them is destroyed;
* a geometry object is allocated exactly while some live payload has it. -/
theorem C24_refcounts (alloc : EState P → Nat) (hal : ∀ st : EState P, st.heap.get (alloc st) = none)
    (h : List (EOp P)) :
    ∃ st, erun alloc h (EState.init P) = some st ∧
      let sp := h.foldl SState.exec (SState.init P)
      (∀ p, st.objs.get p = none ↔ sp.objs.get p = none) ∧
      (∀ p e s, st.objs.get p = some e → sp.objs.get p = some s →
        e.a = s.a ∧ e.lines.Pairwise (· < ·) ∧ (∀ l, l ∈ e.lines ↔ l ∈ s.lines) ∧
        e.l.map st.heap.get = s.fam.map fun f => some (sp.fams f)) ∧
      (∀ p e l, st.objs.get p = some e → l ∈ e.lines → st.tlive l = true) ∧
      (∀ l, st.tlive l = sp.alive l) ∧
      (∀ a, st.heap.get a ≠ none ↔ ∃ p e, st.objs.get p = some e ∧ e.l = some a) := by
  obtain ⟨I0, R0⟩ := init_ok P
  obtain ⟨st, φ, e, I, R⟩ := run_ok alloc hal h _ _ _ I0 R0
  refine ⟨st, e, R.none, ?_, ?_, R.alive, ?_⟩
  · intro p e s he hs
    have r := R.obj p e s he hs
    refine ⟨r.a, I.nd p e he, r.lines, ?_⟩
    rw [r.fam]
    cases hl : e.l with
    | none => rfl
    | some a => simp [(R.pts a (I.owned he hl)).1]
  · intro p e l he hl
    exact I.tl l ((FMap.count_pos_iff I.wf _).mpr ⟨p, e, he, by simp [usesLine, hl]⟩)
  · intro a
    rw [I.hp, I.fl, FMap.count_pos_iff I.wf]
    simp only [usesGeo, decide_eq_true_eq]

/-- C24. Payloads that were never copied flat do not share geometry: with only deep copies
(all the program makes) different payloads have different geometries. -/
theorem C24_deep_copies_independent (h : List (EOp P))
    (hd : ∀ p q, EOp.copy p q true ∉ h) :
    let sp := h.foldl SState.exec (SState.init P)
    ∀ p q s t f, sp.objs.get p = some s → sp.objs.get q = some t → s.fam = some f → t.fam = some f → p = q := by
  have key : ∀ (h : List (EOp P)) (sp : SState P), (∀ p q, EOp.copy p q true ∉ h) →
      ((∀ p s f, sp.objs.get p = some s → s.fam = some f → f < sp.next) ∧
       ∀ p q s t f, sp.objs.get p = some s → sp.objs.get q = some t → s.fam = some f → t.fam = some f → p = q) →
      ∀ p q s t f, (h.foldl SState.exec sp).objs.get p = some s → (h.foldl SState.exec sp).objs.get q = some t →
        s.fam = some f → t.fam = some f → p = q := by
    intro h
    induction h with
    | nil => intro sp _ hi; exact hi.2
    | cons op h ih =>
      intro sp hd hi
      refine ih (sp.exec op) (fun p q hm => hd p q (by simp [hm])) ?_
      obtain ⟨hlt, hin⟩ := hi
      -- a payload put with an old geometry of its own, a fresh one, or none
      have put_none : ∀ (p : Nat) (s' : SObj) (fams' : Nat → List P), s'.fam = none →
          (∀ q t f, (sp.objs.put p s').get q = some t → t.fam = some f → f < sp.next) ∧
          ∀ q r t u f, (sp.objs.put p s').get q = some t → (sp.objs.put p s').get r = some u →
            t.fam = some f → u.fam = some f → q = r := by
        intro p s' _ hf
        constructor
        · intro q t f hq ht
          rw [FMap.get_put] at hq
          split at hq
          · cases hq; rw [hf] at ht; cases ht
          · exact hlt q t f hq ht
        · intro q r t u f hq hr ht hu
          rw [FMap.get_put] at hq hr
          split at hq
          · cases hq; rw [hf] at ht; cases ht
          · split at hr
            · cases hr; rw [hf] at hu; cases hu
            · exact hin q r t u f hq hr ht hu
      have put_fresh : ∀ (p : Nat) (s' : SObj), s'.fam = some sp.next →
          (∀ q t f, (sp.objs.put p s').get q = some t → t.fam = some f → f < sp.next + 1) ∧
          ∀ q r t u f, (sp.objs.put p s').get q = some t → (sp.objs.put p s').get r = some u →
            t.fam = some f → u.fam = some f → q = r := by
        intro p s' hf
        constructor
        · intro q t f hq ht
          rw [FMap.get_put] at hq
          split at hq
          · cases hq; rw [hf] at ht; cases ht; omega
          · have := hlt q t f hq ht; omega
        · intro q r t u f hq hr ht hu
          rw [FMap.get_put] at hq hr
          split at hq
          · rename_i e1
            cases hq; rw [hf] at ht; cases ht
            split at hr
            · rename_i e2; rw [e1, e2]
            · have := hlt r u _ hr hu; omega
          · split at hr
            · cases hr; rw [hf] at hu; cases hu
              have := hlt q t _ hq ht; omega
            · exact hin q r t u f hq hr ht hu
      have put_same : ∀ (p : Nat) (s s' : SObj), sp.objs.get p = some s → s'.fam = s.fam →
          (∀ q t f, (sp.objs.put p s').get q = some t → t.fam = some f → f < sp.next) ∧
          ∀ q r t u f, (sp.objs.put p s').get q = some t → (sp.objs.put p s').get r = some u →
            t.fam = some f → u.fam = some f → q = r := by
        intro p s s' hp hf
        have conv : ∀ q t, (sp.objs.put p s').get q = some t → ∃ t', sp.objs.get q = some t' ∧ t'.fam = t.fam := by
          intro q t hq
          rw [FMap.get_put] at hq
          split at hq
          · rename_i e1; cases hq; exact ⟨s, e1 ▸ hp, hf.symm⟩
          · exact ⟨t, hq, rfl⟩
        constructor
        · intro q t f hq ht
          obtain ⟨t', a, b⟩ := conv q t hq
          exact hlt q t' f a (b.trans ht)
        · intro q r t u f hq hr ht hu
          obtain ⟨t', a, b⟩ := conv q t hq
          obtain ⟨u', c, d⟩ := conv r u hr
          exact hin q r t' u' f a c (b.trans ht) (d.trans hu)
      have cp : ∀ (s : SObj) (q : Nat) (at' : Attrs),
          (∀ p t f, (sp.copyTo s q false at').objs.get p = some t → t.fam = some f →
            f < (sp.copyTo s q false at').next) ∧
          ∀ p r t u f, (sp.copyTo s q false at').objs.get p = some t →
            (sp.copyTo s q false at').objs.get r = some u → t.fam = some f → u.fam = some f → p = r := by
        intro s q at'
        unfold SState.copyTo
        cases s.fam with
        | none => exact put_none q ⟨at', none, s.lines⟩ sp.fams rfl
        | some f => exact put_fresh q ⟨at', some sp.next, s.lines⟩ rfl
      cases op with
      | new p =>
        simp only [SState.exec]
        split
        · exact ⟨hlt, hin⟩
        · exact put_none p _ sp.fams rfl
      | copy p q flat =>
        have : flat = false := by
          cases flat with
          | false => rfl
          | true => exact absurd (List.mem_cons_self) (hd p q)
        subst this
        simp only [SState.exec]
        split
        · exact cp _ q _
        · exact ⟨hlt, hin⟩
      | revCopy p q =>
        simp only [SState.exec]
        split
        · exact cp _ q _
        · exact ⟨hlt, hin⟩
      | destroy p =>
        simp only [SState.exec]
        split
        · exact ⟨hlt, hin⟩
        · constructor
          · intro q t f hq ht
            simp only [FMap.get_erase] at hq
            split at hq
            · cases hq
            · exact hlt q t f hq ht
          · intro q r t u f hq hr ht hu
            simp only [FMap.get_erase] at hq hr
            split at hq
            · cases hq
            · split at hr
              · cases hr
              · exact hin q r t u f hq hr ht hu
      | addPoint p x =>
        simp only [SState.exec]
        split
        · exact ⟨hlt, hin⟩
        · split
          · exact put_fresh p _ rfl
          · exact ⟨hlt, hin⟩
      | addLine p l =>
        simp only [SState.exec]
        split
        · exact ⟨hlt, hin⟩
        · rename_i s hs
          split
          · exact put_same p s _ hs rfl
          · exact ⟨hlt, hin⟩
      | newTLine l => exact ⟨hlt, hin⟩
      | setAttrs p f =>
        simp only [SState.exec]
        split
        · exact ⟨hlt, hin⟩
        · rename_i s hs
          exact put_same p s _ hs rfl
      | mutGeom p f =>
        simp only [SState.exec]
        split
        · exact ⟨hlt, hin⟩
        · split
          · exact ⟨hlt, hin⟩
          · exact ⟨hlt, hin⟩
  exact key h (SState.init P) hd ⟨fun _ _ _ hq => by simp [SState.init, FMap.get] at hq,
    fun _ _ _ _ _ hq => by simp [SState.init, FMap.get] at hq⟩

/-- Smallest unused address: an allocator that reuses freed addresses at once. -/
def firstFree (st : EState P) : Nat :=
  ((List.range (st.heap.length + 1)).find? fun a => !st.heap.keys.contains a).getD
    (st.heap.keys.foldl (· + ·) 1)

theorem firstFree_ok (st : EState P) : st.heap.get (firstFree st) = none := by
  rw [FMap.get_eq_none_iff]
  unfold firstFree
  cases h : (List.range (st.heap.length + 1)).find? fun a => !st.heap.keys.contains a with
  | some a =>
    have := List.find?_some h
    simpa using this
  | none =>
    simp only [Option.getD_none]
    have key : ∀ (l : List Nat) (n : Nat), (∀ x ∈ l, x < l.foldl (· + ·) n ∨ n = 0) ∧ n ≤ l.foldl (· + ·) n := by
      intro l
      induction l with
      | nil => intro n; simp
      | cons x l ih =>
        intro n
        obtain ⟨h1, h2⟩ := ih (n + x)
        simp only [List.foldl_cons]
        refine ⟨?_, by omega⟩
        intro y hy
        rcases List.mem_cons.mp hy with rfl | hy
        · omega
        · rcases h1 y hy with h | h
          · exact Or.inl h
          · omega
    intro hm
    rcases (key st.heap.keys 1).1 _ hm with h | h
    · exact absurd h (Nat.lt_irrefl _)
    · omega

/-- C24, finding: the class has no assignment operator of its own. After assigning one
payload to another and destroying both, the geometry is freed twice (the program never
assigns payloads). -/
theorem C24_assignment_breaks :
    ∃ (h : List (EOp Nat)) (st : EState Nat), erun firstFree h (EState.init Nat) = some st ∧
      erun firstFree [.destroy 0, .destroy 1] (st.assign 0 1) = none :=
  ⟨[.new 0, .new 1, .addPoint 0 7], _, rfl, by decide⟩

/-- Two payloads with shared lines; the first is destroyed; its line lives on through the
copy, the other line is freed, and the freed address is used again. -/
example : (erun firstFree [.newTLine 5, .newTLine 6, .new 0, .addPoint 0 7, .addLine 0 5, .copy 0 1 false,
      .addLine 0 6, .revCopy 0 2, .destroy 2, .destroy 0, .new 3, .addPoint 3 9] (EState.init Nat)).map
    (fun st => ((st.tlive 5, st.tlive 6), (st.heap : List (Nat × List Nat)),
      (st.objs.map fun p => (p.1, p.2.l, p.2.lines) : List (Nat × Option Nat × List Nat)))) =
    some ((true, false), [(0, [9]), (1, [7])], [(3, some 0, []), (1, some 1, [5])]) := by rfl

/-! ### reversed payloads (payload part of C36) -/

/-- C36. A reversed copy has the same cost, level and restriction mark, the mirrored
one-way marker, and its first and last hops are those of the original swapped (for an
original that is not itself a reversed one). -/
theorem C36_reversed (a : Attrs) (g : List P) (h : a.rev = false) :
    a.reversed.cost = a.cost ∧ a.reversed.lvl = a.lvl ∧ a.reversed.restr = a.restr ∧
    a.reversed.oneWay = flipWay a.oneWay ∧
    frontHop a.reversed.rev g = backHop a.rev g ∧ backHop a.reversed.rev g = frontHop a.rev g := by
  simp [Attrs.reversed, flipWay, frontHop, backHop, h]

/-- C36. Reversing twice restores the one-way marker and everything but the mark `rev`. -/
theorem C36_reversed_twice (a : Attrs) :
    a.reversed.reversed.oneWay = a.oneWay ∧ a.reversed.reversed.cost = a.cost ∧
    a.reversed.reversed.lvl = a.lvl ∧ a.reversed.reversed.restr = a.restr := by
  refine ⟨?_, rfl, rfl, rfl⟩
  simp only [Attrs.reversed]
  by_cases h1 : a.oneWay = 1
  · simp [h1]
  · by_cases h2 : a.oneWay = 2
    · simp [h2]
    · simp [h1, h2]

/-- C36, finding: `setRev` marks instead of toggling, so the hops of a payload reversed
twice are those of the payload reversed once. -/
theorem C36_reversed_twice_negation :
    ∃ (a : Attrs) (g : List Nat), a.rev = false ∧
      frontHop a.reversed.reversed.rev g ≠ frontHop a.rev g :=
  ⟨attrs0, [1, 2, 3, 4], rfl, by decide⟩

end Verif.Payload
