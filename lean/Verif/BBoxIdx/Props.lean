import Verif.BBoxIdx.Model

/-!
# Bounding box index (property C21)

`treeHas` descends only into the first child whose box contains the point. This is enough
because only the root ever gets more than one child: each child of the root is a chain of
nodes with equal boxes (`Chain`).
-/

namespace Verif.BBoxIdx

/-! ### specification -/

/-- The point lies in the box. -/
def InBox (p : Pt) (b : Box) : Prop := b.x1 ≤ p.x ∧ p.x ≤ b.x2 ∧ b.y1 ≤ p.y ∧ p.y ≤ b.y2

/-- The point lies in the smallest box around the boxes of `g`: no side of it is beyond
all of them. -/
def InHull (p : Pt) (g : List Box) : Prop :=
  (∃ b ∈ g, b.x1 ≤ p.x) ∧ (∃ b ∈ g, p.x ≤ b.x2) ∧ (∃ b ∈ g, b.y1 ≤ p.y) ∧ (∃ b ∈ g, p.y ≤ b.y2)

/-- `b` is the smallest box around `g`. -/
def IsHull (b : Box) (g : List Box) : Prop :=
  (∀ c ∈ g, b.x1 ≤ c.x1 ∧ c.x2 ≤ b.x2 ∧ b.y1 ≤ c.y1 ∧ c.y2 ≤ b.y2) ∧
  (∃ c ∈ g, b.x1 = c.x1) ∧ (∃ c ∈ g, b.x2 = c.x2) ∧ (∃ c ∈ g, b.y1 = c.y1) ∧ ∃ c ∈ g, b.y2 = c.y2

/-! ### proofs -/

/-- A chain of `n + 1` nodes with the box `b`. -/
def Chain (b : Box) : Nat → Nd → Prop
  | 0, nd => nd = .mk (some b) []
  | n + 1, nd => ∃ c, nd = .mk (some b) [c] ∧ Chain b n c

theorem Chain.box {b : Box} {n : Nat} {nd : Nd} (h : Chain b n nd) : nd.box = some b := by
  cases n with
  | zero => rw [h]; rfl
  | succ n => obtain ⟨c, rfl, _⟩ := h; rfl

theorem Chain.treeHas {b : Box} (p : Pt) {n : Nat} : ∀ {nd : Nd}, Chain b n nd →
    treeHas p nd = contains p (some b) := by
  induction n with
  | zero => intro nd h; rw [h, BBoxIdx.treeHas]
  | succ n ih =>
    intro nd h
    obtain ⟨c, rfl, hc⟩ := h
    rw [BBoxIdx.treeHas, hc.box, ih hc, treeHasL]
    by_cases hp : contains p (some b) = true
    · simp [hp]
    · simp [hp]

theorem Chain.leafs {b : Box} {n : Nat} : ∀ {nd : Nd}, Chain b n nd → leafs nd = [some b] := by
  induction n with
  | zero => intro nd h; rw [h, BBoxIdx.leafs]
  | succ n ih =>
    intro nd h
    obtain ⟨c, rfl, hc⟩ := h
    rw [BBoxIdx.leafs, ih hc, leafsL]; rfl

theorem extend_self (b : Box) : extendBox b (some b) = b := by
  simp [extendBox]

theorem Chain.new (area : Box → Option Box → Int) (b : Box) (n : Nat) :
    Chain b n (addToTree area b n (.mk (some b) [])) := by
  induction n with
  | zero => simp [addToTree, Chain, extend_self]
  | succ n ih => exact ⟨_, by simp only [addToTree, bestChild, extend_self]; rfl, ih⟩

/-- Insertion into a chain whose box has common area with the new one. -/
theorem Chain.add {area : Box → Option Box → Int} {b box : Box} (ha : area box (some b) > 0) :
    ∀ {n : Nat} {nd : Nd}, Chain b n nd → Chain (extendBox box (some b)) n (addToTree area box n nd) := by
  intro n
  induction n with
  | zero => intro nd h; rw [h]; rfl
  | succ n ih =>
    intro nd h
    obtain ⟨c, rfl, hc⟩ := h
    have hbc : bestChild area box [c] 0 none = some (0, area box (some b)) := by
      simp [bestChild, bestArea, hc.box, ha]
    refine ⟨addToTree area box n c, ?_, ih hc⟩
    simp [addToTree, hbc]

/-- The root: its children are chains of the given boxes. -/
def Chains (cs : List Nd) (bs : List Box) : Prop :=
  cs.length = bs.length ∧ ∀ (i : Nat) b, bs[i]? = some b → ∃ c, cs[i]? = some c ∧ Chain b 4 c

theorem bestChild_spec (area : Box → Option Box → Int) (box : Box) : ∀ (cs : List Nd) (i : Nat)
    (best : Option (Nat × Int)), (∀ v, best = some v → 0 < v.2) →
    match bestChild area box cs i best with
    | none => best = none ∧ ∀ c ∈ cs, area box c.box ≤ 0
    | some (k, a) => 0 < a ∧ (∀ c ∈ cs, area box c.box ≤ a) ∧ (∀ v, best = some v → v.2 ≤ a) ∧
        (best = some (k, a) ∨ ∃ (j : Nat) (c : Nd), cs[j]? = some c ∧ k = i + j ∧ area box c.box = a) := by
  intro cs
  induction cs with
  | nil =>
    intro i best hb
    simp only [bestChild]
    cases best with
    | none => simp
    | some v => exact ⟨hb v rfl, by simp, by simp, Or.inl rfl⟩
  | cons c cs ih =>
    intro i best hb
    simp only [bestChild]
    by_cases hcur : area box c.box > 0 ∧ area box c.box > bestArea best
    · rw [if_pos hcur]
      have := ih (i + 1) (some (i, area box c.box)) (by intro v hv; cases hv; exact hcur.1)
      revert this
      cases bestChild area box cs (i + 1) (some (i, area box c.box)) with
      | none => rintro ⟨h, _⟩; cases h
      | some r =>
        obtain ⟨k, a⟩ := r
        rintro ⟨h1, h2, h3, h4⟩
        have hca := h3 _ rfl
        refine ⟨h1, ?_, ?_, Or.inr ?_⟩
        · intro d hd
          rcases List.mem_cons.mp hd with rfl | hd
          · exact hca
          · exact h2 d hd
        · intro v hv
          have := hcur.2
          rw [hv] at this
          simp only [bestArea] at this hca ⊢
          omega
        · rcases h4 with h4 | ⟨j, d, hj, hk, hd⟩
          · simp only [Option.some.injEq, Prod.mk.injEq] at h4
            exact ⟨0, c, rfl, by omega, h4.2⟩
          · exact ⟨j + 1, d, by simpa using hj, by omega, hd⟩
    · rw [if_neg hcur]
      have := ih (i + 1) best hb
      revert this
      cases hbc : bestChild area box cs (i + 1) best with
      | none =>
        rintro ⟨h1, h2⟩
        refine ⟨h1, ?_⟩
        intro d hd
        rcases List.mem_cons.mp hd with rfl | hd
        · subst h1
          simp only [bestArea, and_self] at hcur
          omega
        · exact h2 d hd
      | some r =>
        obtain ⟨k, a⟩ := r
        rintro ⟨h1, h2, h3, h4⟩
        refine ⟨h1, ?_, h3, ?_⟩
        · intro d hd
          rcases List.mem_cons.mp hd with rfl | hd
          · cases hbest : best with
            | none => rw [hbest] at hcur; simp only [bestArea, and_self] at hcur; omega
            | some v =>
              have h5 := h3 v hbest
              have h6 := hb v hbest
              rw [hbest] at hcur
              simp only [bestArea] at hcur
              omega
          · exact h2 d hd
        · rcases h4 with h4 | ⟨j, d, hj, hk, hd⟩
          · exact Or.inl h4
          · exact Or.inr ⟨j + 1, d, by simpa using hj, by omega, hd⟩

/-- One insertion, on the boxes of the groups. -/
def Step (area : Box → Option Box → Int) (box : Box) (bs bs' : List Box) : Prop :=
  ((∀ b ∈ bs, area box (some b) ≤ 0) ∧ bs' = bs ++ [box]) ∨
  ∃ (i : Nat) (b : Box), bs[i]? = some b ∧ 0 < area box (some b) ∧
    (∀ c ∈ bs, area box (some c) ≤ area box (some b)) ∧ bs' = bs.set i (extendBox box (some b))

theorem add_step (area : Box → Option Box → Int) (box : Box) (b : Option Box) (cs : List Nd) (bs : List Box)
    (h : Chains cs bs) : ∃ cs' bs', addToTree area box maxLvl (.mk b cs) = .mk (some (extendBox box b)) cs' ∧
      Chains cs' bs' ∧ Step area box bs bs' := by
  obtain ⟨hl, hc⟩ := h
  have hbox : ∀ (i : Nat) x, bs[i]? = some x → ∀ c, cs[i]? = some c → c.box = some x := by
    intro i x hx c hci
    obtain ⟨d, hd, hch⟩ := hc i x hx
    rw [hci] at hd; cases hd; exact hch.box
  have hmem : ∀ x ∈ bs, ∃ c ∈ cs, c.box = some x := by
    intro x hx
    obtain ⟨i, hi⟩ := List.getElem?_of_mem hx
    obtain ⟨d, hd, hch⟩ := hc i x hi
    exact ⟨d, List.mem_of_getElem? hd, hch.box⟩
  have hs := bestChild_spec area box cs 0 none (by simp)
  cases hb : bestChild area box cs 0 none with
  | none =>
    rw [hb] at hs
    refine ⟨_, bs ++ [box], by simp only [maxLvl, addToTree, hb]; rfl, ?_, Or.inl ⟨?_, rfl⟩⟩
    · refine ⟨by simp [hl], ?_⟩
      intro i x hx
      by_cases hi : i < bs.length
      · rw [List.getElem?_append_left hi] at hx
        obtain ⟨d, hd, hch⟩ := hc i x hx
        exact ⟨d, by rw [List.getElem?_append_left (by omega)]; exact hd, hch⟩
      · have : i = bs.length := by
          have := (List.getElem?_eq_some_iff.mp hx).1
          simp at this; omega
        subst this
        simp only [List.getElem?_concat_length, Option.some.injEq] at hx
        subst hx
        exact ⟨_, by rw [← hl]; simp; rfl, Chain.new area box 4⟩
    · intro x hx
      obtain ⟨c, hcm, hcb⟩ := hmem x hx
      rw [← hcb]; exact hs.2 c hcm
  | some r =>
    obtain ⟨k, a⟩ := r
    rw [hb] at hs
    obtain ⟨h1, h2, _, h4⟩ := hs
    rcases h4 with h4 | ⟨j, c, hj, hk, hca⟩
    · cases h4
    · have hkj : k = j := by omega
      subst hkj
      have hjl := (List.getElem?_eq_some_iff.mp hj).1
      have hbj : bs[k]? = some (bs[k]'(by omega)) := List.getElem?_eq_getElem _
      generalize bs[k]'(by omega) = x at hbj
      have hcx := hbox k x hbj c hj
      rw [hcx] at hca
      refine ⟨_, bs.set k (extendBox box (some x)), by simp only [maxLvl, addToTree, hb]; rfl, ?_,
        Or.inr ⟨k, x, hbj, by omega, ?_, rfl⟩⟩
      · refine ⟨by simp [hl], ?_⟩
        intro i y hy
        by_cases hik : i = k
        · subst hik
          rw [List.getElem?_set_self (by omega)] at hy
          cases hy
          obtain ⟨d, hd, hch⟩ := hc i x hbj
          refine ⟨addToTree area box 4 d, ?_, Chain.add (by omega) hch⟩
          rw [List.getElem?_modify_eq, hd]; rfl
        · rw [List.getElem?_set_ne (fun e => hik e.symm)] at hy
          obtain ⟨d, hd, hch⟩ := hc i y hy
          exact ⟨d, by rw [List.getElem?_modify_ne _ _ (fun e => hik e.symm)]; exact hd, hch⟩
      · intro y hy
        obtain ⟨d, hdm, hdb⟩ := hmem y hy
        have := h2 d hdm
        rw [hdb] at this
        omega

theorem leafsL_eq : ∀ (cs : List Nd) (bs : List Box), Chains cs bs → leafsL cs = bs.map some := by
  intro cs
  induction cs with
  | nil => intro bs h; cases bs with
    | nil => rfl
    | cons b bs => have := h.1; simp at this
  | cons c cs ih =>
    intro bs h
    cases bs with
    | nil => have := h.1; simp at this
    | cons b bs =>
      obtain ⟨d, hd, hch⟩ := h.2 0 b rfl
      simp only [List.getElem?_cons_zero, Option.some.injEq] at hd
      subst hd
      rw [leafsL, hch.leafs, ih bs ⟨by have := h.1; simpa using this, fun i x hx => by
        have := h.2 (i + 1) x (by simpa using hx); simpa using this⟩]
      rfl

theorem leafs_eq (b : Option Box) (cs : List Nd) (bs : List Box) (h : Chains cs bs) (hne : bs ≠ []) :
    leafs (.mk b cs) = bs.map some := by
  cases cs with
  | nil => have := h.1; cases bs <;> simp_all
  | cons c cs => rw [leafs, ← leafsL_eq (c :: cs) bs h, leafsL]

theorem treeHasL_eq (p : Pt) : ∀ (cs : List Nd) (bs : List Box), Chains cs bs →
    (treeHasL p cs = true ↔ ∃ b ∈ bs, InBox p b) := by
  intro cs
  induction cs with
  | nil => intro bs h; cases bs with
    | nil => simp [treeHasL]
    | cons b bs => have := h.1; simp at this
  | cons c cs ih =>
    intro bs h
    cases bs with
    | nil => have := h.1; simp at this
    | cons b bs =>
      obtain ⟨d, hd, hch⟩ := h.2 0 b rfl
      simp only [List.getElem?_cons_zero, Option.some.injEq] at hd
      subst hd
      have ih := ih bs ⟨by have := h.1; simpa using this, fun i x hx => by
        have := h.2 (i + 1) x (by simpa using hx); simpa using this⟩
      have hin : contains p (some b) = true ↔ InBox p b := by simp [contains, InBox]
      rw [treeHasL, hch.box, hch.treeHas]
      by_cases hp : contains p (some b) = true
      · simp only [hp, if_true, true_iff]
        exact ⟨b, by simp, hin.mp hp⟩
      · rw [if_neg hp, ih]
        constructor
        · rintro ⟨x, hx, hi⟩; exact ⟨x, by simp [hx], hi⟩
        · rintro ⟨x, hx, hi⟩
          rcases List.mem_cons.mp hx with rfl | hx
          · exact absurd (hin.mpr hi) hp
          · exact ⟨x, hx, hi⟩

theorem treeHas_eq (p : Pt) (b : Option Box) (cs : List Nd) (bs : List Box) (h : Chains cs bs)
    (he : bs = [] → b = none) : treeHas p (.mk b cs) = true ↔ ∃ x ∈ bs, InBox p x := by
  cases cs with
  | nil =>
    have hb : bs = [] := by have := h.1; cases bs <;> simp_all
    subst hb
    rw [treeHas, he rfl]; simp [contains]
  | cons c cs =>
    rw [← treeHasL_eq p (c :: cs) bs h, treeHas, treeHasL]

theorem IsHull.extend {box b : Box} {g : List Box} (h : IsHull b g) :
    IsHull (extendBox box (some b)) (box :: g) := by
  obtain ⟨h0, ⟨c1, m1, e1⟩, ⟨c2, m2, e2⟩, ⟨c3, m3, e3⟩, ⟨c4, m4, e4⟩⟩ := h
  refine ⟨?_, ?_, ?_, ?_, ?_⟩
  · intro c hc
    simp only [extendBox]
    rcases List.mem_cons.mp hc with rfl | hc
    · omega
    · have := h0 c hc; omega
  · simp only [extendBox]
    rcases Int.le_total box.x1 b.x1 with hle | hle
    · exact ⟨box, by simp, by omega⟩
    · exact ⟨c1, by simp [m1], by omega⟩
  · simp only [extendBox]
    rcases Int.le_total b.x2 box.x2 with hle | hle
    · exact ⟨box, by simp, by omega⟩
    · exact ⟨c2, by simp [m2], by omega⟩
  · simp only [extendBox]
    rcases Int.le_total box.y1 b.y1 with hle | hle
    · exact ⟨box, by simp, by omega⟩
    · exact ⟨c3, by simp [m3], by omega⟩
  · simp only [extendBox]
    rcases Int.le_total b.y2 box.y2 with hle | hle
    · exact ⟨box, by simp, by omega⟩
    · exact ⟨c4, by simp [m4], by omega⟩

theorem IsHull.single (b : Box) : IsHull b [b] := by
  refine ⟨?_, ⟨b, by simp, rfl⟩, ⟨b, by simp, rfl⟩, ⟨b, by simp, rfl⟩, ⟨b, by simp, rfl⟩⟩
  intro c hc
  simp only [List.mem_singleton] at hc
  subst hc; omega

theorem IsHull.in {b : Box} {g : List Box} (h : IsHull b g) (p : Pt) : InBox p b ↔ InHull p g := by
  obtain ⟨h0, ⟨c1, m1, e1⟩, ⟨c2, m2, e2⟩, ⟨c3, m3, e3⟩, ⟨c4, m4, e4⟩⟩ := h
  constructor
  · rintro ⟨a1, a2, a3, a4⟩
    exact ⟨⟨c1, m1, by omega⟩, ⟨c2, m2, by omega⟩, ⟨c3, m3, by omega⟩, ⟨c4, m4, by omega⟩⟩
  · rintro ⟨⟨d1, n1, a1⟩, ⟨d2, n2, a2⟩, ⟨d3, n3, a3⟩, ⟨d4, n4, a4⟩⟩
    have := h0 d1 n1; have := h0 d2 n2; have := h0 d3 n3; have := h0 d4 n4
    exact ⟨by omega, by omega, by omega, by omega⟩

theorem IsHull.perm {b : Box} {g g' : List Box} (h : IsHull b g) (hp : g.Perm g') : IsHull b g' := by
  obtain ⟨h0, ⟨c1, m1, e1⟩, ⟨c2, m2, e2⟩, ⟨c3, m3, e3⟩, ⟨c4, m4, e4⟩⟩ := h
  exact ⟨fun c hc => h0 c (hp.mem_iff.mpr hc), ⟨c1, hp.mem_iff.mp m1, e1⟩, ⟨c2, hp.mem_iff.mp m2, e2⟩,
    ⟨c3, hp.mem_iff.mp m3, e3⟩, ⟨c4, hp.mem_iff.mp m4, e4⟩⟩

/-- The groups of boxes below the children of the root. -/
structure Inv (boxes : List Box) (nd : Nd) (bs : List Box) (gs : List (List Box)) : Prop where
  chains : Chains nd.childs bs
  len : gs.length = bs.length
  hull : ∀ (i : Nat) b g, bs[i]? = some b → gs[i]? = some g → IsHull b g
  part : gs.flatten.Perm boxes
  root : match nd.box with | none => boxes = [] | some b => IsHull b boxes

theorem flatten_set_perm {gs : List (List Box)} {k : Nat} {g : List Box} (x : Box) (h : gs[k]? = some g) :
    (gs.set k (x :: g)).flatten.Perm (x :: gs.flatten) := by
  induction gs generalizing k with
  | nil => simp at h
  | cons a gs ih =>
    cases k with
    | zero =>
      simp only [List.getElem?_cons_zero, Option.some.injEq] at h
      subst h
      simp
    | succ k =>
      simp only [List.getElem?_cons_succ] at h
      simp only [List.set_cons_succ, List.flatten_cons]
      refine ((ih h).append_left a).trans ?_
      exact List.perm_middle

theorem build_inv (area : Box → Option Box → Int) (boxes : List Box) :
    ∃ bs gs, Inv boxes (build area boxes) bs gs := by
  have key : ∀ k : List Box, ∃ bs gs, Inv k.reverse (build area k.reverse) bs gs := by
    intro k
    induction k with
    | nil =>
      exact ⟨[], [], ⟨rfl, by simp⟩, rfl, by simp, List.Perm.refl _, rfl⟩
    | cons x k ih =>
      obtain ⟨bs, gs, I⟩ := ih
      rw [List.reverse_cons]
      have hb : build area (k.reverse ++ [x]) = addToTree area x maxLvl (build area k.reverse) := by
        simp [build, List.foldl_append]
      rw [hb]
      generalize hnd : build area k.reverse = nd at I
      generalize k.reverse = done at I
      obtain ⟨rb, cs⟩ := nd
      obtain ⟨cs', bs', he, hch, hstep⟩ := add_step area x rb cs bs I.chains
      rw [he]
      have hroot : match (Nd.mk (some (extendBox x rb)) cs').box with
          | none => done ++ [x] = [] | some b => IsHull b (done ++ [x]) := by
        have hr := I.root
        simp only [Nd.box] at hr ⊢
        cases rb with
        | none => simp only at hr; subst hr; exact IsHull.single x
        | some b =>
          simp only at hr
          exact hr.extend.perm (List.perm_append_singleton x done).symm
      rcases hstep with ⟨_, rfl⟩ | ⟨i, b, hbi, _, _, rfl⟩
      · refine ⟨bs ++ [x], gs ++ [[x]], hch, by simp [I.len], ?_, ?_, hroot⟩
        · intro j b g hj hg
          have hl := I.len
          by_cases hlt : j < bs.length
          · rw [List.getElem?_append_left hlt] at hj
            rw [List.getElem?_append_left (by omega)] at hg
            exact I.hull j b g hj hg
          · have : j = bs.length := by
              have := (List.getElem?_eq_some_iff.mp hj).1
              simp at this; omega
            subst this
            simp only [List.getElem?_concat_length, Option.some.injEq] at hj
            rw [← hl] at hg
            simp only [List.getElem?_concat_length, Option.some.injEq] at hg
            subst hj; subst hg
            exact IsHull.single x
        · simp only [List.flatten_append, List.flatten_cons, List.flatten_nil, List.append_nil]
          exact I.part.append_right [x]
      · have hl := I.len
        have hil := (List.getElem?_eq_some_iff.mp hbi).1
        have hgi : gs[i]? = some (gs[i]'(by omega)) := List.getElem?_eq_getElem _
        generalize gs[i]'(by omega) = g at hgi
        refine ⟨_, gs.set i (x :: g), hch, by simp [hl], ?_, ?_, hroot⟩
        · intro j b' g' hj hg
          by_cases hji : j = i
          · subst hji
            rw [List.getElem?_set_self (by omega)] at hj hg
            cases hj; cases hg
            exact (I.hull j b g hbi hgi).extend
          · rw [List.getElem?_set_ne (fun e => hji e.symm)] at hj hg
            exact I.hull j b' g' hj hg
        · refine (flatten_set_perm x hgi).trans ?_
          exact (I.part.cons x).trans (List.perm_append_singleton x done).symm
  have := key boxes.reverse
  simpa using this

/-! ### C21 -/

/-- C21. The added boxes are partitioned into groups such that a point is reported iff it
lies in the smallest box around one group. -/
theorem C21_reported (area : Box → Option Box → Int) (boxes : List Box) :
    ∃ gs : List (List Box), gs.flatten.Perm boxes ∧ (∀ g ∈ gs, g ≠ []) ∧
      ∀ p, treeHas p (build area boxes) = true ↔ ∃ g ∈ gs, InHull p g := by
  obtain ⟨bs, gs, I⟩ := build_inv area boxes
  refine ⟨gs, I.part, ?_, ?_⟩
  · intro g hg
    obtain ⟨i, hi⟩ := List.getElem?_of_mem hg
    have hil := (List.getElem?_eq_some_iff.mp hi).1
    have hl := I.len
    have hbi : bs[i]? = some (bs[i]'(by omega)) := List.getElem?_eq_getElem _
    obtain ⟨_, ⟨c, hc, _⟩, _⟩ := I.hull i _ g hbi hi
    exact List.ne_nil_of_mem hc
  · intro p
    generalize hnd : build area boxes = nd at I
    obtain ⟨rb, cs⟩ := nd
    have hr := I.root
    have hempty : bs = [] → rb = none := by
      intro hb
      have hl := I.len
      have hg : gs = [] := by rw [hb] at hl; cases gs <;> simp_all
      have hp := I.part
      rw [hg] at hp
      have hbx : boxes = [] := List.eq_nil_of_length_eq_zero (by simpa using hp.length_eq.symm)
      cases rb with
      | none => rfl
      | some b =>
        simp only [Nd.box] at hr
        obtain ⟨_, ⟨c, hc, _⟩, _⟩ := hr
        rw [hbx] at hc; simp at hc
    rw [treeHas_eq p rb cs bs I.chains hempty]
    have hl := I.len
    constructor
    · rintro ⟨b, hb, hin⟩
      obtain ⟨i, hi⟩ := List.getElem?_of_mem hb
      have hil := (List.getElem?_eq_some_iff.mp hi).1
      have hgi : gs[i]? = some (gs[i]'(by omega)) := List.getElem?_eq_getElem _
      exact ⟨_, List.mem_of_getElem? hgi, ((I.hull i b _ hi hgi).in p).mp hin⟩
    · rintro ⟨g, hg, hin⟩
      obtain ⟨i, hi⟩ := List.getElem?_of_mem hg
      have hil := (List.getElem?_eq_some_iff.mp hi).1
      have hbi : bs[i]? = some (bs[i]'(by omega)) := List.getElem?_eq_getElem _
      exact ⟨_, List.mem_of_getElem? hbi, ((I.hull i _ g hbi hi).in p).mpr hin⟩

/-- C21. A point inside an added box is reported. -/
theorem C21_covers (area : Box → Option Box → Int) (boxes : List Box) (b : Box) (hb : b ∈ boxes) (p : Pt)
    (hp : InBox p b) : treeHas p (build area boxes) = true := by
  obtain ⟨gs, hperm, _, h⟩ := C21_reported area boxes
  rw [h]
  obtain ⟨g, hg, hbg⟩ := List.mem_flatten.mp (hperm.mem_iff.mpr hb)
  obtain ⟨h1, h2, h3, h4⟩ := hp
  exact ⟨g, hg, ⟨b, hbg, h1⟩, ⟨b, hbg, h2⟩, ⟨b, hbg, h3⟩, ⟨b, hbg, h4⟩⟩

/-- C21. The full box is the smallest box around all added boxes (and there is none before
the first one was added). -/
theorem C21_full_box (area : Box → Option Box → Int) (boxes : List Box) :
    match (build area boxes).box with
    | none => boxes = []
    | some b => IsHull b boxes := by
  obtain ⟨bs, gs, I⟩ := build_inv area boxes
  exact I.root

/-- C21. Adding a box: if it shares no area with the reported boxes it becomes a reported
box of its own, otherwise the one with the largest common area is extended by it and the
others are kept. A point is reported iff it lies in a reported box. -/
theorem C21_leafs (area : Box → Option Box → Int) (boxes : List Box) (box : Box) :
    ∃ bs bs', (boxes ≠ [] → leafs (build area boxes) = bs.map some) ∧ (boxes = [] → bs = []) ∧
      leafs (build area (boxes ++ [box])) = bs'.map some ∧
      (((∀ b ∈ bs, area box (some b) ≤ 0) ∧ bs' = bs ++ [box]) ∨
        ∃ (i : Nat) (b c : Box), bs[i]? = some b ∧ 0 < area box (some b) ∧
          (∀ d ∈ bs, area box (some d) ≤ area box (some b)) ∧ bs' = bs.set i c ∧ IsHull c [box, b]) ∧
      ∀ p, treeHas p (build area (boxes ++ [box])) = true ↔ ∃ b ∈ bs', InBox p b := by
  obtain ⟨bs, gs, I⟩ := build_inv area boxes
  have hb : build area (boxes ++ [box]) = addToTree area box maxLvl (build area boxes) := by
    simp [build, List.foldl_append]
  rw [hb]
  generalize hnd : build area boxes = nd at I
  obtain ⟨rb, cs⟩ := nd
  have hl := I.len
  have hpart := I.part
  have e1 : boxes = [] → bs = [] := by
    intro he
    cases bs with
    | nil => rfl
    | cons b bs =>
      cases gs with
      | nil => simp at hl
      | cons g gs =>
        obtain ⟨_, ⟨c, hc, _⟩, _⟩ := I.hull 0 b g rfl rfl
        rw [he] at hpart
        have := hpart.mem_iff.mp (List.mem_flatten.mpr ⟨g, by simp, hc⟩)
        simp at this
  have e2 : bs = [] → boxes = [] := by
    intro he
    have : gs = [] := by rw [he] at hl; cases gs <;> simp_all
    rw [this] at hpart
    exact List.eq_nil_of_length_eq_zero (by simpa using hpart.length_eq.symm)
  obtain ⟨cs', bs', he, hch, hstep⟩ := add_step area box rb cs bs I.chains
  have hne : bs' ≠ [] := by
    rcases hstep with ⟨_, rfl⟩ | ⟨i, b, hbi, _, _, rfl⟩
    · simp
    · have := (List.getElem?_eq_some_iff.mp hbi).1
      intro hc
      have h0 := congrArg List.length hc
      simp at h0; rw [h0] at this; simp at this
  rw [he]
  refine ⟨bs, bs', ?_, e1, leafs_eq _ cs' bs' hch hne, ?_, ?_⟩
  · intro hbx
    exact leafs_eq rb cs bs I.chains (fun h => hbx (e2 h))
  · rcases hstep with h | ⟨i, b, hbi, h1, h2, rfl⟩
    · exact Or.inl h
    · exact Or.inr ⟨i, b, _, hbi, h1, h2, rfl, (IsHull.single b).extend⟩
  · intro p
    exact treeHas_eq p _ cs' bs' hch (fun h => absurd h hne)

/-! ### examples -/

/-- The common area of two boxes. -/
def exArea (a : Box) : Option Box → Int
  | none => 0
  | some b => max 0 (min a.x2 b.x2 - max a.x1 b.x1) * max 0 (min a.y2 b.y2 - max a.y1 b.y1)

def exBoxes : List Box := [⟨0, 0, 2, 2⟩, ⟨5, 5, 6, 6⟩, ⟨1, 1, 4, 3⟩, ⟨3, 0, 9, 9⟩]

/-- The last box overlaps both groups; it joins the one with the larger common area. The
point (0,3) is reported although it lies in no added box. -/
example : leafs (build exArea exBoxes) = [some ⟨0, 0, 9, 9⟩, some ⟨5, 5, 6, 6⟩] := by rfl

example : treeHas ⟨0, 3⟩ (build exArea exBoxes) = true ∧ ∀ b ∈ exBoxes, ¬ InBox ⟨0, 3⟩ b := by
  refine ⟨by rfl, ?_⟩
  intro b hb
  simp only [exBoxes, List.mem_cons, List.not_mem_nil, or_false] at hb
  rcases hb with rfl | rfl | rfl | rfl <;> simp [InBox]

end Verif.BBoxIdx
