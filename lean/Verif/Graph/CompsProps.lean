import Verif.Graph.Comps

/-!
# Component labelling (property C34)
-/

set_option linter.unusedSectionVars false

namespace Verif.Graph
variable {N E : Type} [DecidableEq N]

/-! ### specification -/

/-- The two nodes are the ends of an edge. -/
def Adj (g : Gr N E) (a b : N) : Prop := ∃ e, (e ∈ g.outs a ∧ g.dst e = b) ∨ (e ∈ g.ins a ∧ g.src e = b)

/-- Connected, ignoring directions. -/
inductive Conn (g : Gr N E) : N → N → Prop where
  | refl (a) : Conn g a a
  | step {a b c} : Conn g a b → Adj g b c → Conn g a c

theorem Adj.symm {g : Gr N E} (wf : g.WF) {a b : N} (h : Adj g a b) : Adj g b a := by
  obtain ⟨e, ⟨h1, h2⟩ | ⟨h1, h2⟩⟩ := h
  · obtain ⟨h3, _, h4⟩ := wf.outs _ _ h1
    subst h2
    exact ⟨e, Or.inr ⟨h4, h3⟩⟩
  · obtain ⟨h3, _, h4⟩ := wf.ins _ _ h1
    subst h2
    exact ⟨e, Or.inl ⟨h4, h3⟩⟩

theorem Conn.trans {g : Gr N E} {a b c : N} (h : Conn g a b) (h' : Conn g b c) : Conn g a c := by
  induction h' with
  | refl => exact h
  | step _ hs ih => exact .step ih hs

theorem Conn.symm {g : Gr N E} (wf : g.WF) {a b : N} (h : Conn g a b) : Conn g b a := by
  induction h with
  | refl => exact .refl _
  | step _ hs ih => exact Conn.trans (.step (.refl _) (hs.symm wf)) ih

/-- `e` is an edge at a node of the set. -/
def Inc (g : Gr N E) (n : N) (e : E) : Prop := e ∈ g.outs n ∨ e ∈ g.ins n

/-! ### one round -/

theorem oth_adj {g : Gr N E} (wf : g.WF) {n : N} {e : E} (h : Inc g n e) : Adj g n (g.oth n e) := by
  unfold Gr.oth
  rcases h with h | h
  · rw [if_pos (wf.outs _ _ h).1]
    exact ⟨e, Or.inl ⟨h, rfl⟩⟩
  · split
    · rename_i hs
      have := (wf.ins _ _ h).2.2
      rw [hs] at this
      exact ⟨e, Or.inl ⟨this, rfl⟩⟩
    · exact ⟨e, Or.inr ⟨h, rfl⟩⟩

theorem adj_oth {g : Gr N E} (wf : g.WF) {n m : N} (h : Adj g n m) : ∃ e, Inc g n e ∧ g.oth n e = m := by
  unfold Gr.oth
  obtain ⟨e, ⟨h1, h2⟩ | ⟨h1, h2⟩⟩ := h
  · exact ⟨e, Or.inl h1, by rw [if_pos (wf.outs _ _ h1).1]; exact h2⟩
  · refine ⟨e, Or.inr h1, ?_⟩
    have := (wf.ins _ _ h1).1
    split
    · rename_i hs; rw [this, ← hs, h2]
    · exact h2

theorem look_fold (g : Gr N E) (comp : N → Nat) (cur : N) : ∀ (es : List E) (m : Rat) (st : List N),
    ∃ ps, (es.foldl (look g comp cur) (m, st)).2 = ps ++ st ∧ ps.length ≤ es.length ∧
      (∀ x, x ∈ ps ↔ comp x = 0 ∧ ∃ e ∈ es, g.oth cur e = x) ∧
      m ≤ (es.foldl (look g comp cur) (m, st)).1 ∧
      (∀ e ∈ es, g.speed e ≤ (es.foldl (look g comp cur) (m, st)).1) ∧
      ((es.foldl (look g comp cur) (m, st)).1 = m ∨ ∃ e ∈ es, g.speed e = (es.foldl (look g comp cur) (m, st)).1) := by
  intro es
  induction es with
  | nil => intro m st; exact ⟨[], by simp, by simp, by simp, Rat.le_refl, by simp, Or.inl rfl⟩
  | cons e es ih =>
    intro m st
    simp only [List.foldl_cons]
    rw [show look g comp cur (m, st) e = (if g.speed e > m then g.speed e else m,
      if comp (g.oth cur e) = 0 then g.oth cur e :: st else st) from rfl]
    obtain ⟨ps, h1, h2, h3, h4, h5, h6⟩ := ih (if g.speed e > m then g.speed e else m)
      (if comp (g.oth cur e) = 0 then g.oth cur e :: st else st)
    generalize hr : es.foldl (look g comp cur) (if g.speed e > m then g.speed e else m,
      if comp (g.oth cur e) = 0 then g.oth cur e :: st else st) = r at *
    have hm : m ≤ r.1 ∧ g.speed e ≤ r.1 := by split at h4 <;> grind
    have hmax : r.1 = m ∨ ∃ e' ∈ e :: es, g.speed e' = r.1 := by
      rcases h6 with h6 | ⟨e', he', h6⟩
      · split at h6
        · exact Or.inr ⟨e, by simp, h6.symm⟩
        · exact Or.inl h6
      · exact Or.inr ⟨e', by simp [he'], h6⟩
    have hsp : ∀ e' ∈ e :: es, g.speed e' ≤ r.1 := by
      intro e' he'
      rcases List.mem_cons.mp he' with rfl | he'
      · exact hm.2
      · exact h5 e' he'
    by_cases hc : comp (g.oth cur e) = 0
    · rw [if_pos hc] at h1
      refine ⟨ps ++ [g.oth cur e], by rw [h1]; simp, by simp; omega, ?_, hm.1, hsp, hmax⟩
      intro x
      rw [List.mem_append, h3, List.mem_singleton]
      simp only [List.mem_cons, exists_eq_or_imp]
      constructor
      · rintro (⟨h, h'⟩ | rfl)
        · exact ⟨h, Or.inr h'⟩
        · exact ⟨hc, Or.inl rfl⟩
      · rintro ⟨h, h' | h'⟩
        · exact Or.inr h'.symm
        · exact Or.inl ⟨h, h'⟩
    · rw [if_neg hc] at h1
      refine ⟨ps, h1, by simp; omega, ?_, hm.1, hsp, hmax⟩
      intro x
      simp only [h3, List.mem_cons, exists_eq_or_imp]
      constructor
      · rintro ⟨h, h'⟩; exact ⟨h, Or.inr h'⟩
      · rintro ⟨h, h' | h'⟩
        · subst h'; exact absurd h hc
        · exact ⟨h, h'⟩

/-- Effect of a round. -/
theorem round_spec (g : Gr N E) (wf : g.WF) (k : Nat) (hk : k ≠ 0) (s : LSt N) (cur : N) (rest : List N) :
    ∃ ps, (round g k s cur rest).stack = ps ++ rest ∧
      ps.length ≤ (g.outs cur).length + (g.ins cur).length ∧
      (∀ x, x ∈ ps ↔ x ≠ cur ∧ s.comp x = 0 ∧ Adj g cur x) ∧
      (round g k s cur rest).comp = (fun n => if n = cur then k else s.comp n) ∧
      (round g k s cur rest).num = s.num + 1 ∧
      s.max ≤ (round g k s cur rest).max ∧
      (∀ e, Inc g cur e → g.speed e ≤ (round g k s cur rest).max) ∧
      ((round g k s cur rest).max = s.max ∨ ∃ e, Inc g cur e ∧ g.speed e = (round g k s cur rest).max) := by
  unfold round
  simp only
  generalize hcomp : (fun n => if n = cur then k else s.comp n) = comp
  obtain ⟨p1, a1, a2, a3, a4, a5, a6⟩ := look_fold g comp cur (g.outs cur) s.max rest
  generalize hr1 : (g.outs cur).foldl (look g comp cur) (s.max, rest) = r1 at *
  obtain ⟨m1, st1⟩ := r1
  simp only at a1 a4 a5 a6
  obtain ⟨p2, b1, b2, b3, b4, b5, b6⟩ := look_fold g comp cur (g.ins cur) m1 st1
  generalize hr2 : (g.ins cur).foldl (look g comp cur) (m1, st1) = r2 at *
  refine ⟨p2 ++ p1, by rw [b1, a1]; simp, by simp; omega, ?_, trivial, trivial, by grind, ?_, ?_⟩
  · intro x
    have hx0 : comp x = 0 ↔ x ≠ cur ∧ s.comp x = 0 := by
      rw [← hcomp]
      by_cases h : x = cur
      · simp [h, hk]
      · simp [h]
    rw [List.mem_append, a3, b3, hx0]
    constructor
    · rintro (⟨⟨h1, h2⟩, e, he, rfl⟩ | ⟨⟨h1, h2⟩, e, he, rfl⟩)
      · exact ⟨h1, h2, oth_adj wf (Or.inr he)⟩
      · exact ⟨h1, h2, oth_adj wf (Or.inl he)⟩
    · rintro ⟨h1, h2, h3⟩
      obtain ⟨e, he | he, rfl⟩ := adj_oth wf h3
      · exact Or.inr ⟨⟨h1, h2⟩, e, he, rfl⟩
      · exact Or.inl ⟨⟨h1, h2⟩, e, he, rfl⟩
  · rintro e (he | he)
    · have := a5 e he; grind
    · exact b5 e he
  · rcases b6 with b6 | ⟨e, he, b6⟩
    · rcases a6 with a6 | ⟨e, he, a6⟩
      · left; rw [b6, a6]
      · right; exact ⟨e, Or.inl he, by rw [b6, a6]⟩
    · right; exact ⟨e, Or.inr he, b6⟩

/-! ### the search of one component -/

/-- Invariant of the search from `n` with label `k`, started with labels `c0`. -/
structure LInv (g : Gr N E) (n : N) (k : Nat) (c0 : N → Nat) (s : LSt N) : Prop where
  old : ∀ x, c0 x ≠ 0 → s.comp x = c0 x
  new : ∀ x, c0 x = 0 → s.comp x = 0 ∨ s.comp x = k
  conn : ∀ x, s.comp x = k → Conn g n x
  stk : ∀ x ∈ s.stack, Conn g n x ∧ (s.comp x = 0 ∨ s.comp x = k)
  nbr : ∀ x y, s.comp x = k → Adj g x y → s.comp y = 0 → y ∈ s.stack
  above : ∀ pre x post y, s.stack = pre ++ x :: post → s.comp x = k → Adj g x y → s.comp y = 0 → y ∈ pre
  start : (s.num = 0 ∧ s.stack = [n] ∧ s.comp n = 0) ∨ (s.num > 0 ∧ s.comp n = k ∧ n ∉ s.stack)
  cnt : s.num > 1 ↔ ∃ y, y ≠ n ∧ s.comp y = k
  spd : ∀ x e, s.comp x = k → Inc g x e → g.speed e ≤ s.max
  spd0 : 0 ≤ s.max
  tight : s.max = 0 ∨ ∃ x e, s.comp x = k ∧ Inc g x e ∧ g.speed e = s.max

theorem round_inv {g : Gr N E} (wf : g.WF) {n : N} {k : Nat} {c0 : N → Nat} (hk : k ≠ 0)
    (hc0 : ∀ x, c0 x < k)
    {c : N → Nat} {cur : N} {rest : List N} {m : Rat} {num : Nat}
    (I : LInv g n k c0 ⟨c, cur :: rest, m, num⟩) :
    LInv g n k c0 (round g k ⟨c, cur :: rest, m, num⟩ cur rest) := by
  obtain ⟨ps, h1, _, h3, h4, h5, h6, h7, h8⟩ := round_spec g wf k hk ⟨c, cur :: rest, m, num⟩ cur rest
  generalize round g k ⟨c, cur :: rest, m, num⟩ cur rest = s' at *
  obtain ⟨c', st', m', num'⟩ := s'
  simp only at h1 h3 h4 h5 h6 h7 h8
  subst h4 h5
  have hcc := I.stk cur (by simp)
  have hcur0 : c0 cur = 0 := by
    by_cases h : c0 cur = 0
    · exact h
    · have h1 := I.old cur h
      have h2 := hc0 cur
      have h3 := hcc.2
      simp only at h1 h3
      omega
  have hk' : ∀ x, (if x = cur then k else c x) = k → x = cur ∨ c x = k := by
    intro x h; split at h <;> simp_all
  have h0' : ∀ x, (if x = cur then k else c x) = 0 → x ≠ cur ∧ c x = 0 := by
    intro x h
    split at h
    · exact absurd h hk
    · rename_i hx; exact ⟨hx, h⟩
  constructor
  · intro x hx
    have : x ≠ cur := by rintro rfl; exact hx hcur0
    simp only [if_neg this]
    exact I.old x hx
  · intro x hx
    simp only
    split
    · exact Or.inr rfl
    · exact I.new x hx
  · intro x hx
    rcases hk' x hx with rfl | hx
    · exact hcc.1
    · exact I.conn x hx
  · intro x hx
    simp only [h1] at hx
    simp only
    rcases List.mem_append.mp hx with hx | hx
    · obtain ⟨a, b, d⟩ := (h3 x).mp hx
      exact ⟨.step hcc.1 d, by rw [if_neg a]; exact Or.inl b⟩
    · have := I.stk x (by simp [hx])
      refine ⟨this.1, ?_⟩
      split
      · exact Or.inr rfl
      · exact this.2
  · intro x y hx hxy hy
    obtain ⟨hy1, hy2⟩ := h0' y hy
    simp only [h1]
    rcases hk' x hx with rfl | hx
    · exact List.mem_append_left _ ((h3 y).mpr ⟨hy1, hy2, hxy⟩)
    · have := I.nbr x y hx hxy hy2
      simp only [List.mem_cons] at this
      exact List.mem_append_right _ (this.resolve_left hy1)
  · intro pre x post y hs hx hxy hy
    obtain ⟨hy1, hy2⟩ := h0' y hy
    simp only [h1] at hs
    simp only at hx
    rcases List.append_eq_append_iff.mp hs.symm with ⟨q, hq1, hq2⟩ | ⟨q, hq1, hq2⟩
    · -- `x` among the new ones
      cases q with
      | nil =>
        simp only [List.append_nil] at hq1
        simp only [List.nil_append] at hq2
        -- x is the first of rest
        rw [hq1] at h3
        rcases hk' x hx with rfl | hxk
        · exact (h3 y).mpr ⟨hy1, hy2, hxy⟩
        · have := I.above [cur] x post y (by simp [← hq2]) hxk hxy hy2
          simp at this
          exact absurd this hy1
      | cons z q =>
        simp only [List.cons_append, List.cons.injEq] at hq2
        have : x ∈ ps := by rw [hq1, ← hq2.1]; simp
        obtain ⟨a, b, _⟩ := (h3 x).mp this
        rw [if_neg a, b] at hx
        exact absurd hx.symm hk
    · rcases hk' x hx with rfl | hxk
      · rw [hq1]
        exact List.mem_append_left _ ((h3 y).mpr ⟨hy1, hy2, hxy⟩)
      · have := I.above (cur :: q) x post y (by simp [hq2]) hxk hxy hy2
        simp only [List.mem_cons] at this
        rw [hq1]
        exact List.mem_append_right _ (this.resolve_left hy1)
  · right
    simp only [h1]
    rcases I.start with ⟨a, b, d⟩ | ⟨a, b, d⟩
    · simp only [List.cons.injEq] at b
      obtain ⟨rfl, rfl⟩ := b
      refine ⟨by omega, by simp, ?_⟩
      simp [h3]
    · refine ⟨by omega, ?_, ?_⟩
      · split
        · rfl
        · exact b
      · simp only [List.mem_cons, not_or] at d
        simp only [List.mem_append, h3, d.2, or_false]
        rintro ⟨_, h, _⟩
        simp only at b
        omega
  · simp only
    rcases I.start with ⟨a, b, d⟩ | ⟨a, b, d⟩
    · simp only [List.cons.injEq] at b
      obtain ⟨rfl, rfl⟩ := b
      simp only at a
      constructor
      · intro h; omega
      · rintro ⟨y, hy, h⟩
        rcases hk' y h with rfl | h
        · exact absurd rfl hy
        · have := I.cnt.mpr ⟨y, hy, h⟩
          simp only at this
          omega
    · simp only at a
      constructor
      · intro _
        refine ⟨cur, ?_, by simp⟩
        rintro rfl
        simp at d
      · intro _; omega
  · intro x e hx he
    rcases hk' x hx with rfl | hx
    · exact h7 e he
    · have := I.spd x e hx he
      simp only at this ⊢
      grind
  · have := I.spd0
    simp only at this ⊢
    grind
  · simp only
    rcases h8 with h8 | ⟨e, he, h8⟩
    · rcases I.tight with h | ⟨x, e, hx, he, h⟩
      · left; simp only at h; rw [h8, h]
      · right
        refine ⟨x, e, ?_, he, by rw [h8]; exact h⟩
        split
        · rfl
        · exact hx
    · right; exact ⟨cur, e, by simp, he, h8⟩

/-- Number of edge ends at unlabelled nodes plus stack height: decreases in every round. -/
def todo (g : Gr N E) (s : LSt N) : Nat :=
  s.stack.length + ((g.nds.filter fun x => s.comp x = 0).map fun x => (g.outs x).length + (g.ins x).length).sum

theorem sum_filter_drop (f : N → Nat) (p q : N → Bool) (a : N) (hq : ∀ x, q x = (p x && !decide (x = a))) :
    ∀ (l : List N), a ∈ l → p a = true →
      ((l.filter q).map f).sum + f a ≤ ((l.filter p).map f).sum := by
  intro l
  have mono : ∀ l : List N, ((l.filter q).map f).sum ≤ ((l.filter p).map f).sum := by
    intro l
    induction l with
    | nil => simp
    | cons x l ih =>
      simp only [List.filter_cons, hq]
      cases hp : p x <;> by_cases hx : x = a <;> simp [hx] <;> omega
  induction l with
  | nil => intro h; cases h
  | cons x l ih =>
    intro ha hp
    by_cases hx : x = a
    · subst hx
      have := mono l
      simp only [List.filter_cons, hq, hp]
      simp
      omega
    · have := ih (by simpa [Ne.symm hx] using ha) hp
      simp only [List.filter_cons, hq]
      cases hpx : p x <;> simp [hx] <;> omega

theorem round_todo {g : Gr N E} (wf : g.WF) {n : N} {k : Nat} {c0 : N → Nat} (hk : k ≠ 0)
    {c : N → Nat} {cur : N} {rest : List N} {m : Rat} {num : Nat}
    (I : LInv g n k c0 ⟨c, cur :: rest, m, num⟩) (hin : cur ∈ g.nds) :
    todo g (round g k ⟨c, cur :: rest, m, num⟩ cur rest) < todo g ⟨c, cur :: rest, m, num⟩ := by
  obtain ⟨ps, h1, h2, h3, h4, _⟩ := round_spec g wf k hk ⟨c, cur :: rest, m, num⟩ cur rest
  unfold todo
  rw [h1, h4]
  simp only [List.length_append, List.length_cons]
  have hq : ∀ x, (decide ((if x = cur then k else c x) = 0)) = (decide (c x = 0) && !decide (x = cur)) := by
    intro x
    by_cases h : x = cur
    · simp [h, hk]
    · simp [h]
  rcases (I.stk cur (by simp)).2 with h | h
  · have := sum_filter_drop (fun x => (g.outs x).length + (g.ins x).length) (fun x => decide (c x = 0)) _ cur hq
      g.nds hin (by simpa using h)
    omega
  · have hps : ps = [] := by
      apply List.eq_nil_iff_forall_not_mem.mpr
      intro x hx
      obtain ⟨_, a, b⟩ := (h3 x).mp hx
      have := I.above [] cur rest x rfl h b a
      simp at this
    have hsame : (fun x => decide ((if x = cur then k else c x) = 0)) = fun x => decide (c x = 0) := by
      funext x
      rw [hq]
      by_cases hx : x = cur
      · subst hx
        have : c x ≠ 0 := by simp only at h; omega
        simp [this]
      · simp [hx]
    rw [hps, hsame]
    simp

theorem conn_mem {g : Gr N E} (wf : g.WF) {a b : N} (h : Conn g a b) (ha : a ∈ g.nds) : b ∈ g.nds := by
  cases h with
  | refl => exact ha
  | step _ hs =>
    obtain ⟨e, ⟨h1, rfl⟩ | ⟨h1, rfl⟩⟩ := hs
    · exact (wf.outs _ _ h1).2.1
    · exact (wf.ins _ _ h1).2.1

theorem flood_spec {g : Gr N E} (wf : g.WF) {n : N} (hn : n ∈ g.nds) {k : Nat} {c0 : N → Nat} (hk : k ≠ 0)
    (hc0 : ∀ x, c0 x < k) :
    ∀ (fuel : Nat) (s : LSt N), todo g s ≤ fuel → LInv g n k c0 s →
      ∃ r, flood g k fuel s = some r ∧ LInv g n k c0 r ∧ r.stack = [] := by
  intro fuel
  induction fuel with
  | zero =>
    intro s hs I
    obtain ⟨c, st, m, num⟩ := s
    cases st with
    | nil => exact ⟨_, rfl, I, rfl⟩
    | cons cur rest => simp [todo] at hs
  | succ f ih =>
    intro s hs I
    obtain ⟨c, st, m, num⟩ := s
    cases st with
    | nil => exact ⟨_, rfl, I, rfl⟩
    | cons cur rest =>
      have hin := conn_mem wf (I.stk cur (by simp)).1 hn
      have h1 := round_todo wf hk I hin
      exact ih _ (by omega) (round_inv wf hk hc0 I)

/-! ### all components -/

/-- Two different nodes of the list have label `k`. -/
def Multi (nds : List N) (c : N → Nat) (k : Nat) : Prop :=
  ∃ x ∈ nds, ∃ y ∈ nds, x ≠ y ∧ c x = k ∧ c y = k

structure CInv (g : Gr N E) (s : CSt N) (cnt : Nat) : Prop where
  lt : ∀ x, s.comp x < s.comps.length
  mem : ∀ x, s.comp x ≠ 0 → x ∈ g.nds
  cls : ∀ x y, s.comp x ≠ 0 → (s.comp x = s.comp y ↔ Conn g x y)
  last : s.comps.getLast? = some 0
  spd : ∀ x e, s.comp x ≠ 0 → Inc g x e → ∃ m, s.comps[s.comp x - 1]? = some m ∧ g.speed e ≤ m
  tight : ∀ k m, s.comps[k]? = some m → m = 0 ∨ ∃ x e, s.comp x = k + 1 ∧ Inc g x e ∧ g.speed e = m
  cnt : ∃ ks : List Nat, ks.Nodup ∧ ks.length = cnt ∧
    ∀ k, k ∈ ks ↔ k ≠ 0 ∧ Multi g.nds s.comp k

theorem CInv.init (g : Gr N E) : CInv g ⟨fun _ => 0, [0]⟩ 0 where
  lt := by simp
  mem := by simp
  cls := by simp
  last := rfl
  spd := by simp
  tight := by
    intro k m h
    cases k with
    | zero => simp at h; exact Or.inl h.symm
    | succ k => simp at h
  cnt := ⟨[], by simp, rfl, by
    intro k
    simp only [List.not_mem_nil, false_iff, Multi, not_and]
    rintro hk ⟨x, _, y, _, _, h, _⟩
    exact hk h.symm⟩

/-- Enough rounds for every search. -/
def rounds (g : Gr N E) : Nat := 1 + (g.nds.map fun x => (g.outs x).length + (g.ins x).length).sum

theorem filter_sum_le (f : N → Nat) (p : N → Bool) (l : List N) :
    ((l.filter p).map f).sum ≤ (l.map f).sum := by
  induction l with
  | nil => simp
  | cons x l ih =>
    simp only [List.filter_cons]
    split <;> simp <;> omega

theorem label_spec {g : Gr N E} (wf : g.WF) {fuel : Nat} (hf : rounds g ≤ fuel) {s : CSt N} {cnt : Nat}
    (I : CInv g s cnt) {n : N} (hn : n ∈ g.nds) :
    ∃ s' cnt', label g fuel (s, cnt) n = some (s', cnt') ∧ CInv g s' cnt' ∧ s'.comp n ≠ 0 ∧
      ∀ x, s.comp x ≠ 0 → s'.comp x = s.comp x := by
  unfold label
  by_cases hn0 : s.comp n = 0
  · rw [if_pos hn0]
    obtain ⟨c0, comps⟩ := s
    obtain ⟨ini, rfl⟩ : ∃ ini, comps = ini ++ [0] := by
      have := I.last
      rw [List.getLast?_eq_some_iff] at this
      exact this
    simp only at hn0
    simp only [List.length_append, List.length_singleton, List.getLastD_concat, List.dropLast_concat]
    have hlt : ∀ x, c0 x < ini.length + 1 := by simpa using I.lt
    have L0 : LInv g n (ini.length + 1) c0 ⟨c0, [n], 0, 0⟩ := by
      have nk : ∀ x, c0 x ≠ ini.length + 1 := fun x => by have := hlt x; omega
      constructor
      · intro x _; rfl
      · intro x hx; exact Or.inl hx
      · intro x hx; exact absurd hx (nk x)
      · intro x hx
        simp only [List.mem_singleton] at hx
        subst hx
        exact ⟨.refl _, Or.inl hn0⟩
      · intro x y hx; exact absurd hx (nk x)
      · intro _ x _ _ _ hx; exact absurd hx (nk x)
      · exact Or.inl ⟨rfl, rfl, hn0⟩
      · constructor
        · intro h; simp at h
        · rintro ⟨y, _, hy⟩; exact absurd hy (nk y)
      · intro x e hx; exact absurd hx (nk x)
      · exact Rat.le_refl
      · exact Or.inl rfl
    have htodo : todo g ⟨c0, [n], 0, 0⟩ ≤ fuel := by
      have := filter_sum_le (fun x => (g.outs x).length + (g.ins x).length) (fun x => decide (c0 x = 0)) g.nds
      unfold todo rounds at *
      simp only [List.length_singleton]
      omega
    obtain ⟨r, hr, R, hst⟩ := flood_spec wf hn (by omega) hlt fuel _ htodo L0
    rw [hr]
    simp only
    obtain ⟨c, st, m, num⟩ := r
    subst hst
    simp only at R ⊢
    have hnk : c n = ini.length + 1 := by
      rcases R.start with ⟨_, h, _⟩ | ⟨_, h, _⟩
      · simp at h
      · exact h
    have hold : ∀ x, c0 x ≠ 0 → c x = c0 x := R.old
    have hiff : ∀ x, c x = ini.length + 1 ↔ Conn g n x := by
      intro x
      refine ⟨R.conn x, fun h => ?_⟩
      induction h with
      | refl => exact hnk
      | @step b y hb hy ih =>
        have h1 : c y ≠ 0 := fun h0 => by
          have := R.nbr b y ih hy h0
          simp at this
        by_cases h2 : c0 y = 0
        · exact (R.new y h2).resolve_left h1
        · exfalso
          have h3 := (I.cls y b h2).mpr (.step (.refl _) (hy.symm wf))
          simp only at h3
          have h4 : c b = c0 b := hold b (by omega)
          have := hlt b
          omega
    have hz : ∀ x, c0 x = 0 → c x = 0 ∨ c x = ini.length + 1 := R.new
    have hlab : ∀ x j, j ≠ 0 → j ≠ ini.length + 1 → (c x = j ↔ c0 x = j) := by
      intro x j h1 h2
      by_cases h : c0 x = 0
      · have := hz x h; omega
      · rw [hold x h]
    refine ⟨_, _, rfl, ?_, by simp only; omega, fun x hx => hold x hx⟩
    constructor
    · intro x
      simp only [List.length_append, List.length_cons, List.length_nil]
      by_cases h : c0 x = 0
      · have := hz x h; omega
      · have := hold x h; have := hlt x; omega
    · intro x hx
      by_cases h : c0 x = 0
      · exact conn_mem wf ((hiff x).mp ((hz x h).resolve_left hx)) hn
      · exact I.mem x h
    · intro x y hx
      simp only at hx ⊢
      by_cases h : c0 x = 0
      · have hxk := (hz x h).resolve_left hx
        rw [hxk, eq_comm, hiff y]
        have hnx := (hiff x).mp hxk
        exact ⟨fun h => (hnx.symm wf).trans h, fun h => hnx.trans h⟩
      · rw [hold x h, ← I.cls x y h]
        by_cases h' : c0 y = 0
        · have := hz y h'
          have := hlt x
          simp only
          omega
        · rw [hold y h']
    · simp
    · intro x e hx he
      simp only at hx ⊢
      by_cases h : c0 x = 0
      · have hxk := (hz x h).resolve_left hx
        refine ⟨m, ?_, R.spd x e hxk he⟩
        rw [hxk]
        simp
      · obtain ⟨m', h1, h2⟩ := I.spd x e h he
        simp only at h1
        refine ⟨m', ?_, h2⟩
        rw [hold x h]
        have hl := hlt x
        by_cases hlast : c0 x - 1 < ini.length
        · rw [List.getElem?_append_left hlast] at h1 ⊢
          exact h1
        · omega
    · intro k m' hk
      simp only at hk ⊢
      rcases Nat.lt_trichotomy k ini.length with hlt' | heq | hgt
      · rw [List.getElem?_append_left hlt'] at hk
        rcases I.tight k m' (by simp only; rw [List.getElem?_append_left hlt']; exact hk) with h | ⟨x, e, h1, h2, h3⟩
        · exact Or.inl h
        · simp only at h1
          exact Or.inr ⟨x, e, by rw [hold x (by omega)]; exact h1, h2, h3⟩
      · subst heq
        simp at hk
        subst hk
        rcases R.tight with h | ⟨x, e, h1, h2, h3⟩
        · exact Or.inl h
        · exact Or.inr ⟨x, e, h1, h2, h3⟩
      · have h1 := (List.getElem?_eq_some_iff.mp hk).1
        simp only [List.length_append, List.length_cons, List.length_nil] at h1
        have : k = ini.length + 1 := by omega
        subst this
        simp at hk
        exact Or.inl hk.symm
    · obtain ⟨ks, k1, k2, k3⟩ := I.cnt
      have hm : num > 1 ↔ Multi g.nds c (ini.length + 1) := by
        have hc := R.cnt
        simp only at hc
        rw [hc]
        constructor
        · rintro ⟨y, hy, hyk⟩
          exact ⟨n, hn, y, conn_mem wf ((hiff y).mp hyk) hn, Ne.symm hy, hnk, hyk⟩
        · rintro ⟨x, _, y, _, hxy, hx, hy⟩
          by_cases h : x = n
          · exact ⟨y, fun h' => hxy (h.trans h'.symm), hy⟩
          · exact ⟨x, h, hx⟩
      have hmo : ∀ j, j ≠ 0 → j ≠ ini.length + 1 → (Multi g.nds c j ↔ Multi g.nds c0 j) := by
        intro j h1 h2
        unfold Multi
        simp only [hlab _ j h1 h2]
      have hnot : ¬ Multi g.nds c0 (ini.length + 1) := by
        rintro ⟨x, _, _, _, _, h, _⟩
        have := hlt x
        omega
      by_cases h : num > 1
      · rw [if_pos h]
        refine ⟨(ini.length + 1) :: ks, ?_, by simp [k2], ?_⟩
        · refine List.nodup_cons.mpr ⟨fun hmem => hnot ((k3 _).mp hmem).2, k1⟩
        · intro k
          simp only [List.mem_cons, k3]
          by_cases hk : k = ini.length + 1
          · subst hk
            simp only [true_or, true_iff]
            exact ⟨by omega, hm.mp h⟩
          · simp only [hk, false_or]
            constructor
            · rintro ⟨a, b⟩; exact ⟨a, (hmo k a hk).mpr b⟩
            · rintro ⟨a, b⟩; exact ⟨a, (hmo k a hk).mp b⟩
      · rw [if_neg h]
        refine ⟨ks, k1, k2, fun k => ?_⟩
        rw [k3]
        by_cases hk : k = ini.length + 1
        · subst hk
          constructor
          · rintro ⟨_, b⟩; exact absurd b hnot
          · rintro ⟨_, b⟩; exact absurd (hm.mpr b) h
        · constructor
          · rintro ⟨a, b⟩; exact ⟨a, (hmo k a hk).mpr b⟩
          · rintro ⟨a, b⟩; exact ⟨a, (hmo k a hk).mp b⟩
  · rw [if_neg hn0]
    exact ⟨s, cnt, rfl, I, hn0, fun x _ => rfl⟩

theorem fold_spec {g : Gr N E} (wf : g.WF) {fuel : Nat} (hf : rounds g ≤ fuel) :
    ∀ (l : List N), (∀ n ∈ l, n ∈ g.nds) → ∀ (s : CSt N) (cnt : Nat), CInv g s cnt →
      ∃ s' cnt', l.foldlM (label g fuel) (s, cnt) = some (s', cnt') ∧ CInv g s' cnt' ∧
        (∀ n ∈ l, s'.comp n ≠ 0) ∧ ∀ x, s.comp x ≠ 0 → s'.comp x = s.comp x := by
  intro l
  induction l with
  | nil => intro _ s cnt I; exact ⟨s, cnt, rfl, I, by simp, fun x _ => rfl⟩
  | cons n l ih =>
    intro hl s cnt I
    obtain ⟨s1, c1, h1, I1, hn, h2⟩ := label_spec wf hf I (hl n (by simp))
    obtain ⟨s2, c2, g1, I2, g2, g3⟩ := ih (fun m hm => hl m (by simp [hm])) s1 c1 I1
    refine ⟨s2, c2, ?_, I2, ?_, ?_⟩
    · rw [List.foldlM_cons, h1]; exact g1
    · intro m hm
      rcases List.mem_cons.mp hm with rfl | hm
      · rw [g3 _ hn]; exact hn
      · exact g2 m hm
    · intro x hx
      have := h2 x hx
      rw [g3 x (by omega)]; exact this

/-- C34. On every graph the labelling ends, all nodes get a label, two nodes have the same label
iff they are connected, the speed stored for the component of a node bounds the speed of all
edges at the node (and is that of some edge of the component unless it is 0), and the returned
number is the number of components with more than one node. -/
theorem C34_components (g : Gr N E) (wf : g.WF) (fuel : Nat) (hf : rounds g ≤ fuel) :
    ∃ s num, writeComps g fuel = some (s, num) ∧
      (∀ n ∈ g.nds, s.comp n ≠ 0) ∧
      (∀ n ∈ g.nds, ∀ m ∈ g.nds, s.comp n = s.comp m ↔ Conn g n m) ∧
      (∀ n ∈ g.nds, ∃ v, getComp s n = some v ∧ (∀ e, Inc g n e → g.speed e ≤ v) ∧
        (v = 0 ∨ ∃ m e, Conn g n m ∧ Inc g m e ∧ g.speed e = v)) ∧
      ∃ ks : List Nat, ks.Nodup ∧ ks.length = num ∧
        ∀ k, k ∈ ks ↔ ∃ n ∈ g.nds, ∃ m ∈ g.nds, n ≠ m ∧ s.comp n = k ∧ s.comp m = k := by
  obtain ⟨s, num, h, I, h1, _⟩ := fold_spec wf hf g.nds (fun _ h => h) _ _ (CInv.init g)
  refine ⟨s, num, h, h1, fun n hn m _ => I.cls n m (h1 n hn), ?_, ?_⟩
  · intro n hn
    have h0 := h1 n hn
    have hl := I.lt n
    have hget : s.comps[s.comp n - 1]? = some s.comps[s.comp n - 1] := List.getElem?_eq_getElem (by omega)
    refine ⟨_, by rw [getComp, if_neg h0]; exact hget, ?_, ?_⟩
    · intro e he
      obtain ⟨m, a, b⟩ := I.spd n e h0 he
      rw [hget] at a
      cases a
      exact b
    · rcases I.tight _ _ hget with h | ⟨x, e, a, b, c⟩
      · exact Or.inl h
      · exact Or.inr ⟨x, e, (I.cls n x h0).mp (by omega), b, c⟩
  · obtain ⟨ks, k1, k2, k3⟩ := I.cnt
    refine ⟨ks, k1, k2, fun k => ?_⟩
    rw [k3]
    constructor
    · rintro ⟨_, x, hx, y, hy, h⟩; exact ⟨x, hx, y, hy, h⟩
    · rintro ⟨x, hx, y, hy, h, h', h''⟩
      exact ⟨by rw [← h']; exact h1 x hx, x, hx, y, hy, h, h', h''⟩

/-! ### example: two components and a lonely node; edges are numbered -/

def exG : Gr Nat Nat :=
  let ends : List (Nat × Nat) := [(1, 2), (3, 2), (2, 1), (4, 5), (4, 5)]
  let src := fun e => ((ends[e]?).getD (0, 0)).1
  let dst := fun e => ((ends[e]?).getD (0, 0)).2
  { nds := [3, 5, 1, 2, 6, 4]
    src := src, dst := dst
    outs := fun n => (List.range 5).filter fun e => src e = n
    ins := fun n => (List.range 5).filter fun e => dst e = n
    speed := fun e => e + 1 }

example : (writeComps exG (rounds exG)).map (fun r => (exG.nds.map r.1.comp, r.1.comps, r.2)) =
    some ([1, 2, 1, 1, 3, 2], [3, 5, 0, 0], 2) := by decide +kernel

example : exG.WF := by
  have key : ∀ e ∈ List.range 5, exG.dst e ∈ exG.nds ∧ exG.src e ∈ exG.nds := by decide
  constructor
  · intro n e h
    have h := List.mem_filter.mp h
    have hk := key e h.1
    exact ⟨of_decide_eq_true h.2, hk.1, List.mem_filter.mpr ⟨h.1, by simp [exG]⟩⟩
  · intro n e h
    have h := List.mem_filter.mp h
    have hk := key e h.1
    exact ⟨of_decide_eq_true h.2, hk.2, List.mem_filter.mpr ⟨h.1, by simp [exG]⟩⟩

end Verif.Graph
