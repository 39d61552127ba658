import Verif.Graph.Collapse
import Verif.Payload.EdgeProps

/-!
# Collapsing edges and writing reverse edges (properties C35, C36)
-/

set_option linter.unusedSectionVars false

namespace Verif.Collapse
open Verif.Payload (Attrs frontHop backHop)
variable {N P : Type} [DecidableEq N]

/-! ### specification -/

/-- No two edges have the same start and the same end. -/
def Uniq (es : List (Edg N P)) : Prop := es.Pairwise fun e f => ¬ (e.src = f.src ∧ e.dst = f.dst)

/-- The geometry of an edge leads from its start to its end. -/
def Fits (pos : N → P) (e : Edg N P) : Prop :=
  ∀ l, e.geom = some l → l.head? = some (pos e.src) ∧ l.getLast? = some (pos e.dst)

/-- The line of an edge; a straight line if there is no geometry. -/
def line (pos : N → P) (e : Edg N P) : List P := e.geom.getD [pos e.src, pos e.dst]

/-- The line travelled to the end `n` of the edge, and from the end `n` of the edge. -/
def toward (pos : N → P) (e : Edg N P) (n : N) : List P := if e.dst = n then line pos e else (line pos e).reverse
def away (pos : N → P) (e : Edg N P) (n : N) : List P := if e.src = n then line pos e else (line pos e).reverse

/-- Travelling from `u` to `v` on the edge is permitted. -/
def Permits (e : Edg N P) (u v : N) : Prop :=
  (e.src = u ∧ e.dst = v ∧ e.a.oneWay ≠ 2) ∨ (e.dst = u ∧ e.src = v ∧ e.a.oneWay ≠ 1)

/-- Permitted travel along several edges. -/
inductive Reach (es : List (Edg N P)) : N → N → Prop where
  | refl (u) : Reach es u u
  | step {u v w} : Reach es u v → (∃ e ∈ es, Permits e v w) → Reach es u w

/-- The node has an edge. -/
def Touched (es : List (Edg N P)) (n : N) : Prop := ∃ e ∈ es, e.src = n ∨ e.dst = n

/-! ### what one step does -/

/-- At `n` the edges `p` and `q` were replaced. -/
structure Step (g : Nodes N P) (es : List (Edg N P)) (n : N) (p q : Edg N P) (es' : List (Edg N P)) : Prop where
  plain : g.special n = false
  pm : p ∈ es
  qm : q ∈ es
  pe : (p.src = n ∧ p.dst ≠ n) ∨ (p.dst = n ∧ p.src ≠ n)
  qe : (q.src = n ∧ q.dst ≠ n) ∨ (q.dst = n ∧ q.src ≠ n)
  all : ∀ e ∈ es, e.src = n ∨ e.dst = n → e = p ∨ e = q
  lines : p.lines = q.lines
  lvl : p.a.lvl = q.a.lvl
  restr : p.a.restr = false ∧ q.a.restr = false
  way : p.a.oneWay = 0 ↔ q.a.oneWay = 0
  dir : p.a.oneWay ≠ 0 → p.dst = n ∧ q.src = n
  free : ∀ e ∈ es, ¬ (e.src = p.oth n ∧ e.dst = q.oth n) ∧ ¬ (e.src = q.oth n ∧ e.dst = p.oth n)
  mem : ∀ x, x ∈ es' ↔ x = merged g.pos n p q ∨ (x ∈ es ∧ x.src ≠ n ∧ x.dst ≠ n)
  uniq : Uniq es'

theorem len2 {α : Type} {l : List α} (h : l.length = 2) : ∃ a b, l = [a, b] := by
  match l, h with
  | [a, b], _ => exact ⟨a, b, rfl⟩

theorem len1 {α : Type} {l : List α} (h : l.length = 1) : ∃ a, l = [a] := by
  match l, h with
  | [a], _ => exact ⟨a, rfl⟩

theorem mem_outs {es : List (Edg N P)} {n : N} {e : Edg N P} : e ∈ outs es n ↔ e ∈ es ∧ e.src = n := by
  simp [outs]

theorem mem_ins {es : List (Edg N P)} {n : N} {e : Edg N P} : e ∈ ins es n ↔ e ∈ es ∧ e.dst = n := by
  simp [ins]

theorem pair_spec (g : Nodes N P) (es : List (Edg N P)) (n : N) (a b : Edg N P) (h : pair g es n = some (a, b)) :
    g.special n = false ∧ a ∈ es ∧ b ∈ es ∧ (∀ e ∈ es, e.src = n ∨ e.dst = n → e = a ∨ e = b) ∧
    ((a.src = n ∧ b.src = n ∧ ∀ e ∈ es, e.dst ≠ n) ∨ (a.dst = n ∧ b.dst = n ∧ ∀ e ∈ es, e.src ≠ n) ∨
      (a.src = n ∧ b.dst = n ∧ ∀ e ∈ es, (e.src = n → e = a) ∧ (e.dst = n → e = b))) := by
  unfold pair at h
  split at h
  · cases h
  · rename_i hd
    simp only [not_or, Decidable.not_not, Bool.not_eq_true] at hd
    obtain ⟨hd, hs⟩ := hd
    refine ⟨hs, ?_⟩
    split at h
    · rename_i h2
      obtain ⟨x, y, hxy⟩ := len2 h2
      have hin : ins es n = [] := List.eq_nil_of_length_eq_zero (by omega)
      have hno : ∀ e ∈ es, e.dst ≠ n := fun e he hn => by
        have : e ∈ ins es n := mem_ins.mpr ⟨he, hn⟩
        rw [hin] at this; cases this
      rw [hxy] at h
      simp at h
      obtain ⟨rfl, rfl⟩ := h
      have hx : x ∈ outs es n := by rw [hxy]; simp
      have hy : y ∈ outs es n := by rw [hxy]; simp
      rw [mem_outs] at hx hy
      refine ⟨hx.1, hy.1, ?_, Or.inl ⟨hx.2, hy.2, hno⟩⟩
      rintro e he (h | h)
      · have : e ∈ outs es n := mem_outs.mpr ⟨he, h⟩
        rw [hxy] at this; simpa using this
      · exact absurd h (hno e he)
    · split at h
      · rename_i h2
        obtain ⟨x, y, hxy⟩ := len2 h2
        have hin : outs es n = [] := List.eq_nil_of_length_eq_zero (by omega)
        have hno : ∀ e ∈ es, e.src ≠ n := fun e he hn => by
          have : e ∈ outs es n := mem_outs.mpr ⟨he, hn⟩
          rw [hin] at this; cases this
        rw [hxy] at h
        simp at h
        obtain ⟨rfl, rfl⟩ := h
        have hx : x ∈ ins es n := by rw [hxy]; simp
        have hy : y ∈ ins es n := by rw [hxy]; simp
        rw [mem_ins] at hx hy
        refine ⟨hx.1, hy.1, ?_, Or.inr (Or.inl ⟨hx.2, hy.2, hno⟩)⟩
        rintro e he (h | h)
        · exact absurd h (hno e he)
        · have : e ∈ ins es n := mem_ins.mpr ⟨he, h⟩
          rw [hxy] at this; simpa using this
      · have ho : (outs es n).length ≤ 2 := by omega
        cases hl : outs es n with
        | nil => rw [hl] at h; simp at h
        | cons x xs =>
          cases hi : ins es n with
          | nil => rw [hi] at h; simp at h
          | cons y ys =>
            rw [hl, hi] at h hd
            simp only [List.length_cons] at hd
            have hxs : xs = [] := List.eq_nil_of_length_eq_zero (by omega)
            have hys : ys = [] := List.eq_nil_of_length_eq_zero (by omega)
            subst hxs hys
            simp at h
            obtain ⟨rfl, rfl⟩ := h
            have hx : x ∈ outs es n := by rw [hl]; simp
            have hy : y ∈ ins es n := by rw [hi]; simp
            rw [mem_outs] at hx
            rw [mem_ins] at hy
            have h1 : ∀ e ∈ es, e.src = n → e = x := fun e he h => by
              have : e ∈ outs es n := mem_outs.mpr ⟨he, h⟩
              rw [hl] at this; simpa using this
            have h2 : ∀ e ∈ es, e.dst = n → e = y := fun e he h => by
              have : e ∈ ins es n := mem_ins.mpr ⟨he, h⟩
              rw [hi] at this; simpa using this
            refine ⟨hx.1, hy.1, ?_, Or.inr (Or.inr ⟨hx.2, hy.2, fun e he => ⟨h1 e he, h2 e he⟩⟩)⟩
            rintro e he (h | h)
            · exact Or.inl (h1 e he h)
            · exact Or.inr (h2 e he h)

theorem getEdg_isSome {es : List (Edg N P)} {u v : N} :
    (getEdg es u v).isSome = true ↔ ∃ e ∈ es, e.src = u ∧ e.dst = v := by
  simp [getEdg, List.find?_isSome]

theorem getEdg_none {es : List (Edg N P)} {u v : N} (h : ∀ e ∈ es, ¬ (e.src = u ∧ e.dst = v)) :
    getEdg es u v = none := by
  cases hg : getEdg es u v with
  | none => rfl
  | some e =>
    obtain ⟨e', he, h'⟩ := getEdg_isSome.mp (by rw [hg]; rfl : (getEdg es u v).isSome = true)
    exact absurd h' (h e' he)

theorem sim_spec {a b : Edg N P} (h : edgesSim a b = true) :
    (a.a.oneWay = 0 ↔ b.a.oneWay = 0) ∧ a.a.lvl = b.a.lvl ∧ a.lines = b.lines ∧
    (a.a.oneWay ≠ 0 → a.src = b.dst ∨ a.dst = b.src) ∧ a.a.restr = false ∧ b.a.restr = false := by
  unfold edgesSim at h
  split at h
  · cases h
  · rename_i h1
    split at h
    · cases h
    · rename_i h2
      split at h
      · cases h
      · split at h
        · cases h
        · rename_i h4
          split at h
          · cases h
          · rename_i h5
            split at h
            · cases h
            · rename_i h6
              have hw : (a.a.oneWay = 0 ↔ b.a.oneWay = 0) := by
                by_cases ha : a.a.oneWay = 0 <;> by_cases hb : b.a.oneWay = 0 <;> simp_all
              simp only [Bool.or_eq_true, not_or, Bool.not_eq_true] at h5
              refine ⟨hw, Decidable.not_not.mp h2, Decidable.not_not.mp h6, fun ha => ?_, h5⟩
              have hb : b.a.oneWay ≠ 0 := fun hb => ha (hw.mpr hb)
              by_cases h7 : a.src = b.dst
              · exact Or.inl h7
              · by_cases h8 : a.dst = b.src
                · exact Or.inr h8
                · exact absurd ⟨ha, hb, h7, h8⟩ h4

/-- A step leaves the graph alone or replaces the two edges of a node. -/
theorem collapseAt_spec (g : Nodes N P) (es : List (Edg N P)) (hu : Uniq es) (n : N) :
    collapseAt g es n = es ∨ ∃ p q, Step g es n p q (collapseAt g es n) := by
  unfold collapseAt
  cases hp : pair g es n with
  | none => exact Or.inl rfl
  | some ab =>
    obtain ⟨a, b⟩ := ab
    simp only
    by_cases hbr : bridged es (a.oth n) (b.oth n) = true
    · rw [if_pos hbr]; exact Or.inl rfl
    · rw [if_neg hbr]
      by_cases hsim : edgesSim a b = true
      · rw [if_pos hsim]
        right
        obtain ⟨hs, ha, hb, hall, hshape⟩ := pair_spec g es n a b hp
        obtain ⟨w1, w2, w3, w4, w5, w6⟩ := sim_spec hsim
        have hfree : ∀ e ∈ es, ¬ (e.src = a.oth n ∧ e.dst = b.oth n) ∧ ¬ (e.src = b.oth n ∧ e.dst = a.oth n) := by
          intro e he
          unfold bridged at hbr
          simp only [Bool.or_eq_true, getEdg_isSome, not_or, not_exists, not_and] at hbr
          exact ⟨fun h => hbr.1 e he h.1 h.2, fun h => hbr.2 e he h.1 h.2⟩
        -- the three shapes, without loops
        have hne : ((a.src = n ∧ a.dst ≠ n) ∨ (a.dst = n ∧ a.src ≠ n)) ∧ ((b.src = n ∧ b.dst ≠ n) ∨ (b.dst = n ∧ b.src ≠ n)) := by
          rcases hshape with ⟨h1, h2, h3⟩ | ⟨h1, h2, h3⟩ | ⟨h1, h2, h3⟩
          · exact ⟨Or.inl ⟨h1, h3 a ha⟩, Or.inl ⟨h2, h3 b hb⟩⟩
          · exact ⟨Or.inr ⟨h1, h3 a ha⟩, Or.inr ⟨h2, h3 b hb⟩⟩
          · have key : ∀ e ∈ es, e.src = n → e.dst = n → False := by
              intro e he hes hed
              have e1 := (h3 e he).1 hes
              have e2 := (h3 e he).2 hed
              rw [← e1, ← e2] at hfree
              apply (hfree e he).1
              simp [Edg.oth, hes, hed]
            exact ⟨Or.inl ⟨h1, fun h => key a ha h1 h⟩, Or.inr ⟨h2, fun h => key b hb h h2⟩⟩
        have hdir : a.a.oneWay ≠ 0 → a.src = n ∧ b.dst = n := by
          intro hw
          rcases hshape with ⟨h1, h2, h3⟩ | ⟨h1, h2, h3⟩ | ⟨h1, h2, h3⟩
          · rcases w4 hw with h | h
            · exact absurd (h.symm.trans h1) (h3 b hb)
            · exact absurd (h.trans h2) (h3 a ha)
          · rcases w4 hw with h | h
            · exact absurd (h.trans h2) (h3 a ha)
            · exact absurd (h.symm.trans h1) (h3 b hb)
          · exact ⟨h1, h2⟩
        -- the merged edge and the rest
        have hrest : ∀ (m : Edg N P), m.src ≠ n → m.dst ≠ n → (∀ e ∈ es, ¬ (e.src = m.src ∧ e.dst = m.dst)) →
            (∀ x, x ∈ delEdg (delEdg (addEdg es m) a.src a.dst) b.src b.dst ↔
              x = m ∨ (x ∈ es ∧ x.src ≠ n ∧ x.dst ≠ n)) ∧
            Uniq (delEdg (delEdg (addEdg es m) a.src a.dst) b.src b.dst) := by
          intro m hm1 hm2 hmf
          have hadd : addEdg es m = es ++ [m] := by
            unfold addEdg
            rw [getEdg_none hmf]
          constructor
          · intro x
            rw [hadd]
            simp only [delEdg, List.mem_filter, List.mem_append, List.mem_singleton, Bool.not_eq_true',
              Bool.and_eq_false_iff, decide_eq_false_iff_not]
            constructor
            · rintro ⟨⟨hx | hx, h1⟩, h2⟩
              · refine Or.inr ⟨hx, fun h => ?_, fun h => ?_⟩
                · rcases hall x hx (Or.inl h) with rfl | rfl
                  · simp at h1
                  · simp at h2
                · rcases hall x hx (Or.inr h) with rfl | rfl
                  · simp at h1
                  · simp at h2
              · exact Or.inl hx
            · rintro (rfl | ⟨hx, h1, h2⟩)
              · refine ⟨⟨Or.inr rfl, ?_⟩, ?_⟩
                · rcases hne.1 with ⟨h, _⟩ | ⟨h, _⟩
                  · left; rw [h]; exact hm1
                  · right; rw [h]; exact hm2
                · rcases hne.2 with ⟨h, _⟩ | ⟨h, _⟩
                  · left; rw [h]; exact hm1
                  · right; rw [h]; exact hm2
              · refine ⟨⟨Or.inl hx, ?_⟩, ?_⟩
                · rcases hne.1 with ⟨h, _⟩ | ⟨h, _⟩
                  · left; rw [h]; exact h1
                  · right; rw [h]; exact h2
                · rcases hne.2 with ⟨h, _⟩ | ⟨h, _⟩
                  · left; rw [h]; exact h1
                  · right; rw [h]; exact h2
          · rw [hadd]
            apply List.Pairwise.filter
            apply List.Pairwise.filter
            rw [List.pairwise_append]
            refine ⟨hu, List.pairwise_singleton _ _, ?_⟩
            intro e he m' hm'
            simp only [List.mem_singleton] at hm'
            subst hm'
            exact hmf e he
        have hoth : ∀ e : Edg N P, ((e.src = n ∧ e.dst ≠ n) ∨ (e.dst = n ∧ e.src ≠ n)) → e.oth n ≠ n := by
          rintro e (⟨h, h'⟩ | ⟨h, h'⟩)
          · unfold Edg.oth; rw [if_pos h]; exact h'
          · unfold Edg.oth; rw [if_neg h']; exact h'
        unfold order
        by_cases ho : a.a.oneWay ≠ 0 ∧ a.oth n ≠ a.src
        · rw [if_pos ho]
          obtain ⟨m1, m2⟩ := hrest (merged g.pos n b a) (hoth b hne.2) (hoth a hne.1)
            (fun e he => (hfree e he).2)
          obtain ⟨d1, d2⟩ := hdir ho.1
          exact ⟨b, a, { plain := hs, pm := hb, qm := ha, pe := hne.2, qe := hne.1
                         all := fun e he h => (hall e he h).symm
                         lines := w3.symm, lvl := w2.symm, restr := ⟨w6, w5⟩, way := w1.symm
                         dir := fun _ => ⟨d2, d1⟩
                         free := fun e he => ⟨(hfree e he).2, (hfree e he).1⟩
                         mem := m1, uniq := m2 }⟩
        · rw [if_neg ho]
          obtain ⟨m1, m2⟩ := hrest (merged g.pos n a b) (hoth a hne.1) (hoth b hne.2)
            (fun e he => (hfree e he).1)
          refine ⟨a, b, { plain := hs, pm := ha, qm := hb, pe := hne.1, qe := hne.2, all := hall
                          lines := w3, lvl := w2, restr := ⟨w5, w6⟩, way := w1
                          dir := fun hw => ?_
                          free := hfree, mem := m1, uniq := m2 }⟩
          exfalso
          obtain ⟨d1, _⟩ := hdir hw
          apply ho
          refine ⟨hw, ?_⟩
          rcases hne.1 with ⟨h, h'⟩ | ⟨h, h'⟩
          · unfold Edg.oth; rw [if_pos h, h]; exact h'
          · exact absurd d1 h'
      · rw [if_neg hsim]; exact Or.inl rfl

/-! ### C35: one step -/

theorem oth_src {e : Edg N P} {n : N} (h : e.src = n) : e.oth n = e.dst := by simp [Edg.oth, h]
theorem oth_dst {e : Edg N P} {n : N} (h : e.src ≠ n) : e.oth n = e.src := by simp [Edg.oth, h]

/-- The edge that replaces `p` and `q` leads from the outer node of `p` to that of `q`, along
both lines. -/
theorem step_geometry (g : Nodes N P) (es es' : List (Edg N P)) (n : N) (p q : Edg N P)
    (S : Step g es n p q es') (hf : Fits g.pos p ∧ Fits g.pos q) (hd : p.oth n ≠ q.oth n) :
    ∃ m ∈ es', m.src = p.oth n ∧ m.dst = q.oth n ∧ m.lines = p.lines ∧ m.lines = q.lines ∧
      m.a.lvl = p.a.lvl ∧ m.a.lvl = q.a.lvl ∧
      (∃ l rest, m.geom = some l ∧ (toward g.pos p n).getLast? = some (g.pos n) ∧
        away g.pos q n = g.pos n :: rest ∧
        (l = toward g.pos p n ++ rest ∨ l = toward g.pos p n ++ g.pos n :: rest)) ∧
      Fits g.pos m := by
  have hj : joint p q = n := by
    unfold joint
    rcases S.pe with ⟨h1, h2⟩ | ⟨h1, h2⟩ <;> rcases S.qe with ⟨h3, h4⟩ | ⟨h3, h4⟩
    · rw [if_pos (h1.trans h3.symm)]; exact h1
    · rw [if_neg (by rw [h1]; exact Ne.symm h4), if_pos (h1.trans h3.symm)]; exact h1
    · have : p.src ≠ q.dst := by
        rw [oth_dst h2, oth_src h3] at hd; exact hd
      rw [if_neg (by rw [h3]; exact h2), if_neg this]; exact h1
    · have : p.src ≠ q.src := by
        rw [oth_dst h2, oth_dst h4] at hd; exact hd
      rw [if_neg this, if_neg (by rw [h3]; exact h2)]; exact h1
  have lastp : (toward g.pos p n).getLast? = some (g.pos n) ∧ (toward g.pos p n).head? = some (g.pos (p.oth n)) := by
    unfold toward line
    have hp := hf.1
    cases hg : p.geom with
    | none =>
      rcases S.pe with ⟨h1, h2⟩ | ⟨h1, h2⟩
      · rw [if_neg h2, oth_src h1]; simp [h1]
      · rw [if_pos h1, oth_dst h2]; simp [h1]
    | some l =>
      obtain ⟨f1, f2⟩ := hp l hg
      rcases S.pe with ⟨h1, h2⟩ | ⟨h1, h2⟩
      · rw [if_neg h2, oth_src h1]
        simp [List.getLast?_reverse, f1, f2, h1]
      · rw [if_pos h1, oth_dst h2]
        simp [f1, f2, h1]
  have headq : (away g.pos q n).head? = some (g.pos n) ∧ (away g.pos q n).getLast? = some (g.pos (q.oth n)) := by
    unfold away line
    have hq := hf.2
    cases hg : q.geom with
    | none =>
      rcases S.qe with ⟨h1, h2⟩ | ⟨h1, h2⟩
      · rw [if_pos h1, oth_src h1]; simp [h1]
      · rw [if_neg h2, oth_dst h2]; simp [h1]
    | some l =>
      obtain ⟨f1, f2⟩ := hq l hg
      rcases S.qe with ⟨h1, h2⟩ | ⟨h1, h2⟩
      · rw [if_pos h1, oth_src h1]
        simp [f1, f2, h1]
      · rw [if_neg h2, oth_dst h2]
        simp [List.getLast?_reverse, f1, f2, h1]
  obtain ⟨rest, hrest⟩ : ∃ rest, away g.pos q n = g.pos n :: rest := by
    cases h : away g.pos q n with
    | nil => rw [h] at headq; simp at headq
    | cons x r =>
      rw [h] at headq
      simp at headq
      exact ⟨r, by rw [headq.1]⟩
  have hgeom : mergeGeom g.pos p q = toward g.pos p n ++ rest ∨
      mergeGeom g.pos p q = toward g.pos p n ++ g.pos n :: rest := by
    have hcase : mergeGeom g.pos p q = toward g.pos p n ++
        (match q.geom with | some _ => away g.pos q n | none => (away g.pos q n).drop 1) := by
      unfold mergeGeom
      simp only [hj]
      unfold toward away line
      rcases S.pe with ⟨h1, h2⟩ | ⟨h1, h2⟩ <;> rcases S.qe with ⟨h3, h4⟩ | ⟨h3, h4⟩ <;>
        cases q.geom <;> simp [h1, h2, h3, h4]
    cases hq : q.geom with
    | none =>
      left
      rw [hcase, hq, hrest]; simp
    | some l =>
      right
      rw [hcase, hq, hrest]
  have hrl : rest ≠ [] → rest.getLast? = some (g.pos (q.oth n)) := by
    intro hne
    have := headq.2
    rw [hrest] at this
    cases rest with
    | nil => exact absurd rfl hne
    | cons x r => simpa [List.getLast?_cons_cons] using this
  refine ⟨merged g.pos n p q, (S.mem _).mpr (Or.inl rfl), rfl, rfl, rfl, S.lines, rfl, S.lvl, ?_, ?_⟩
  · exact ⟨_, rest, rfl, lastp.1, hrest, hgeom⟩
  · intro l hl
    have hl : l = mergeGeom g.pos p q := by
      simp only [merged, Option.some.injEq] at hl; exact hl.symm
    subst hl
    show _ = some (g.pos (p.oth n)) ∧ _ = some (g.pos (q.oth n))
    have hne : toward g.pos p n ≠ [] := by
      intro h; rw [h] at lastp; simp at lastp
    constructor
    · rcases hgeom with h | h <;> rw [h, List.head?_append, lastp.2] <;> rfl
    · rcases hgeom with h | h
      · rw [h, List.getLast?_append]
        cases hr : rest with
        | nil =>
          -- a straight line always has a second point; a geometry of one point
          have h2 := headq.2
          rw [hrest, hr] at h2
          simp at h2
          simp [lastp.1, h2]
        | cons x r => rw [← hr, hrl (by rw [hr]; simp)]; rfl
      · rw [h, List.getLast?_append]
        have h2 := headq.2
        rw [hrest] at h2
        rw [h2]; rfl

/-- With equal one-way marks, travelling over the new edge is permitted exactly if travelling
over both old edges is. -/
theorem step_directions (g : Nodes N P) (es es' : List (Edg N P)) (n : N) (p q : Edg N P)
    (S : Step g es n p q es') (hw : p.a.oneWay = q.a.oneWay) (hd : p.oth n ≠ q.oth n) :
    (Permits (merged g.pos n p q) (p.oth n) (q.oth n) ↔ Permits p (p.oth n) n ∧ Permits q n (q.oth n)) ∧
    (Permits (merged g.pos n p q) (q.oth n) (p.oth n) ↔ Permits q (q.oth n) n ∧ Permits p n (p.oth n)) := by
  have hm : (merged g.pos n p q).a.oneWay = p.a.oneWay := rfl
  have hms : (merged g.pos n p q).src = p.oth n := rfl
  have hmd : (merged g.pos n p q).dst = q.oth n := rfl
  unfold Permits
  rw [hm, hms, hmd, ← hw]
  by_cases h0 : p.a.oneWay = 0
  · rcases S.pe with ⟨h1, h2⟩ | ⟨h1, h2⟩ <;> rcases S.qe with ⟨h3, h4⟩ | ⟨h3, h4⟩ <;>
      simp [h0, Edg.oth, h1, h2, h3, h4]
  · obtain ⟨d1, d2⟩ := S.dir h0
    rcases S.pe with ⟨h1, h2⟩ | ⟨h1, h2⟩
    · exact absurd d1 h2
    · rcases S.qe with ⟨h3, h4⟩ | ⟨h3, h4⟩
      · simp only [oth_dst h2, oth_src h3] at hd ⊢
        simp [h1, h3, h2, h4, Ne.symm h2, Ne.symm h4, Ne.symm hd, hd]
      · exact absurd d2 h4

/-- C35. Visiting a node leaves the graph as it is, or removes the two edges of a node that is no
station and no turn cycle. Then there are edges `p` and `q`, the only ones at `n`, with the same
lines and level and no turn rules, and the edge `m` is added, and nothing else changes: `m` leads
from the outer node of `p` to the outer node of `q`; if the outer nodes are different, its line is
the one travelled on `p` to `n` and then on `q` from `n` (the position of `n` may be repeated),
and it leads again from its start to its end; and, if moreover both have the same one-way mark,
`m` permits travelling between the outer nodes exactly if both edges do, in each direction.
Missing: equal outer nodes, where the line is wrong (`C35_negation_loop`), and the one-way
marks 1 and 2 at the same time, where the directions are wrong (`C35_negation_direction`). -/
theorem C35_step_partial (g : Nodes N P) (es : List (Edg N P)) (hu : Uniq es)
    (hf : ∀ e ∈ es, Fits g.pos e) (n : N) :
    collapseAt g es n = es ∨
    ∃ p q m o1 o2, g.special n = false ∧ p ∈ es ∧ q ∈ es ∧
      ((p.src = n ∧ p.dst = o1) ∨ (p.dst = n ∧ p.src = o1)) ∧
      ((q.src = n ∧ q.dst = o2) ∨ (q.dst = n ∧ q.src = o2)) ∧ o1 ≠ n ∧ o2 ≠ n ∧
      (∀ e ∈ es, e.src = n ∨ e.dst = n → e = p ∨ e = q) ∧
      p.lines = q.lines ∧ p.a.lvl = q.a.lvl ∧ p.a.restr = false ∧ q.a.restr = false ∧
      (∀ e, e ∈ collapseAt g es n ↔ e = m ∨ (e ∈ es ∧ e.src ≠ n ∧ e.dst ≠ n)) ∧ m ∉ es ∧
      Uniq (collapseAt g es n) ∧
      m.src = o1 ∧ m.dst = o2 ∧ m.lines = p.lines ∧ m.a = p.a ∧
      (o1 ≠ o2 → Fits g.pos m ∧
        (∃ l rest, m.geom = some l ∧ (toward g.pos p n).getLast? = some (g.pos n) ∧
          away g.pos q n = g.pos n :: rest ∧
          (l = toward g.pos p n ++ rest ∨ l = toward g.pos p n ++ g.pos n :: rest)) ∧
        (p.a.oneWay = q.a.oneWay →
          (Permits m o1 o2 ↔ Permits p o1 n ∧ Permits q n o2) ∧
          (Permits m o2 o1 ↔ Permits q o2 n ∧ Permits p n o1))) := by
  rcases collapseAt_spec g es hu n with h | ⟨p, q, S⟩
  · exact Or.inl h
  · right
    have hends : ∀ e : Edg N P, ((e.src = n ∧ e.dst ≠ n) ∨ (e.dst = n ∧ e.src ≠ n)) →
        ((e.src = n ∧ e.dst = e.oth n) ∨ (e.dst = n ∧ e.src = e.oth n)) ∧ e.oth n ≠ n := by
      rintro e (⟨h, h'⟩ | ⟨h, h'⟩)
      · rw [oth_src h]; exact ⟨Or.inl ⟨h, rfl⟩, h'⟩
      · rw [oth_dst h']; exact ⟨Or.inr ⟨h, rfl⟩, h'⟩
    refine ⟨p, q, merged g.pos n p q, p.oth n, q.oth n, S.plain, S.pm, S.qm, (hends p S.pe).1, (hends q S.qe).1,
      (hends p S.pe).2, (hends q S.qe).2, S.all, S.lines, S.lvl, S.restr.1, S.restr.2, S.mem,
      fun hm => (S.free _ hm).1 ⟨rfl, rfl⟩, S.uniq, rfl, rfl, rfl, rfl, fun hd => ?_⟩
    obtain ⟨m, hm, h1, h2, _, _, _, _, h3, h4⟩ := step_geometry g es _ n p q S ⟨hf p S.pm, hf q S.qm⟩ hd
    have : m = merged g.pos n p q := by
      rcases (S.mem m).mp hm with h | ⟨h, _⟩
      · exact h
      · exact absurd ⟨h1, h2⟩ (S.free m h).1
    subst this
    exact ⟨h4, h3, fun hw => step_directions g es _ n p q S hw hd⟩

/-! ### C35: the whole graph -/

theorem Reach.trans {es : List (Edg N P)} {u v w : N} (h1 : Reach es u v) (h2 : Reach es v w) : Reach es u w := by
  induction h2 with
  | refl => exact h1
  | step _ he ih => exact Reach.step ih he

/-- One-way edges that meet have the same mark: all are drawn in the direction of travel, or all against it. -/
def Marks (es : List (Edg N P)) : Prop :=
  ∀ e ∈ es, ∀ f ∈ es, (e.src = f.src ∨ e.src = f.dst ∨ e.dst = f.src ∨ e.dst = f.dst) → e.a.oneWay ≠ 0 → f.a.oneWay ≠ 0 →
    e.a.oneWay = f.a.oneWay

/-- E.g. if no edge is drawn against the direction of travel. -/
theorem marks_simple {es : List (Edg N P)} (m : Fin 4) (h : ∀ e ∈ es, e.a.oneWay = 0 ∨ e.a.oneWay = m) : Marks es := by
  intro e he f hf _ h1 h2
  rw [(h e he).resolve_left h1, (h f hf).resolve_left h2]

theorem Step.eqWay {g : Nodes N P} {es es' : List (Edg N P)} {n : N} {p q : Edg N P} (S : Step g es n p q es')
    (hm : Marks es) : p.a.oneWay = q.a.oneWay := by
  by_cases h : p.a.oneWay = 0
  · rw [h, S.way.mp h]
  · refine hm p S.pm q S.qm ?_ h (fun h' => h (S.way.mpr h'))
    rcases S.pe with ⟨h1, _⟩ | ⟨h1, _⟩ <;> rcases S.qe with ⟨h2, _⟩ | ⟨h2, _⟩ <;> simp [h1, h2]

theorem Step.marks {g : Nodes N P} {es es' : List (Edg N P)} {n : N} {p q : Edg N P} (S : Step g es n p q es')
    (hm : Marks es) : Marks es' := by
  have hw := S.eqWay hm
  have hend : ∀ (x y : Edg N P), ((x.src = n ∧ x.dst ≠ n) ∨ (x.dst = n ∧ x.src ≠ n)) → (x.oth n = y.src ∨ x.oth n = y.dst) →
      (x.src = y.src ∨ x.src = y.dst ∨ x.dst = y.src ∨ x.dst = y.dst) := by
    intro x y hx h
    rcases hx with ⟨h1, h2⟩ | ⟨h1, h2⟩
    · rw [show x.oth n = x.dst by simp [Edg.oth, h1]] at h
      exact Or.inr (Or.inr h)
    · rw [show x.oth n = x.src by simp [Edg.oth, h2]] at h
      rcases h with h | h
      · exact Or.inl h
      · exact Or.inr (Or.inl h)
  have hmg : ∀ f ∈ es, (p.oth n = f.src ∨ p.oth n = f.dst ∨ q.oth n = f.src ∨ q.oth n = f.dst) → p.a.oneWay ≠ 0 → f.a.oneWay ≠ 0 →
      p.a.oneWay = f.a.oneWay := by
    intro f hf h h1 h2
    have h : (p.oth n = f.src ∨ p.oth n = f.dst) ∨ (q.oth n = f.src ∨ q.oth n = f.dst) := by
      rcases h with h | h | h | h <;> simp [h]
    rcases h with h | h
    · exact hm p S.pm f hf (hend p f S.pe h) h1 h2
    · rw [hw] at h1 ⊢
      exact hm q S.qm f hf (hend q f S.qe h) h1 h2
  intro e he f hf
  rcases (S.mem e).mp he with rfl | ⟨h, _⟩ <;> rcases (S.mem f).mp hf with rfl | ⟨h', _⟩
  · intros; rfl
  · exact hmg f h'
  · intro hs h1 h2
    refine (hmg e h ?_ h2 h1).symm
    have hs : e.src = p.oth n ∨ e.src = q.oth n ∨ e.dst = p.oth n ∨ e.dst = q.oth n := hs
    rcases hs with k | k | k | k <;> simp [k]
  · exact hm e h f h'

theorem permits_ends {e : Edg N P} {u v : N} (h : Permits e u v) :
    (e.src = u ∧ e.dst = v) ∨ (e.src = v ∧ e.dst = u) := by
  rcases h with ⟨h1, h2, _⟩ | ⟨h1, h2, _⟩
  · exact Or.inl ⟨h1, h2⟩
  · exact Or.inr ⟨h2, h1⟩

/-- An edge with the end `n` (and no loop) leads to the other node. -/
theorem permits_oth {e : Edg N P} {n u : N} (he : (e.src = n ∧ e.dst ≠ n) ∨ (e.dst = n ∧ e.src ≠ n))
    (h : Permits e u n ∨ Permits e n u) : u = e.oth n := by
  have := h.elim permits_ends (fun h => (permits_ends h).symm)
  rcases he with ⟨h1, h2⟩ | ⟨h1, h2⟩
  · rw [oth_src h1]
    rcases this with ⟨h3, h4⟩ | ⟨h3, h4⟩
    · exact absurd h4 h2
    · exact h4.symm
  · rw [oth_dst h2]
    rcases this with ⟨h3, h4⟩ | ⟨h3, h4⟩
    · exact h3.symm
    · exact absurd h3 h2

theorem Step.reach {g : Nodes N P} {es es' : List (Edg N P)} {n : N} {p q : Edg N P} (S : Step g es n p q es')
    (hm : Marks es) (u v : N) (hu : u ≠ n) (hv : v ≠ n) : Reach es u v ↔ Reach es' u v := by
  have hw := S.eqWay hm
  have hmm : merged g.pos n p q ∈ es' := (S.mem _).mpr (Or.inl rfl)
  constructor
  · intro h
    have key : (v ≠ n → Reach es' u v) ∧
        (v = n → ∀ w, (∃ e ∈ es, Permits e n w) → w ≠ n → Reach es' u w) := by
      clear hv
      induction h with
      | refl => exact ⟨fun _ => Reach.refl _, fun h => absurd h hu⟩
      | @step x w hx hex ih =>
        obtain ⟨e, he, hp⟩ := hex
        by_cases hxn : x = n
        · subst hxn
          refine ⟨fun hwn => ih.2 rfl w ⟨e, he, hp⟩ hwn, fun hwn => ?_⟩
          subst hwn
          -- no loop at the node
          exfalso
          have hends := permits_ends hp
          rcases S.all e he (by rcases hends with h | h <;> exact Or.inl h.1) with rfl | rfl
          · rcases S.pe with ⟨h1, h2⟩ | ⟨h1, h2⟩ <;> rcases hends with h | h <;> first
              | exact h2 h.2
              | exact h2 h.1
          · rcases S.qe with ⟨h1, h2⟩ | ⟨h1, h2⟩ <;> rcases hends with h | h <;> first
              | exact h2 h.2
              | exact h2 h.1
        · refine ⟨fun hwn => Reach.step (ih.1 hxn) ⟨e, ?_, hp⟩, fun hwn => ?_⟩
          · refine (S.mem e).mpr (Or.inr ⟨he, ?_⟩)
            rcases permits_ends hp with ⟨h1, h2⟩ | ⟨h1, h2⟩
            · rw [h1, h2]; exact ⟨hxn, hwn⟩
            · rw [h1, h2]; exact ⟨hwn, hxn⟩
          · subst hwn
            rintro y ⟨f, hf, hpf⟩ hy
            have hrx := ih.1 hxn
            have te : e.src = w ∨ e.dst = w := by
              rcases permits_ends hp with h | h
              · exact Or.inr h.2
              · exact Or.inl h.1
            have tf : f.src = w ∨ f.dst = w := by
              rcases permits_ends hpf with h | h
              · exact Or.inl h.1
              · exact Or.inr h.2
            rcases S.all e he te with rfl | rfl <;> rcases S.all f hf tf with rfl | rfl
            · rw [permits_oth S.pe (Or.inr hpf), ← permits_oth S.pe (Or.inl hp)]; exact hrx
            · have e1 := permits_oth S.pe (Or.inl hp)
              have e2 := permits_oth S.qe (Or.inr hpf)
              subst e1 e2
              by_cases hd : e.oth w = f.oth w
              · rw [← hd]; exact hrx
              · exact Reach.step hrx ⟨_, hmm, (step_directions g es es' w e f S hw hd).1.mpr ⟨hp, hpf⟩⟩
            · have e1 := permits_oth S.qe (Or.inl hp)
              have e2 := permits_oth S.pe (Or.inr hpf)
              subst e1 e2
              by_cases hd : f.oth w = e.oth w
              · rw [hd]; exact hrx
              · exact Reach.step hrx ⟨_, hmm, (step_directions g es es' w f e S hw hd).2.mpr ⟨hp, hpf⟩⟩
            · rw [permits_oth S.qe (Or.inr hpf), ← permits_oth S.qe (Or.inl hp)]; exact hrx
    exact key.1 hv
  · intro h
    clear hv
    induction h with
    | refl => exact Reach.refl _
    | @step x w hx hex ih =>
      obtain ⟨e, he, hp⟩ := hex
      rcases (S.mem e).mp he with rfl | ⟨h, _⟩
      · by_cases hd : p.oth n = q.oth n
        · have : x = w := by
            have hs : (merged g.pos n p q).src = p.oth n := rfl
            have ht : (merged g.pos n p q).dst = q.oth n := rfl
            rcases permits_ends hp with ⟨h1, h2⟩ | ⟨h1, h2⟩
            · rw [← h1, ← h2, hs, ht, hd]
            · rw [← h1, ← h2, hs, ht, hd]
          rw [← this]; exact ih
        · have hs : (merged g.pos n p q).src = p.oth n := rfl
          have ht : (merged g.pos n p q).dst = q.oth n := rfl
          rcases permits_ends hp with ⟨h1, h2⟩ | ⟨h1, h2⟩
          · rw [hs] at h1; rw [ht] at h2; subst h1 h2
            have := (step_directions g es es' n p q S hw hd).1.mp hp
            exact Reach.step (Reach.step ih ⟨p, S.pm, this.1⟩) ⟨q, S.qm, this.2⟩
          · rw [hs] at h1; rw [ht] at h2; subst h1 h2
            have := (step_directions g es es' n p q S hw hd).2.mp hp
            exact Reach.step (Reach.step ih ⟨q, S.qm, this.1⟩) ⟨p, S.pm, this.2⟩
      · exact Reach.step ih ⟨e, h, hp⟩

theorem Step.gone {g : Nodes N P} {es es' : List (Edg N P)} {n : N} {p q : Edg N P} (S : Step g es n p q es') :
    ¬ Touched es' n := by
  have hoth : ∀ e : Edg N P, ((e.src = n ∧ e.dst ≠ n) ∨ (e.dst = n ∧ e.src ≠ n)) → e.oth n ≠ n := by
    rintro e (⟨h, h'⟩ | ⟨h, h'⟩)
    · rw [oth_src h]; exact h'
    · rw [oth_dst h']; exact h'
  rintro ⟨e, he, h⟩
  rcases (S.mem e).mp he with rfl | ⟨_, h1, h2⟩
  · rcases h with h | h
    · exact hoth p S.pe h
    · exact hoth q S.qe h
  · exact h.elim h1 h2

theorem Step.touched {g : Nodes N P} {es es' : List (Edg N P)} {n : N} {p q : Edg N P} (S : Step g es n p q es')
    (x : N) (hx : x ≠ n) : Touched es' x ↔ Touched es x := by
  have hs : ∀ e : Edg N P, ((e.src = n ∧ e.dst ≠ n) ∨ (e.dst = n ∧ e.src ≠ n)) →
      ((e.src = x ∨ e.dst = x) ↔ e.oth n = x) := by
    rintro e (⟨h, h'⟩ | ⟨h, h'⟩)
    · rw [oth_src h, h]; simp [Ne.symm hx]
    · rw [oth_dst h', h]; simp [Ne.symm hx]
  constructor
  · rintro ⟨e, he, h⟩
    rcases (S.mem e).mp he with rfl | ⟨h', _⟩
    · rcases h with h | h
      · exact ⟨p, S.pm, (hs p S.pe).mpr h⟩
      · exact ⟨q, S.qm, (hs q S.qe).mpr h⟩
    · exact ⟨e, h', h⟩
  · rintro ⟨e, he, h⟩
    by_cases hn : e.src = n ∨ e.dst = n
    · refine ⟨merged g.pos n p q, (S.mem _).mpr (Or.inl rfl), ?_⟩
      rcases S.all e he hn with rfl | rfl
      · exact Or.inl ((hs e S.pe).mp h)
      · exact Or.inr ((hs e S.qe).mp h)
    · exact ⟨e, (S.mem e).mpr (Or.inr ⟨he, fun h => hn (Or.inl h), fun h => hn (Or.inr h)⟩), h⟩

theorem collapse_fold (g : Nodes N P) (nds : List N) :
    ∀ (es : List (Edg N P)), Uniq es → 
      Uniq (nds.foldl (collapseAt g) es) ∧
      (∀ x, Touched (nds.foldl (collapseAt g) es) x → Touched es x) ∧
      (∀ x, g.special x = true → Touched es x → Touched (nds.foldl (collapseAt g) es) x) ∧
      (Marks es → ∀ u v, Touched (nds.foldl (collapseAt g) es) u → Touched (nds.foldl (collapseAt g) es) v →
        (Reach es u v ↔ Reach (nds.foldl (collapseAt g) es) u v)) := by
  induction nds with
  | nil => intro es hu; exact ⟨hu, fun _ h => h, fun _ _ h => h, fun _ _ _ _ _ => Iff.rfl⟩
  | cons n nds ih =>
    intro es hu
    rw [List.foldl_cons]
    rcases collapseAt_spec g es hu n with h | ⟨p, q, S⟩
    · rw [h]; exact ih es hu
    · obtain ⟨i1, i2, i3, i4⟩ := ih _ S.uniq
      have ne : ∀ x, Touched (nds.foldl (collapseAt g) (collapseAt g es n)) x → x ≠ n := by
        rintro x hx rfl
        exact S.gone (i2 x hx)
      refine ⟨i1, fun x hx => ?_, fun x hs hx => ?_, fun hm u v hu' hv' => ?_⟩
      · exact (S.touched x (ne x hx)).mp (i2 x hx)
      · refine i3 x hs ((S.touched x ?_).mpr hx)
        rintro rfl
        rw [S.plain] at hs; cases hs
      · rw [S.reach hm u v (ne u hu') (ne v hv')]
        exact i4 (S.marks hm) u v hu' hv'

theorem reach_isolated {es : List (Edg N P)} {u v : N} (h : Reach es u v) : u = v ∨ (Touched es u ∧ Touched es v) := by
  induction h with
  | refl => exact Or.inl rfl
  | @step x w _ hex ih =>
    obtain ⟨e, he, hp⟩ := hex
    have hx : Touched es x := by
      rcases permits_ends hp with h | h
      · exact ⟨e, he, Or.inl h.1⟩
      · exact ⟨e, he, Or.inr h.2⟩
    have hw : Touched es w := by
      rcases permits_ends hp with h | h
      · exact ⟨e, he, Or.inr h.2⟩
      · exact ⟨e, he, Or.inl h.1⟩
    rcases ih with rfl | ih
    · exact Or.inr ⟨hx, hw⟩
    · exact Or.inr ⟨ih.1, hw⟩

/-- C35. If no edge is marked as one-way against its direction, collapsing changes nothing about
which of the remaining nodes can be reached from which, the graph remains without multi-edges,
and no station and no turn cycle loses its last edge; so every station can be reached from
exactly the stations from which it could be reached. -/
theorem C35_reach_partial (g : Nodes N P) (es : List (Edg N P)) (hu : Uniq es) (hm : Marks es) :
    Uniq (collapse g es) ∧
    (∀ u v, Touched (collapse g es) u → Touched (collapse g es) v → (Reach es u v ↔ Reach (collapse g es) u v)) ∧
    (∀ u, g.special u = true → Touched es u → Touched (collapse g es) u) ∧
    (∀ u v, g.special u = true → g.special v = true → (Reach es u v ↔ Reach (collapse g es) u v)) := by
  obtain ⟨h1, h2, h3, h4⟩ := collapse_fold g g.nds es hu
  refine ⟨h1, h4 hm, h3, fun u v su sv => ?_⟩
  constructor
  · intro h
    rcases reach_isolated h with rfl | ⟨tu, tv⟩
    · exact Reach.refl _
    · exact (h4 hm u v (h3 u su tu) (h3 v sv tv)).mp h
  · intro h
    rcases reach_isolated h with rfl | ⟨tu, tv⟩
    · exact Reach.refl _
    · exact (h4 hm u v tu tv).mpr h

/-! ### C36: reverse edges -/

/-- What the pass does to the edge list. -/
structure Twins (es es' : List (Edg N P)) : Prop where
  kept : ∃ new, es' = es ++ new ∧ ∀ f ∈ new, ∃ e ∈ es, f = e.rev ∧ ∀ x ∈ es, ¬ (x.src = e.dst ∧ x.dst = e.src)
  uniq : Uniq es'

theorem oDir_step {es0 es : List (Edg N P)} (T : Twins es0 es) (e : Edg N P) (he : e ∈ es) :
    Twins es0 (oDirEdge es e) ∧ (∃ f ∈ oDirEdge es e, f.src = e.dst ∧ f.dst = e.src) ∧
    (∀ f ∈ es, f ∈ oDirEdge es e) ∧ (∀ f ∈ oDirEdge es e, f.src ≠ e.dst → f ∈ es) ∧
    (∀ f ∈ oDirEdge es e, f ∈ es ∨ f = e.rev) := by
  unfold oDirEdge
  cases hg : getEdg es e.dst e.src with
  | some x =>
    have := getEdg_isSome.mp (by rw [hg]; rfl : (getEdg es e.dst e.src).isSome = true)
    exact ⟨T, this, fun f hf => hf, fun f hf _ => hf, fun f hf => Or.inl hf⟩
  | none =>
    have hno : ∀ x ∈ es, ¬ (x.src = e.dst ∧ x.dst = e.src) := by
      intro x hx h
      have : (getEdg es e.dst e.src).isSome = true := getEdg_isSome.mpr ⟨x, hx, h⟩
      rw [hg] at this; cases this
    have hadd : addEdg es e.rev = es ++ [e.rev] := by
      unfold addEdg
      rw [show getEdg es e.rev.src e.rev.dst = none from hg]
    simp only [hadd]
    obtain ⟨new, hn, hnew⟩ := T.kept
    refine ⟨⟨⟨new ++ [e.rev], by rw [hn]; simp, ?_⟩, ?_⟩, ⟨e.rev, by simp, rfl, rfl⟩, fun f hf => by simp [hf], ?_, ?_⟩
    · intro f hf
      rcases List.mem_append.mp hf with hf | hf
      · exact hnew f hf
      · simp only [List.mem_singleton] at hf
        subst hf
        -- a new edge has its original, so it is an original edge that is reversed
        have heo : e ∈ es0 := by
          rw [hn] at he
          rcases List.mem_append.mp he with h | h
          · exact h
          · obtain ⟨e0, h0, rfl, _⟩ := hnew e h
            exact absurd ⟨rfl, rfl⟩ (hno e0 (by rw [hn]; simp [h0]))
        exact ⟨e, heo, rfl, fun x hx => hno x (by rw [hn]; simp [hx])⟩
    · unfold Uniq
      rw [List.pairwise_append]
      refine ⟨T.uniq, List.pairwise_singleton _ _, ?_⟩
      intro a ha b hb
      simp only [List.mem_singleton] at hb
      subst hb
      exact hno a ha
    · intro f hf hs
      rcases List.mem_append.mp hf with hf | hf
      · exact hf
      · simp only [List.mem_singleton] at hf
        subst hf; exact absurd rfl hs
    · intro f hf
      rcases List.mem_append.mp hf with hf | hf
      · exact Or.inl hf
      · exact Or.inr (by simpa using hf)

theorem oDir_inner {es0 : List (Edg N P)} (n : N) : ∀ (l : List (Edg N P)) (es : List (Edg N P)), Twins es0 es →
    (∀ e ∈ l, e ∈ es ∧ e.src = n) →
    Twins es0 (l.foldl oDirEdge es) ∧ (∀ f ∈ es, f ∈ l.foldl oDirEdge es) ∧
    (∀ e ∈ l, ∃ f ∈ l.foldl oDirEdge es, f.src = e.dst ∧ f.dst = e.src) ∧
    (∀ f ∈ l.foldl oDirEdge es, f ∈ es ∨ ∃ e ∈ l, f = e.rev) := by
  intro l
  induction l with
  | nil => intro es T _; exact ⟨T, fun f hf => hf, fun e he => (by cases he), fun f hf => Or.inl hf⟩
  | cons x l ih =>
    intro es T hl
    obtain ⟨T1, t2, t3, _, t5⟩ := oDir_step T x (hl x (by simp)).1
    obtain ⟨i1, i2, i3, i4⟩ := ih (oDirEdge es x) T1 fun e he =>
      ⟨t3 e (hl e (by simp [he])).1, (hl e (by simp [he])).2⟩
    rw [List.foldl_cons]
    refine ⟨i1, fun f hf => i2 f (t3 f hf), fun e he => ?_, fun f hf => ?_⟩
    · rcases List.mem_cons.mp he with rfl | he
      · obtain ⟨f, hf, h⟩ := t2
        exact ⟨f, i2 f hf, h⟩
      · exact i3 e he
    · rcases i4 f hf with h | ⟨e, he, h⟩
      · rcases t5 f h with h | h
        · exact Or.inl h
        · exact Or.inr ⟨x, by simp, h⟩
      · exact Or.inr ⟨e, by simp [he], h⟩

theorem oDir_outer {es0 : List (Edg N P)} : ∀ (nds : List N) (es : List (Edg N P)), Twins es0 es →
    let r := nds.foldl (fun es n => (outs es n).foldl oDirEdge es) es
    Twins es0 r ∧ (∀ f ∈ es, f ∈ r) ∧
    (∀ e ∈ es, e.src ∈ nds → ∃ f ∈ r, f.src = e.dst ∧ f.dst = e.src) := by
  intro nds
  induction nds with
  | nil => intro es T; exact ⟨T, fun f hf => hf, fun e _ h => (by cases h)⟩
  | cons n nds ih =>
    intro es T
    obtain ⟨i1, i2, i3, i4⟩ := oDir_inner n (outs es n) es T fun e he => mem_outs.mp he
    obtain ⟨o1, o2, o3⟩ := ih _ i1
    simp only [List.foldl_cons]
    refine ⟨o1, fun f hf => o2 f (i2 f hf), fun e he hs => ?_⟩
    rcases List.mem_cons.mp hs with h | h
    · obtain ⟨f, hf, hh⟩ := i3 e (mem_outs.mpr ⟨he, h⟩)
      exact ⟨f, o2 f hf, hh⟩
    · exact o3 e (i2 e he) h

/-- C36. After the pass every edge has one in the opposite direction. The old edges are all
there, in the same order. Every edge that was added is the mirror image of an old edge without
an opposite: same lines, geometry, cost, level; one-way marks 1 and 2 exchanged, first and last
hop exchanged. (The nodes given are all nodes; no edge was a reversed one before.) -/
theorem C36_opposite (g : Nodes N P) (es : List (Edg N P)) (hu : Uniq es)
    (hn : ∀ e ∈ es, e.src ∈ g.nds) (hr : ∀ e ∈ es, e.a.rev = false) :
    (∀ e ∈ writeODir g es, ∃ f ∈ writeODir g es, f.src = e.dst ∧ f.dst = e.src) ∧
    Uniq (writeODir g es) ∧
    ∃ new, writeODir g es = es ++ new ∧
      ∀ f ∈ new, ∃ e ∈ es, f.src = e.dst ∧ f.dst = e.src ∧
        (∀ x ∈ es, ¬ (x.src = e.dst ∧ x.dst = e.src)) ∧
        f.lines = e.lines ∧ f.geom = e.geom ∧ f.a.cost = e.a.cost ∧ f.a.lvl = e.a.lvl ∧ f.a.restr = e.a.restr ∧
        (f.a.oneWay = 1 ↔ e.a.oneWay = 2) ∧ (f.a.oneWay = 2 ↔ e.a.oneWay = 1) ∧
        (f.a.oneWay = 0 ↔ e.a.oneWay = 0) ∧
        (∀ u v, Permits f u v ↔ Permits e u v) ∧
        ∀ l : List P, frontHop f.a.rev l = backHop e.a.rev l ∧ backHop f.a.rev l = frontHop e.a.rev l := by
  have T0 : Twins es es := ⟨⟨[], by simp, fun f hf => by cases hf⟩, hu⟩
  obtain ⟨T, h2, h3⟩ := oDir_outer g.nds es T0
  obtain ⟨new, hnew, hn'⟩ := T.kept
  have hw : writeODir g es = es ++ new := hnew
  refine ⟨fun e he => ?_, T.uniq, new, hw, fun f hf => ?_⟩
  · rw [hw] at he
    rcases List.mem_append.mp he with h | h
    · exact h3 e h (hn e h)
    · obtain ⟨e0, h0, rfl, _⟩ := hn' e h
      exact ⟨e0, h2 e0 h0, rfl, rfl⟩
  · obtain ⟨e, he, rfl, hx⟩ := hn' f hf
    refine ⟨e, he, rfl, rfl, hx, rfl, rfl, ?_⟩
    have hrev := hr e he
    have hway : e.rev.a.oneWay = Verif.Payload.flipWay e.a.oneWay := by
      simp [Edg.rev, Attrs.reversed, Verif.Payload.flipWay]
    have hfl : ∀ w : Fin 4, (Verif.Payload.flipWay w = 1 ↔ w = 2) ∧ (Verif.Payload.flipWay w = 2 ↔ w = 1) ∧
        (Verif.Payload.flipWay w = 0 ↔ w = 0) := by decide
    obtain ⟨f1, f2, f3⟩ := hfl e.a.oneWay
    obtain ⟨r1, r2, r3, _, _, _⟩ := Verif.Payload.C36_reversed e.a ([] : List P) hrev
    refine ⟨r1, r2, r3, by rw [hway]; exact f1, by rw [hway]; exact f2, by rw [hway]; exact f3, ?_, ?_⟩
    · intro u v
      unfold Permits
      rw [hway]
      simp only [Edg.rev, ne_eq, f1, f2]
      exact or_comm
    · intro l
      obtain ⟨_, _, _, _, r5, r6⟩ := Verif.Payload.C36_reversed e.a l hrev
      exact ⟨r5, r6⟩

/-! ### findings and examples -/

def pl (w : Fin 4) : Attrs := { oneWay := w, restr := false, rev := false, lvl := 0, cost := 0 }

/-- Nodes are numbers, positions are the numbers times 10, node 0 and 5 are stations. -/
def exG : Nodes Nat Nat := { nds := [0, 1, 2, 3, 4, 5], pos := (10 * ·), special := fun n => n == 0 || n == 5 }

/-- 0 → 1 ← 2 → 3 with a geometry at the second edge. -/
def exE : List (Edg Nat Nat) := [⟨0, 1, pl 0, [7], none⟩, ⟨2, 1, pl 0, [7], some [20, 15, 10]⟩, ⟨2, 5, pl 0, [7], none⟩]

example : (collapse exG exE).map (fun e => (e.src, e.dst, e.geom)) = [(5, 0, some [50, 20, 20, 15, 10, 10, 0])] := by
  decide +kernel

theorem exE_uniq : Uniq exE := by
  unfold Uniq exE
  simp
theorem exE_fits : ∀ e ∈ exE, Fits exG.pos e := by
  intro e he l hl
  simp only [exE, List.mem_cons, List.not_mem_nil, or_false] at he
  rcases he with rfl | rfl | rfl
  · cases hl
  · cases hl; exact ⟨rfl, rfl⟩
  · cases hl
example : Marks exE := by
  apply marks_simple 1
  intro e he
  simp only [exE, List.mem_cons, List.not_mem_nil, or_false] at he
  rcases he with rfl | rfl | rfl <;> exact Or.inl rfl

/-- A one-way street passing two plain nodes; its direction is kept. -/
def wayE : List (Edg Nat Nat) := [⟨0, 1, pl 1, [], none⟩, ⟨1, 2, pl 1, [], none⟩, ⟨2, 5, pl 1, [], none⟩]
example : (collapse exG wayE).map (fun e => (e.src, e.dst, e.a.oneWay, e.geom)) = [(0, 5, 1, some [0, 10, 20, 50])] := by
  decide +kernel

/-- There and back again on two one-way edges. -/
def loopE : List (Edg Nat Nat) := [⟨0, 1, pl 1, [], none⟩, ⟨1, 0, pl 1, [], none⟩]

/-- C35, finding: if both edges lead to the same outer node, this node is taken for the one in
the middle (1580-1586), so the line of the new edge starts and ends in the removed node. -/
theorem C35_negation_loop :
    ∃ (g : Nodes Nat Nat) (es : List (Edg Nat Nat)), Uniq es ∧ (∀ e ∈ es, Fits g.pos e) ∧ Marks es ∧
      ∃ m, collapse g es = [m] ∧ m.src = 0 ∧ m.dst = 0 ∧ m.geom = some [g.pos 1, g.pos 0, g.pos 1] ∧ ¬ Fits g.pos m := by
  refine ⟨exG, loopE, ?_, ?_, ?_, ⟨0, 0, pl 1, [], some [10, 0, 10]⟩, by rfl, rfl, rfl, rfl, ?_⟩
  · unfold Uniq loopE; simp
  · intro e he l hl
    simp only [loopE, List.mem_cons, List.not_mem_nil, or_false] at he
    rcases he with rfl | rfl <;> cases hl
  · apply marks_simple 1
    intro e he
    simp only [loopE, List.mem_cons, List.not_mem_nil, or_false] at he
    rcases he with rfl | rfl <;> exact Or.inr rfl
  · intro h
    have := (h [10, 0, 10] rfl).1
    simp [exG] at this

/-- A one-way edge, continued by one that is one-way against its direction. -/
def mixE : List (Edg Nat Nat) := [⟨0, 1, pl 1, [], none⟩, ⟨1, 5, pl 2, [], none⟩]

/-- C35, finding: whether an edge is one-way is compared, but not in which direction (1565). Two
edges whose permitted directions exclude each other become one that can be travelled. -/
theorem C35_negation_direction :
    ∃ (g : Nodes Nat Nat) (es : List (Edg Nat Nat)), Uniq es ∧ (∀ e ∈ es, Fits g.pos e) ∧
      g.special 0 = true ∧ g.special 5 = true ∧ ¬ Reach es 0 5 ∧ Reach (collapse g es) 0 5 := by
  refine ⟨exG, mixE, ?_, ?_, rfl, rfl, ?_, ?_⟩
  · unfold Uniq mixE; simp
  · intro e he l hl
    simp only [mixE, List.mem_cons, List.not_mem_nil, or_false] at he
    rcases he with rfl | rfl <;> cases hl
  · have : ∀ v, Reach mixE 0 v → v = 0 ∨ v = 1 := by
      intro v h
      induction h with
      | refl => exact Or.inl rfl
      | step _ hex ih =>
        obtain ⟨e, he, hp⟩ := hex
        simp only [mixE, List.mem_cons, List.not_mem_nil, or_false] at he
        rcases he with rfl | rfl
        · rcases permits_ends hp with h | h
          · exact Or.inr h.2.symm
          · exact Or.inl h.1.symm
        · rcases hp with ⟨_, _, h⟩ | ⟨h, _, _⟩
          · exact absurd rfl h
          · simp only at h; omega
    intro h
    have := this 5 h
    omega
  · have : collapse exG mixE = [⟨0, 5, pl 1, [], some [0, 10, 50]⟩] := by rfl
    rw [this]
    exact Reach.step (Reach.refl 0) ⟨⟨0, 5, pl 1, [], some [0, 10, 50]⟩, by simp, Or.inl ⟨rfl, rfl, by decide⟩⟩

/-- Reverse edges: the first edge gets one, the others are opposite to each other. -/
def oppE : List (Edg Nat Nat) :=
  [⟨0, 1, pl 1, [3], some [0, 5, 10]⟩, ⟨1, 2, pl 0, [], some [10, 20]⟩, ⟨2, 1, pl 1, [], some [20, 10]⟩]
example : (writeODir exG oppE).map (fun e => (e.src, e.dst, e.a.oneWay, e.a.rev)) =
    [(0, 1, 1, false), (1, 2, 0, false), (2, 1, 1, false), (1, 0, 2, true)] := by decide +kernel
example : Uniq oppE ∧ (∀ e ∈ oppE, e.src ∈ exG.nds) ∧ ∀ e ∈ oppE, e.a.rev = false := by
  refine ⟨?_, by decide +kernel, by decide +kernel⟩
  unfold Uniq oppE; simp

/-- C36, limit: if the opposite edge exists already it stays as it is, and is not the mirror
image. -/
theorem C36_limit_existing :
    ∃ (g : Nodes Nat Nat) (es : List (Edg Nat Nat)), ∃ e ∈ writeODir g es, ∃ f ∈ writeODir g es,
      f.src = e.dst ∧ f.dst = e.src ∧ e.a.oneWay = 0 ∧ f.a.oneWay = 1 ∧
      ∀ x ∈ writeODir g es, x.src = e.dst → x.dst = e.src → x.a.oneWay = 1 :=
  ⟨exG, oppE, ⟨1, 2, pl 0, [], some [10, 20]⟩, by decide +kernel,
    ⟨2, 1, pl 1, [], some [20, 10]⟩, by decide +kernel, rfl, rfl, rfl, rfl,
    by decide +kernel⟩

end Verif.Collapse
