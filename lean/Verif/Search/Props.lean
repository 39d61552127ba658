import Verif.Search.Model

/-!
# Searching stations and blockers along the tracks (properties)

C72.
-/

set_option linter.unusedSectionVars false

namespace Verif.Search
open Verif.Collapse

variable {N P D : Type} [DecidableEq N] [Dist D]

/-! ### specification -/

/-- The turn at `n` from edge `f` to the node `c` counts: `n` is a crossing and the turn is sharp. -/
def Sharp (v : Env N P D) (f : Edg N P) (n c : N) : Prop :=
  (v.es.filter fun e => e.dst = n).length + (v.es.filter fun e => e.src = n).length > 2 ∧ v.sharp f n c = true

/-- A walk along the tracks from a point on edge `e`, with the distances `dF` and `dT` to its ends: last edge, node, length, number of
sharp turns. Directions do not matter. -/
inductive Walk (v : Env N P D) (e : Edg N P) (dF dT : D) : Edg N P → N → D → Int → Prop
  | src : Walk v e dF dT e e.src dF 0
  | dst : e.src ≠ e.dst → Walk v e dF dT e e.dst dT 0
  | step {f n d t} (g : Edg N P) (c : N) : Walk v e dF dT f n d t → g ∈ v.es → (g.src = n ∧ g.dst = c ∨ g.dst = n ∧ g.src = c) →
      c ≠ n → ¬ Sharp v f n c → Walk v e dF dT g c (d + v.len g) t
  | sharp {f n d t} (g : Edg N P) (c : N) : Walk v e dF dT f n d t → g ∈ v.es → (g.src = n ∧ g.dst = c ∨ g.dst = n ∧ g.src = c) →
      c ≠ n → Sharp v f n c → Walk v e dF dT g c (d + v.len g) (t + 1)

/-- What the queue is assumed to do: it yields one of its elements, and nothing is better than it provided that all elements have as many
turns; otherwise `Cand.less` is no order (`C72_negation_order`), and the standard library promises nothing. -/
def Picks (pick : List (Cand N P D) → Option (Cand N P D × List (Cand N P D))) : Prop :=
  pick [] = none ∧ ∀ q, q ≠ [] → ∃ c q', pick q = some (c, q') ∧ (c :: q').Perm q ∧
    ((∀ x ∈ q, ∀ y ∈ q, x.turns = y.turns) → ∀ x ∈ q', c.less x = false)

/-! ### lemmas -/

theorem lt_le {a b : D} (h : a < b) : a ≤ b := by
  rcases Dist.le_total a b with h1 | h1
  · exact h1
  · exact absurd h1 ((Dist.lt_iff a b).1 h)

theorem lt_of_le_lt {a b c : D} (h : a ≤ b) (h' : b < c) : a < c := by
  rw [Dist.lt_iff] at h' ⊢
  exact fun hc => h' (Dist.le_trans _ _ _ hc h)

theorem not_lt {a b : D} : ¬ a < b ↔ b ≤ a := by
  rw [Dist.lt_iff]
  constructor
  · intro h; exact Decidable.of_not_not h
  · intro h h'; exact h' h

theorem mem_nbrs {es : List (Edg N P)} {n : N} {g : Edg N P} {c : N} :
    (g, c) ∈ nbrs es n ↔ g ∈ es ∧ (g.src = n ∧ g.dst = c ∨ g.dst = n ∧ g.src = c) := by
  unfold nbrs ins outs
  simp only [List.mem_append, List.mem_map, List.mem_filter, decide_eq_true_eq, Prod.mk.injEq]
  constructor
  · rintro (⟨e, ⟨h1, h2⟩, rfl, rfl⟩ | ⟨e, ⟨h1, h2⟩, rfl, rfl⟩)
    · exact ⟨h1, Or.inr ⟨h2, rfl⟩⟩
    · exact ⟨h1, Or.inl ⟨h2, rfl⟩⟩
  · rintro ⟨h1, ⟨h2, h3⟩ | ⟨h2, h3⟩⟩
    · exact Or.inr ⟨g, ⟨h1, h2⟩, rfl, h3⟩
    · exact Or.inl ⟨g, ⟨h1, h2⟩, rfl, h3⟩

theorem length_nbrs (es : List (Edg N P)) (n : N) :
    (nbrs es n).length = (es.filter fun e => e.dst = n).length + (es.filter fun e => e.src = n).length := by
  simp [nbrs, ins, outs]

theorem fullTurn_sharp (v : Env N P D) (cur : Cand N P D) (c : N) :
    (Sharp v cur.edge cur.node c ∧ fullTurn v cur c = 1) ∨ (¬ Sharp v cur.edge cur.node c ∧ fullTurn v cur c = 0) := by
  unfold fullTurn Sharp
  rw [length_nbrs]
  by_cases h : (v.es.filter fun e => e.dst = cur.node).length + (v.es.filter fun e => e.src = cur.node).length > 2 ∧
      v.sharp cur.edge cur.node c = true
  · exact Or.inl ⟨h, by rw [if_pos (by simp [h])]⟩
  · refine Or.inr ⟨h, ?_⟩
    rw [if_neg]
    simpa using h

/-- What is known of the elements of the queue. -/
def Lab (v : Env N P D) (e : Edg N P) (dF dT : D) (c : Cand N P D) : Prop :=
  Walk v e dF dT c.edge c.node c.dist c.turns ∧ (v.maxTurns < 0 ∨ c.turns ≤ v.maxTurns)

theorem allowed_iff (v : Env N P D) (cur : Cand N P D) (closed : List N) (x : Edg N P × N) :
    allowed v cur closed x = true ↔ (v.maxTurns < 0 ∨ cur.turns + fullTurn v cur x.2 ≤ v.maxTurns) ∧
      cur.dist + v.len x.1 < v.maxD ∧ x.2 ∉ closed := by
  simp [allowed, and_assoc]

theorem Lab.next {v : Env N P D} {e : Edg N P} {dF dT : D} {cur : Cand N P D} {closed : List N} {x : Edg N P × N}
    (h : Lab v e dF dT cur) (hx : x ∈ nbrs v.es cur.node) (hne : x.2 ≠ cur.node) (ha : allowed v cur closed x = true) :
    Lab v e dF dT ⟨cur.dist + v.len x.1, x.2, x.1, cur.turns + fullTurn v cur x.2⟩ := by
  obtain ⟨hg, hc⟩ := mem_nbrs.1 (show (x.1, x.2) ∈ nbrs v.es cur.node from hx)
  refine ⟨?_, ((allowed_iff v cur closed x).1 ha).1⟩
  simp only
  rcases fullTurn_sharp v cur x.2 with ⟨h1, h2⟩ | ⟨h1, h2⟩
  · rw [h2]; exact .sharp x.1 x.2 h.1 hg hc hne h1
  · rw [h2, Int.add_zero]; exact .step x.1 x.2 h.1 hg hc hne h1

theorem expand_sound {v : Env N P D} {e : Edg N P} {dF dT : D} {cur : Cand N P D} {closed : List N} (h : Lab v e dF dT cur)
    (xs : List (Edg N P × N)) (hx : ∀ x ∈ xs, x ∈ nbrs v.es cur.node) (q : List (Cand N P D)) (hq : ∀ c ∈ q, Lab v e dF dT c) :
    (∀ n, expand v cur closed xs q = .inl n → v.sfunc n = true ∧
      ∃ f d t, Walk v e dF dT f n d t ∧ d < v.maxD ∧ (v.maxTurns < 0 ∨ t ≤ v.maxTurns)) ∧
    ∀ q', expand v cur closed xs q = .inr q' → ∀ c ∈ q', Lab v e dF dT c := by
  induction xs generalizing q with
  | nil =>
    unfold expand
    refine ⟨by simp, ?_⟩
    intro q' h1
    simp only [Sum.inr.injEq] at h1
    subst h1
    exact hq
  | cons x xs ih =>
    have hxs := fun y hy => hx y (List.mem_cons_of_mem _ hy)
    unfold expand
    by_cases h1 : x.2 = cur.node
    · rw [if_pos h1]; exact ih hxs q hq
    · rw [if_neg h1]
      by_cases h2 : allowed v cur closed x = true
      · rw [if_pos h2]
        have hl := h.next (hx x (by simp)) h1 h2
        by_cases h3 : v.sfunc x.2 = true
        · rw [if_pos h3]
          refine ⟨?_, by simp⟩
          intro n hn
          simp only [Sum.inl.injEq] at hn
          subst hn
          exact ⟨h3, _, _, _, hl.1, ((allowed_iff v cur closed x).1 h2).2.1, hl.2⟩
        · rw [if_neg h3]
          refine ih hxs _ ?_
          intro c hc
          rcases List.mem_cons.1 hc with rfl | hc
          · exact hl
          · exact hq c hc
      · rw [if_neg h2]; exact ih hxs q hq

/-- Soundness needs nothing of the queue but that it yields its elements. -/
theorem loop_sound {v : Env N P D} {e : Edg N P} {dF dT : D} {pick} (hp : Picks (N := N) (P := P) (D := D) pick) (k : Nat)
    (q : List (Cand N P D)) (closed : List N) (hq : ∀ c ∈ q, Lab v e dF dT c) (n : N) (hn : loop v pick k q closed = some (some n)) :
    v.sfunc n = true ∧ ∃ f d t, Walk v e dF dT f n d t ∧ d < v.maxD ∧ (v.maxTurns < 0 ∨ t ≤ v.maxTurns) := by
  induction k generalizing q closed with
  | zero => simp [loop] at hn
  | succ k ih =>
    unfold loop at hn
    by_cases hq0 : q = []
    · subst hq0
      rw [hp.1] at hn
      simp at hn
    · obtain ⟨c, q', h1, h2, _⟩ := hp.2 q hq0
      have hlc : Lab v e dF dT c := hq c (h2.mem_iff.1 (by simp))
      have hlq : ∀ x ∈ q', Lab v e dF dT x := fun x hx => hq x (h2.mem_iff.1 (by simp [hx]))
      rw [h1] at hn
      simp only at hn
      by_cases hc : c.node ∈ closed
      · rw [if_pos hc] at hn; exact ih q' closed hlq hn
      · rw [if_neg hc] at hn
        have hs := expand_sound (closed := c.node :: closed) hlc (nbrs v.es c.node) (fun _ h => h) q' hlq
        cases hx : expand v c (c.node :: closed) (nbrs v.es c.node) q' with
        | inl m =>
          rw [hx] at hn
          simp only [Option.some.injEq] at hn
          subst hn
          exact hs.1 m hx
        | inr q'' =>
          rw [hx] at hn
          exact ih q'' _ (hs.2 q'' hx) hn

/-! ### the loop ends -/

/-- Ends of edges that are not closed. -/
def openEnds (es : List (Edg N P)) (closed : List N) : Nat :=
  (es.filter fun e => e.src ∉ closed).length + (es.filter fun e => e.dst ∉ closed).length

theorem filter_close (es : List (Edg N P)) (f : Edg N P → N) (closed : List N) (n : N) (hn : n ∉ closed) :
    (es.filter fun e => f e ∉ n :: closed).length + (es.filter fun e => f e = n).length = (es.filter fun e => f e ∉ closed).length := by
  induction es with
  | nil => rfl
  | cons e es ih =>
    by_cases h1 : f e = n
    · have h2 : f e ∉ closed := by rw [h1]; exact hn
      simp only [List.filter_cons, h1, List.mem_cons, true_or, not_true_eq_false, decide_false, decide_true, if_true]
      rw [h1] at h2
      simp only [h2, not_false_eq_true, decide_true, if_true, List.length_cons]
      simp only [List.mem_cons] at ih
      simp only [Bool.false_eq_true, if_false]
      omega
    · by_cases h2 : f e ∈ closed
      · simp only [List.filter_cons, List.mem_cons, h1, h2, or_true, not_true_eq_false, decide_false, Bool.false_eq_true, if_false]
        simp only [List.mem_cons] at ih
        exact ih
      · simp only [List.filter_cons, List.mem_cons, h1, h2, or_false, not_false_eq_true, decide_true, decide_false, if_true,
          Bool.false_eq_true, if_false, List.length_cons]
        simp only [List.mem_cons] at ih
        omega

theorem openEnds_close (es : List (Edg N P)) (closed : List N) (n : N) (hn : n ∉ closed) :
    openEnds es (n :: closed) + (nbrs es n).length = openEnds es closed := by
  have h1 := filter_close es (fun e => e.src) closed n hn
  have h2 := filter_close es (fun e => e.dst) closed n hn
  rw [length_nbrs]
  unfold openEnds
  omega

theorem expand_length {v : Env N P D} {cur : Cand N P D} {closed : List N} (xs : List (Edg N P × N)) (q q' : List (Cand N P D))
    (h : expand v cur closed xs q = .inr q') : q'.length ≤ q.length + xs.length := by
  induction xs generalizing q with
  | nil => unfold expand at h; simp only [Sum.inr.injEq] at h; subst h; simp
  | cons x xs ih =>
    unfold expand at h
    split at h
    · have := ih q h; simp only [List.length_cons]; omega
    · split at h
      · split at h
        · cases h
        · have := ih _ h; simp only [List.length_cons] at this ⊢; omega
      · have := ih q h; simp only [List.length_cons]; omega

theorem loop_ends {v : Env N P D} {pick} (hp : Picks (N := N) (P := P) (D := D) pick) (k : Nat) (q : List (Cand N P D)) (closed : List N)
    (hk : q.length + openEnds v.es closed < k) : ∃ r, loop v pick k q closed = some r := by
  induction k generalizing q closed with
  | zero => omega
  | succ k ih =>
    unfold loop
    by_cases hq0 : q = []
    · subst hq0; rw [hp.1]; exact ⟨none, rfl⟩
    · obtain ⟨c, q', h1, h2, _⟩ := hp.2 q hq0
      have hl : q'.length + 1 = q.length := by simpa using h2.length_eq
      rw [h1]
      simp only
      by_cases hc : c.node ∈ closed
      · rw [if_pos hc]; exact ih q' closed (by omega)
      · rw [if_neg hc]
        cases hx : expand v c (c.node :: closed) (nbrs v.es c.node) q' with
        | inl m => exact ⟨_, rfl⟩
        | inr q'' =>
          have h3 := expand_length _ _ _ hx
          have h4 := openEnds_close v.es closed c.node hc
          exact ih q'' _ (by omega)

/-! ### completeness without sharp turns -/

/-- What holds while nothing was found. `lab`: the length with which a node was closed. -/
structure Inv (v : Env N P D) (e : Edg N P) (dF dT : D) (q : List (Cand N P D)) (closed : List N) (lab : N → D) : Prop where
  turns : ∀ c ∈ q, c.turns = 0
  mono : ∀ u ∈ closed, ∀ c ∈ q, lab u ≤ c.dist
  src : (e.src ∈ closed ∧ lab e.src ≤ dF) ∨ ∃ c ∈ q, c.node = e.src ∧ c.dist ≤ dF
  dst : e.src ≠ e.dst → (e.dst ∈ closed ∧ lab e.dst ≤ dT) ∨ ∃ c ∈ q, c.node = e.dst ∧ c.dist ≤ dT
  edge : ∀ u ∈ closed, ∀ g x, g ∈ v.es → (g.src = u ∧ g.dst = x ∨ g.dst = u ∧ g.src = x) → x ≠ u → lab u + v.len g < v.maxD →
    (x ∈ closed ∧ lab x ≤ lab u + v.len g) ∨ ∃ c ∈ q, c.node = x ∧ c.dist ≤ lab u + v.len g
  bad : ∀ c ∈ q, c.dist < v.maxD → v.sfunc c.node = false
  badc : ∀ u ∈ closed, lab u < v.maxD → v.sfunc u = false

/-- What the queue is after the edges of a node were looked at. -/
theorem expand_spec {v : Env N P D} {cur : Cand N P D} {closed : List N} (hns : ∀ f n c, v.sharp f n c = false)
    (hmt : v.maxTurns < 0 ∨ 0 ≤ v.maxTurns) (ht : cur.turns = 0)
    (xs : List (Edg N P × N)) (q q' : List (Cand N P D)) (h : expand v cur closed xs q = .inr q') :
    (∀ c ∈ q, c ∈ q') ∧
    (∀ c ∈ q', c ∈ q ∨ (c.turns = 0 ∧ ∃ x ∈ xs, c.node = x.2 ∧ c.dist = cur.dist + v.len x.1 ∧ v.sfunc c.node = false ∧ c.node ∉ closed)) ∧
    ∀ x ∈ xs, x.2 ≠ cur.node → x.2 ∉ closed → cur.dist + v.len x.1 < v.maxD → ∃ c ∈ q', c.node = x.2 ∧ c.dist = cur.dist + v.len x.1 := by
  have hft : ∀ c, fullTurn v cur c = 0 := by intro c; unfold fullTurn; simp [hns]
  induction xs generalizing q with
  | nil =>
    unfold expand at h
    simp only [Sum.inr.injEq] at h
    subst h
    exact ⟨fun _ h => h, fun _ h => Or.inl h, by simp⟩
  | cons x xs ih =>
    unfold expand at h
    by_cases h1 : x.2 = cur.node
    · rw [if_pos h1] at h
      obtain ⟨a1, a2, a3⟩ := ih q h
      refine ⟨a1, ?_, ?_⟩
      · intro c hc
        rcases a2 c hc with h | ⟨h2, y, hy, h3⟩
        · exact Or.inl h
        · exact Or.inr ⟨h2, y, List.mem_cons_of_mem _ hy, h3⟩
      · intro y hy hy1
        rcases List.mem_cons.1 hy with rfl | hy
        · exact absurd h1 hy1
        · exact a3 y hy hy1
    · rw [if_neg h1] at h
      by_cases h2 : allowed v cur closed x = true
      · rw [if_pos h2] at h
        by_cases h3 : v.sfunc x.2 = true
        · rw [if_pos h3] at h; cases h
        · rw [if_neg h3] at h
          obtain ⟨a1, a2, a3⟩ := ih _ h
          refine ⟨fun c hc => a1 c (List.mem_cons_of_mem _ hc), ?_, ?_⟩
          · intro c hc
            rcases a2 c hc with h4 | ⟨h4, y, hy, h5⟩
            · rcases List.mem_cons.1 h4 with rfl | h4
              · refine Or.inr ⟨by simp [hft, ht], x, by simp, rfl, rfl, by simpa using h3, ((allowed_iff v cur closed x).1 h2).2.2⟩
              · exact Or.inl h4
            · exact Or.inr ⟨h4, y, List.mem_cons_of_mem _ hy, h5⟩
          · intro y hy hy1 hy2 hy3
            rcases List.mem_cons.1 hy with rfl | hy
            · exact ⟨_, a1 _ List.mem_cons_self, rfl, rfl⟩
            · exact a3 y hy hy1 hy2 hy3
      · rw [if_neg h2] at h
        obtain ⟨a1, a2, a3⟩ := ih q h
        refine ⟨a1, ?_, ?_⟩
        · intro c hc
          rcases a2 c hc with h | ⟨h2, y, hy, h3⟩
          · exact Or.inl h
          · exact Or.inr ⟨h2, y, List.mem_cons_of_mem _ hy, h3⟩
        · intro y hy hy1 hy2 hy3
          rcases List.mem_cons.1 hy with rfl | hy
          · refine absurd ((allowed_iff v cur closed y).2 ⟨?_, hy3, hy2⟩) h2
            rw [hft, ht]
            simpa using hmt
          · exact a3 y hy hy1 hy2 hy3

theorem loop_none {v : Env N P D} {e : Edg N P} {dF dT : D} {pick} (hp : Picks (N := N) (P := P) (D := D) pick)
    (hns : ∀ f n c, v.sharp f n c = false) (hmt : v.maxTurns < 0 ∨ 0 ≤ v.maxTurns) (hlen : ∀ g ∈ v.es, ∀ a, a ≤ a + v.len g) (k : Nat) (q : List (Cand N P D))
    (closed : List N) (lab : N → D) (hI : Inv v e dF dT q closed lab) (hn : loop v pick k q closed = some none) :
    ∃ closed' lab', Inv v e dF dT [] closed' lab' := by
  induction k generalizing q closed lab with
  | zero => simp [loop] at hn
  | succ k ih =>
    unfold loop at hn
    by_cases hq0 : q = []
    · subst hq0; exact ⟨closed, lab, hI⟩
    · obtain ⟨c, q', h1, h2, h3⟩ := hp.2 q hq0
      have hcq : c ∈ q := h2.mem_iff.1 (by simp)
      have hqq : ∀ x ∈ q', x ∈ q := fun x hx => h2.mem_iff.1 (by simp [hx])
      have hqc : ∀ x ∈ q, x = c ∨ x ∈ q' := fun x hx => by simpa using h2.mem_iff.2 hx
      have hmin : ∀ x ∈ q', c.dist ≤ x.dist := by
        intro x hx
        have := h3 (fun x hx y hy => by rw [hI.turns x hx, hI.turns y hy]) x hx
        simp only [Cand.less, Bool.or_eq_false_iff, decide_eq_false_iff_not] at this
        exact not_lt.1 this.2
      rw [h1] at hn
      simp only at hn
      by_cases hc : c.node ∈ closed
      · rw [if_pos hc] at hn
        refine ih q' closed lab ?_ hn
        have key : ∀ x b, ((x ∈ closed ∧ lab x ≤ b) ∨ ∃ c ∈ q, c.node = x ∧ c.dist ≤ b) →
            ((x ∈ closed ∧ lab x ≤ b) ∨ ∃ c ∈ q', c.node = x ∧ c.dist ≤ b) := by
          rintro x b (h | ⟨d, hd, h4, h5⟩)
          · exact Or.inl h
          · rcases hqc d hd with rfl | hd'
            · left; rw [← h4]; exact ⟨hc, Dist.le_trans _ _ _ (hI.mono _ hc _ hcq) h5⟩
            · exact Or.inr ⟨d, hd', h4, h5⟩
        exact ⟨fun x hx => hI.turns x (hqq x hx), fun u hu x hx => hI.mono u hu x (hqq x hx), key _ _ hI.src,
          fun h => key _ _ (hI.dst h), fun u hu g x a1 a2 a3 a4 => key _ _ (hI.edge u hu g x a1 a2 a3 a4),
          fun x hx => hI.bad x (hqq x hx), hI.badc⟩
      · rw [if_neg hc] at hn
        cases hx : expand v c (c.node :: closed) (nbrs v.es c.node) q' with
        | inl m => rw [hx] at hn; simp at hn
        | inr q'' =>
          rw [hx] at hn
          simp only at hn
          obtain ⟨b1, b2, b3⟩ := expand_spec hns hmt (hI.turns c hcq) _ _ _ hx
          -- the new labels
          let lab' : N → D := fun u => if u = c.node then c.dist else lab u
          have hl1 : lab' c.node = c.dist := if_pos rfl
          have hl2 : ∀ u ∈ closed, lab' u = lab u := by
            intro u hu
            apply if_neg
            rintro rfl
            exact hc hu
          have key : ∀ x b, ((x ∈ closed ∧ lab x ≤ b) ∨ ∃ c ∈ q, c.node = x ∧ c.dist ≤ b) →
              ((x ∈ c.node :: closed ∧ lab' x ≤ b) ∨ ∃ c ∈ q'', c.node = x ∧ c.dist ≤ b) := by
            rintro x b (⟨h4, h5⟩ | ⟨d, hd, h4, h5⟩)
            · exact Or.inl ⟨List.mem_cons_of_mem _ h4, by rw [hl2 x h4]; exact h5⟩
            · rcases hqc d hd with rfl | hd'
              · left; rw [← h4]; exact ⟨by simp, by rw [hl1]; exact h5⟩
              · exact Or.inr ⟨d, b1 d hd', h4, h5⟩
          have hge : ∀ x ∈ q'', c.dist ≤ x.dist := by
            intro x hx
            rcases b2 x hx with h4 | ⟨_, y, hy, _, h5, _⟩
            · exact hmin x h4
            · rw [h5]; exact hlen y.1 (mem_nbrs.1 (show (y.1, y.2) ∈ _ from hy)).1 _
          refine ih q'' (c.node :: closed) lab' ⟨?_, ?_, key _ _ hI.src, fun h => key _ _ (hI.dst h), ?_, ?_, ?_⟩ hn
          · intro x hx
            rcases b2 x hx with h4 | ⟨h4, _⟩
            · exact hI.turns x (hqq x h4)
            · exact h4
          · intro u hu x hx
            rcases List.mem_cons.1 hu with rfl | hu
            · rw [hl1]; exact hge x hx
            · rw [hl2 u hu]
              exact Dist.le_trans _ _ _ (hI.mono u hu c hcq) (hge x hx)
          · intro u hu g x a1 a2 a3 a4
            rcases List.mem_cons.1 hu with rfl | hu
            · rw [hl1] at a4 ⊢
              by_cases hxc : x ∈ c.node :: closed
              · left
                refine ⟨hxc, ?_⟩
                rcases List.mem_cons.1 hxc with h | h
                · exact absurd h a3
                · rw [hl2 x h]
                  exact Dist.le_trans _ _ _ (hI.mono x h c hcq) (hlen g a1 _)
              · right
                obtain ⟨d, hd, h4, h5⟩ := b3 (g, x) (mem_nbrs.2 ⟨a1, a2⟩) a3 hxc a4
                exact ⟨d, hd, h4, by rw [h5]; exact Dist.le_refl _⟩
            · rw [hl2 u hu] at a4 ⊢
              exact key _ _ (hI.edge u hu g x a1 a2 a3 a4)
          · intro x hx hlt
            rcases b2 x hx with h4 | ⟨_, _, _, _, _, h5, _⟩
            · exact hI.bad x (hqq x h4) hlt
            · exact h5
          · intro u hu hlt
            rcases List.mem_cons.1 hu with rfl | hu
            · rw [hl1] at hlt; exact hI.bad c hcq hlt
            · rw [hl2 u hu] at hlt; exact hI.badc u hu hlt

theorem Inv.walk {v : Env N P D} {e : Edg N P} {dF dT : D} {closed : List N} {lab : N → D} (hI : Inv v e dF dT [] closed lab)
    (hlen : ∀ g ∈ v.es, ∀ a, a ≤ a + v.len g) {f : Edg N P} {n : N} {d : D} {t : Int} (hw : Walk v e dF dT f n d t) :
    d < v.maxD → n ∈ closed ∧ lab n ≤ d := by
  have key : ∀ {x b}, ((x ∈ closed ∧ lab x ≤ b) ∨ ∃ c ∈ ([] : List (Cand N P D)), c.node = x ∧ c.dist ≤ b) → x ∈ closed ∧ lab x ≤ b := by
    rintro x b (h | ⟨c, hc, _⟩)
    · exact h
    · cases hc
  have step : ∀ {n d c} {g : Edg N P}, (d < v.maxD → n ∈ closed ∧ lab n ≤ d) → g ∈ v.es → (g.src = n ∧ g.dst = c ∨ g.dst = n ∧ g.src = c) →
      c ≠ n → d + v.len g < v.maxD → c ∈ closed ∧ lab c ≤ d + v.len g := by
    intro n d c g ih hg hc hne hd
    obtain ⟨h1, h2⟩ := ih (lt_of_le_lt (hlen g hg d) hd)
    have h3 := Dist.add_mono _ _ (v.len g) h2
    obtain ⟨h4, h5⟩ := key (hI.edge n h1 g c hg hc hne (lt_of_le_lt h3 hd))
    exact ⟨h4, Dist.le_trans _ _ _ h5 h3⟩
  induction hw with
  | src => intro _; exact key hI.src
  | dst h => intro _; exact key (hI.dst h)
  | step g c _ hg hc hne _ ih => exact step ih hg hc hne
  | sharp g c _ hg hc hne _ ih => exact step ih hg hc hne

/-- C72. The search ends, and what it finds is wanted and is found by a walk along the tracks that is not too long and that has not
too many sharp turns. -/
theorem C72_sound (v : Env N P D) (pick) (hp : Picks (N := N) (P := P) (D := D) pick) (e : Edg N P) (dF dT : D) :
    ∃ r, depthSearch v pick e dF dT = some r ∧
      ∀ n, r = some n → v.sfunc n = true ∧
        ((n = e.src ∧ dF ≤ v.maxD) ∨ (n = e.dst ∧ dT ≤ v.maxD) ∨
          ∃ f d t, Walk v e dF dT f n d t ∧ d < v.maxD ∧ (v.maxTurns < 0 ∨ t ≤ v.maxTurns)) := by
  unfold depthSearch
  split
  · exact ⟨none, rfl, by simp⟩
  · split
    · rename_i h
      refine ⟨_, rfl, ?_⟩
      intro n hn
      cases hn
      exact ⟨h.2, Or.inl ⟨rfl, h.1⟩⟩
    · split
      · rename_i h
        refine ⟨_, rfl, ?_⟩
        intro n hn
        cases hn
        exact ⟨h.2, Or.inr (Or.inl ⟨rfl, h.1⟩)⟩
      · have hf : openEnds v.es [] = 2 * v.es.length := by
          unfold openEnds
          rw [List.filter_eq_self.2 (by simp), List.filter_eq_self.2 (by simp)]
          omega
        obtain ⟨r, hr⟩ := loop_ends hp (v := v) (fuel v) (⟨dF, e.src, e, 0⟩ :: if e.src = e.dst then [] else [⟨dT, e.dst, e, 0⟩]) [] (by
          rw [hf]; unfold fuel; split <;> simp <;> omega)
        refine ⟨r, hr, ?_⟩
        rintro n rfl
        have h0 : v.maxTurns < 0 ∨ (0 : Int) ≤ v.maxTurns := by omega
        obtain ⟨h1, h2⟩ := loop_sound (e := e) (dF := dF) (dT := dT) hp _ _ _ (by
          intro c hc
          rcases List.mem_cons.1 hc with rfl | hc
          · exact ⟨.src, h0⟩
          · split at hc
            · cases hc
            · rename_i hne
              simp only [List.mem_singleton] at hc
              subst hc
              exact ⟨.dst hne, h0⟩) n hr
        exact ⟨h1, Or.inr (Or.inr h2)⟩

/-- C72 (partial). If no turn is sharp, the search finds something if there is something to be found within the distance. -/
theorem C72_complete_partial (v : Env N P D) (pick) (hp : Picks (N := N) (P := P) (D := D) pick) (e : Edg N P) (dF dT : D)
    (hns : ∀ f n c, v.sharp f n c = false) (hlen : ∀ g ∈ v.es, ∀ a, a ≤ a + v.len g) (n : N) (hn : v.sfunc n = true)
    (hex : (n = e.src ∧ dF ≤ v.maxD) ∨ (n = e.dst ∧ dT ≤ v.maxD) ∨ ∃ f d t, Walk v e dF dT f n d t ∧ d < v.maxD) :
    ∃ m, depthSearch v pick e dF dT = some (some m) := by
  obtain ⟨r, hr, _⟩ := C72_sound v pick hp e dF dT
  cases r with
  | some m => exact ⟨m, hr⟩
  | none =>
    exfalso
    unfold depthSearch at hr
    -- the length of a walk is at least that of one of its beginnings
    have hge : ∀ {f n d t}, Walk v e dF dT f n d t → dF ≤ d ∨ dT ≤ d := by
      intro f n d t hw
      induction hw with
      | src => exact Or.inl (Dist.le_refl _)
      | dst h => exact Or.inr (Dist.le_refl _)
      | step g c _ hg _ _ _ ih =>
        rcases ih with h | h
        · exact Or.inl (Dist.le_trans _ _ _ h (hlen g hg _))
        · exact Or.inr (Dist.le_trans _ _ _ h (hlen g hg _))
      | sharp g c _ hg _ _ _ ih =>
        rcases ih with h | h
        · exact Or.inl (Dist.le_trans _ _ _ h (hlen g hg _))
        · exact Or.inr (Dist.le_trans _ _ _ h (hlen g hg _))
    split at hr
    · rename_i h
      rw [Dist.lt_iff, Dist.lt_iff] at h
      rcases hex with ⟨_, h1⟩ | ⟨_, h1⟩ | ⟨f, d, t, hw, h1⟩
      · exact h.1 h1
      · exact h.2 h1
      · rcases hge hw with h2 | h2
        · exact h.1 (Dist.le_trans _ _ _ h2 (lt_le h1))
        · exact h.2 (Dist.le_trans _ _ _ h2 (lt_le h1))
    · split at hr
      · simp at hr
      · split at hr
        · simp at hr
        · rename_i h1 h2
          have hs1 : dF < v.maxD → v.sfunc e.src = false := by
            intro h
            cases hh : v.sfunc e.src with
            | false => rfl
            | true => exact absurd ⟨lt_le h, hh⟩ h1
          have hs2 : dT < v.maxD → v.sfunc e.dst = false := by
            intro h
            cases hh : v.sfunc e.dst with
            | false => rfl
            | true => exact absurd ⟨lt_le h, hh⟩ h2
          have hI : Inv v e dF dT (⟨dF, e.src, e, 0⟩ :: if e.src = e.dst then [] else [⟨dT, e.dst, e, 0⟩]) [] (fun _ => dF) := by
            refine ⟨?_, by simp, Or.inr ⟨_, List.mem_cons_self, rfl, Dist.le_refl _⟩, ?_, by simp, ?_, by simp⟩
            · intro c hc
              rcases List.mem_cons.1 hc with rfl | hc
              · rfl
              · split at hc
                · cases hc
                · simp only [List.mem_singleton] at hc; subst hc; rfl
            · intro hne
              rw [if_neg hne]
              exact Or.inr ⟨⟨dT, e.dst, e, 0⟩, by simp, rfl, Dist.le_refl _⟩
            · intro c hc
              rcases List.mem_cons.1 hc with rfl | hc
              · exact hs1
              · split at hc
                · cases hc
                · simp only [List.mem_singleton] at hc; subst hc; exact hs2
          obtain ⟨closed, lab, hE⟩ := loop_none hp hns (by omega) hlen _ _ _ _ hI hr
          rcases hex with ⟨rfl, h4⟩ | ⟨rfl, h4⟩ | ⟨f, d, t, hw, h4⟩
          · exact h1 ⟨h4, hn⟩
          · exact h2 ⟨h4, hn⟩
          · obtain ⟨h5, h6⟩ := hE.walk hlen hw h4
            have := hE.badc n h5 (lt_of_le_lt h6 h4)
            rw [hn] at this
            cases this

/-! ### the order of the queue -/

/-- C72. Among elements with as many turns the order of the queue is a proper one (a strict weak order). -/
theorem C72_order (a b c : Cand N P D) (hab : a.turns = b.turns) (hbc : b.turns = c.turns) :
    a.less a = false ∧ (a.less b = true → b.less a = false) ∧ (a.less b = true → b.less c = true → a.less c = true) ∧
    (a.less b = false → b.less a = false → b.less c = false → c.less b = false → a.less c = false ∧ c.less a = false) := by
  have hac := hab.trans hbc
  have h1 : ∀ x y : Cand N P D, x.turns = y.turns → (x.less y = true ↔ y.dist < x.dist) := by
    intro x y h
    simp [Cand.less, h]
  have h2 : ∀ x y : Cand N P D, x.turns = y.turns → (x.less y = false ↔ x.dist ≤ y.dist) := by
    intro x y h
    rw [← Bool.not_eq_true, h1 x y h, not_lt]
  rw [h1 a b hab, h1 b c hbc, h1 a c hac, h2 a a rfl, h2 b a hab.symm, h2 a b hab, h2 b c hbc, h2 c b hbc.symm, h2 a c hac, h2 c a hac.symm]
  refine ⟨Dist.le_refl _, lt_le, fun h3 h4 => lt_of_le_lt (lt_le h4) h3, fun h3 h4 h5 h6 => ⟨Dist.le_trans _ _ _ h3 h5, Dist.le_trans _ _ _ h6 h4⟩⟩

/-! ### examples and what fails -/

instance : Dist Nat where
  le_refl := Nat.le_refl
  le_trans _ _ _ := Nat.le_trans
  le_total := Nat.le_total
  lt_iff _ _ := Nat.not_le.symm
  add_mono _ _ _ h := Nat.add_le_add_right h _
  decLe := Nat.decLe
  decLt := Nat.decLt

def mkE (u w : Nat) : Edg Nat Nat := ⟨u, w, { restr := false, oneWay := 0, rev := false, lvl := 0, cost := 0 }, [], none⟩

/-- C72 (negation). In general the order of the queue is none: of these two, each one is less than the other one. -/
theorem C72_negation_order : (⟨0, 1, mkE 0 1, 1⟩ : Cand Nat Nat Nat).less ⟨5, 2, mkE 0 2, 0⟩ = true ∧
    (⟨5, 2, mkE 0 2, 0⟩ : Cand Nat Nat Nat).less ⟨0, 1, mkE 0 1, 1⟩ = true := by decide

/-- A queue: the first element with the smallest distance. -/
def pickMin : List (Cand Nat Nat Nat) → Option (Cand Nat Nat Nat × List (Cand Nat Nat Nat))
  | [] => none
  | c :: q =>
    match pickMin q with
    | none => some (c, [])
    | some (d, q') => if c.dist ≤ d.dist then some (c, d :: q') else some (d, c :: q')

theorem pickMin_picks : Picks pickMin := by
  refine ⟨rfl, ?_⟩
  intro q hq
  have main : ∃ c q', pickMin q = some (c, q') ∧ (c :: q').Perm q ∧ ∀ x ∈ q', c.dist ≤ x.dist := by
    induction q with
    | nil => exact absurd rfl hq
    | cons a q ih =>
      by_cases h : q = []
      · subst h
        exact ⟨a, [], rfl, List.Perm.refl _, by simp⟩
      · obtain ⟨c, q', h1, h2, h3⟩ := ih h
        by_cases hc : a.dist ≤ c.dist
        · refine ⟨a, c :: q', by simp [pickMin, h1, hc], h2.cons a, ?_⟩
          intro x hx
          rcases List.mem_cons.1 hx with rfl | hx
          · exact hc
          · exact Nat.le_trans hc (h3 x hx)
        · refine ⟨c, a :: q', by simp [pickMin, h1, hc], (List.Perm.swap a c q').trans (h2.cons a), ?_⟩
          intro x hx
          rcases List.mem_cons.1 hx with rfl | hx
          · exact Nat.le_of_lt (Nat.lt_of_not_le hc)
          · exact h3 x hx
  obtain ⟨c, q', h1, h2, h3⟩ := main
  refine ⟨c, q', h1, h2, ?_⟩
  intro ht x hx
  have h4 := ht c (h2.mem_iff.1 (by simp)) x (h2.mem_iff.1 (by simp [hx]))
  simp only [Cand.less, h4, Bool.or_eq_false_iff, decide_eq_false_iff_not]
  have := h3 x hx
  exact ⟨Int.lt_irrefl _, Nat.not_lt.2 this⟩

/-- A crossing `2` that is reached from `1` and over a detour from `3`; who comes from `1` has a sharp turn to `4`. -/
def exV (sharp : Bool) (maxTurns : Int) (maxD : Nat) : Env Nat Nat Nat where
  es := [mkE 0 1, mkE 1 2, mkE 0 3, mkE 3 2, mkE 2 4]
  len e := if e.src = 3 then 2 else 1
  sharp f n c := sharp && decide (f.src = 1 ∧ n = 2 ∧ c = 4)
  maxD := maxD
  maxTurns := maxTurns
  sfunc n := n = 4

/-- Without sharp turns the node `4` is found. -/
example : depthSearch (exV false 0 10) pickMin (mkE 0 1) 1 1 = some (some 4) := by decide
/-- But not if it is too far away; the length is `1 + 1 + 1`. -/
example : depthSearch (exV false 0 4) pickMin (mkE 0 1) 1 1 = some (some 4) ∧
    depthSearch (exV false 0 3) pickMin (mkE 0 1) 1 1 = some none := by decide
/-- With one sharp turn allowed it is found. -/
example : depthSearch (exV true 1 10) pickMin (mkE 0 1) 1 1 = some (some 4) := by decide
/-- The hypotheses of `C72_complete_partial` can be met. -/
example : ∃ m, depthSearch (exV false 0 10) pickMin (mkE 0 1) 1 1 = some (some m) :=
  C72_complete_partial _ _ pickMin_picks _ _ _ (by simp [exV]) (fun g _ a => Nat.le_add_right _ _) 4 (by decide)
    (Or.inr (Or.inr ⟨_, _, _, .step (mkE 2 4) 4 (.step (mkE 1 2) 2 (.dst (by decide)) (by simp [exV]) (by decide) (by decide)
      (by simp [Sharp, exV])) (by simp [exV]) (by decide) (by decide) (by simp [Sharp, exV]), by decide⟩))

/-- C72 (negation). With a limit for sharp turns the search misses what can be reached within the limits: the crossing `2` is closed by the
shorter walk, from where the turn is too sharp, and the longer walk without any sharp turn is not followed. -/
theorem C72_negation_complete : ∃ (v : Env Nat Nat Nat) (e : Edg Nat Nat) (n : Nat), v.maxTurns = 0 ∧ v.sfunc n = true ∧
    (∃ f d, Walk v e 1 1 f n d 0 ∧ d < v.maxD) ∧ depthSearch v pickMin e 1 1 = some none := by
  refine ⟨exV true 0 10, mkE 0 1, 4, rfl, rfl, ⟨mkE 2 4, 5, ?_, by decide⟩, by decide⟩
  exact .step (f := mkE 3 2) (n := 2) (d := 4) (mkE 2 4) 4
    (.step (f := mkE 0 3) (n := 3) (d := 2) (mkE 3 2) 2
      (.step (f := mkE 0 1) (n := 0) (d := 1) (mkE 0 3) 3 .src (by simp [exV]) (by decide) (by decide) (by simp [Sharp, exV, mkE]))
      (by simp [exV]) (by decide) (by decide) (by simp [Sharp, exV]))
    (by simp [exV]) (by decide) (by decide) (by simp [Sharp, exV, mkE])

end Verif.Search
