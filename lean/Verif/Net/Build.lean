import Verif.Net.Lemmas

/-! # The transit network graph (construction of the graph from the map) -/

namespace Verif.Net

variable {E N P G T : Type} [DecidableEq N]

/-- The nodes added so far. -/
structure NInv (g : Gr E N P G) (ns : List N) (ng : Ng N P G) : Prop where
  nodup : ns.Nodup
  nds : ng.nds = ns.map g.pos
  look : ∀ n i, ng.nodes.lookup n = some i ↔ ns[i]? = some n

theorem nodeFor_ok (g : Gr E N P G) (ns : List N) (ng : Ng N P G) (h : NInv g ns ng) (n : N) :
    ∃ t, NInv g (ns ++ t) (nodeFor g ng n).1 ∧ (ns ++ t)[(nodeFor g ng n).2]? = some n ∧ (nodeFor g ng n).1.es = ng.es ∧
      ∀ k, k ∈ ns ++ t ↔ k ∈ ns ∨ k = n := by
  unfold nodeFor
  cases hl : ng.nodes.lookup n with
  | some i =>
    have := (h.look n i).1 hl
    refine ⟨[], ?_, ?_, rfl, ?_⟩
    · simpa using h
    · simpa using this
    · intro k
      simp only [List.append_nil]
      constructor
      · exact Or.inl
      · rintro (hk | rfl)
        · exact hk
        · exact List.mem_iff_getElem?.2 ⟨i, this⟩
  | none =>
    have hn : n ∉ ns := by
      intro hm
      obtain ⟨i, hi⟩ := List.mem_iff_getElem?.1 hm
      rw [(h.look n i).2 hi] at hl; cases hl
    have hlen : ng.nds.length = ns.length := by rw [h.nds, List.length_map]
    refine ⟨[n], ⟨?_, ?_, ?_⟩, ?_, rfl, by simp⟩
    · rw [List.nodup_append]
      refine ⟨h.nodup, by simp, ?_⟩
      intro a ha b hb e
      simp at hb
      exact hn (hb ▸ e ▸ ha)
    · simp [h.nds]
    · intro k i
      rw [List.lookup_cons]
      by_cases hk : k = n
      · subst hk
        simp only [beq_self_eq_true]
        rw [hlen]
        constructor
        · intro e; cases e; simp
        · intro e
          by_cases hi : i < ns.length
          · rw [List.getElem?_append_left hi] at e
            exact absurd (List.mem_iff_getElem?.2 ⟨i, e⟩) hn
          · have : i < (ns ++ [k]).length := (List.getElem?_eq_some_iff.1 e).1
            simp at this
            congr 1; omega
      · have hb : (k == n) = false := by simp [hk]
        rw [hb]
        simp only []
        rw [h.look k i]
        constructor
        · intro e
          rw [List.getElem?_append_left (List.getElem?_eq_some_iff.1 e).1]; exact e
        · intro e
          by_cases hi : i < ns.length
          · rw [List.getElem?_append_left hi] at e; exact e
          · have hi' : i < (ns ++ [n]).length := (List.getElem?_eq_some_iff.1 e).1
            simp at hi'
            have : i = ns.length := by omega
            subst this
            simp at e
            exact absurd e.symm hk
    · rw [hlen]; simp

/-- The graph that has been built from the entries `done`. -/
structure BInv (g : Gr E N P G) (f : Feed T) (done : Map E T) (ns : List N) (ng : Ng N P G) : Prop where
  n : NInv g ns ng
  mem : ∀ k, k ∈ ns ↔ ∃ e ts, (some e, ts) ∈ done ∧ (k = g.src e ∨ k = g.dst e)
  sound : ∀ x ∈ ng.es, ∃ e ts geo, (some e, ts) ∈ done ∧ ns[x.a]? = some (g.src e) ∧ ns[x.b]? = some (g.dst e) ∧ g.geom e = some geo ∧
    x = payload f x.a x.b geo ts
  joined : ∀ e ts, (some e, ts) ∈ done → ∃ x ∈ ng.es, (ns[x.a]? = some (g.src e) ∧ ns[x.b]? = some (g.dst e)) ∨
    (ns[x.a]? = some (g.dst e) ∧ ns[x.b]? = some (g.src e))
  once : ng.es.Pairwise fun x y => ¬ ((x.a = y.a ∧ x.b = y.b) ∨ (x.a = y.b ∧ x.b = y.a))

omit [DecidableEq N] in
theorem get_append {ns t : List N} {i : Nat} {n : N} (h : ns[i]? = some n) : (ns ++ t)[i]? = some n := by
  rw [List.getElem?_append_left (List.getElem?_eq_some_iff.1 h).1]; exact h

theorem addEntry_ok (g : Gr E N P G) (f : Feed T) (done : Map E T) (ns : List N) (ng : Ng N P G) (h : BInv g f done ns ng)
    (e : E) (ts : List T) (geo : G) (hg : g.geom e = some geo) :
    ∃ ns' ng', addEntry g f ng (some e, ts) = some ng' ∧ BInv g f (done ++ [(some e, ts)]) ns' ng' := by
  obtain ⟨t1, n1, i1, es1, m1⟩ := nodeFor_ok g ns ng h.n (g.src e)
  obtain ⟨t2, n2, i2, es2, m2⟩ := nodeFor_ok g (ns ++ t1) (nodeFor g ng (g.src e)).1 n1 (g.dst e)
  unfold addEntry
  dsimp only
  rw [hg]
  dsimp only
  refine ⟨ns ++ t1 ++ t2, _, rfl, ?_⟩
  generalize nodeFor g ng (g.src e) = X at *
  generalize nodeFor g X.1 (g.dst e) = Y at *
  have i1' := get_append (t := t2) i1
  have memd : ∀ k, k ∈ ns ++ t1 ++ t2 ↔ ∃ e' ts', (some e', ts') ∈ done ++ [(some e, ts)] ∧ (k = g.src e' ∨ k = g.dst e') := by
    intro k
    rw [m2, m1, h.mem]
    constructor
    · rintro ((⟨e', ts', h1, h2⟩ | rfl) | rfl)
      · exact ⟨e', ts', List.mem_append_left _ h1, h2⟩
      · exact ⟨e, ts, List.mem_append_right _ (List.mem_singleton.2 rfl), Or.inl rfl⟩
      · exact ⟨e, ts, List.mem_append_right _ (List.mem_singleton.2 rfl), Or.inr rfl⟩
    · rintro ⟨e', ts', h1, h2⟩
      rcases List.mem_append.1 h1 with h1 | h1
      · exact Or.inl (Or.inl ⟨e', ts', h1, h2⟩)
      · cases List.mem_singleton.1 h1
        rcases h2 with rfl | rfl
        · exact Or.inl (Or.inr rfl)
        · exact Or.inr rfl
  have hes : Y.1.es = ng.es := es2.trans es1
  have old : ∀ x ∈ ng.es, ∃ e' ts' geo', (some e', ts') ∈ done ++ [(some e, ts)] ∧ (ns ++ t1 ++ t2)[x.a]? = some (g.src e') ∧
      (ns ++ t1 ++ t2)[x.b]? = some (g.dst e') ∧ g.geom e' = some geo' ∧ x = payload f x.a x.b geo' ts' := by
    intro x hx
    obtain ⟨e', ts', geo', a1, a2, a3, a4, a5⟩ := h.sound x hx
    exact ⟨e', ts', geo', List.mem_append_left _ a1, get_append (get_append a2), get_append (get_append a3), a4, a5⟩
  have n2' : ∀ es, NInv g (ns ++ t1 ++ t2) { Y.1 with es := es } := fun es => ⟨n2.nodup, n2.nds, n2.look⟩
  rw [hes]
  unfold addEdg
  by_cases hx : (ng.es.any fun x => (x.a == (payload f X.2 Y.2 geo ts).a && x.b == (payload f X.2 Y.2 geo ts).b) ||
      (x.a == (payload f X.2 Y.2 geo ts).b && x.b == (payload f X.2 Y.2 geo ts).a)) = true
  · rw [if_pos hx]
    refine ⟨n2' _, memd, old, ?_, h.once⟩
    intro e' ts' h1
    rcases List.mem_append.1 h1 with h1 | h1
    · obtain ⟨x, hxm, hj⟩ := h.joined e' ts' h1
      refine ⟨x, hxm, ?_⟩
      rcases hj with ⟨a, b⟩ | ⟨a, b⟩
      · exact Or.inl ⟨get_append (get_append a), get_append (get_append b)⟩
      · exact Or.inr ⟨get_append (get_append a), get_append (get_append b)⟩
    · cases List.mem_singleton.1 h1
      obtain ⟨x, hxm, hj⟩ := List.any_eq_true.1 hx
      refine ⟨x, hxm, ?_⟩
      simp only [Bool.or_eq_true, Bool.and_eq_true, beq_iff_eq, payload] at hj
      rcases hj with ⟨a, b⟩ | ⟨a, b⟩
      · exact Or.inl ⟨by rw [a]; exact i1', by rw [b]; exact i2⟩
      · exact Or.inr ⟨by rw [a]; exact i2, by rw [b]; exact i1'⟩
  · rw [if_neg hx]
    refine ⟨n2' _, memd, ?_, ?_, ?_⟩
    · intro x hxm
      rcases List.mem_append.1 hxm with hxm | hxm
      · exact old x hxm
      · cases List.mem_singleton.1 hxm
        exact ⟨e, ts, geo, List.mem_append_right _ (List.mem_singleton.2 rfl), i1', i2, hg, rfl⟩
    · intro e' ts' h1
      rcases List.mem_append.1 h1 with h1 | h1
      · obtain ⟨x, hxm, hj⟩ := h.joined e' ts' h1
        refine ⟨x, List.mem_append_left _ hxm, ?_⟩
        rcases hj with ⟨a, b⟩ | ⟨a, b⟩
        · exact Or.inl ⟨get_append (get_append a), get_append (get_append b)⟩
        · exact Or.inr ⟨get_append (get_append a), get_append (get_append b)⟩
      · cases List.mem_singleton.1 h1
        exact ⟨_, List.mem_append_right _ (List.mem_singleton.2 rfl), Or.inl ⟨i1', i2⟩⟩
    · show (ng.es ++ [payload f X.2 Y.2 geo ts]).Pairwise _
      rw [List.pairwise_append]
      refine ⟨h.once, by simp, ?_⟩
      intro x hxm y hy hc
      cases List.mem_singleton.1 hy
      apply hx
      rw [List.any_eq_true]
      refine ⟨x, hxm, ?_⟩
      simp only [Bool.or_eq_true, Bool.and_eq_true, beq_iff_eq]
      exact hc

theorem build_ok (g : Gr E N P G) (f : Feed T) : ∀ (m done : Map E T) (ns : List N) (ng : Ng N P G), BInv g f done ns ng →
    (∀ p ∈ m, ∃ e geo, p.1 = some e ∧ g.geom e = some geo) → ∃ ns' ng', buildNetGraph g f m ng = some ng' ∧ BInv g f (done ++ m) ns' ng'
  | [], done, ns, ng, h, _ => ⟨ns, ng, rfl, by simpa using h⟩
  | (k, ts) :: m, done, ns, ng, h, hm => by
    obtain ⟨e, geo, he, hg⟩ := hm (k, ts) (List.mem_cons_self ..)
    dsimp only at he
    subst he
    obtain ⟨ns1, ng1, h1, b1⟩ := addEntry_ok g f done ns ng h e ts geo hg
    obtain ⟨ns2, ng2, h2, b2⟩ := build_ok g f m _ ns1 ng1 b1 fun p hp => hm p (List.mem_cons_of_mem _ hp)
    refine ⟨ns2, ng2, ?_, ?_⟩
    · unfold buildNetGraph; rw [h1]; exact h2
    · simpa using b2

theorem binv_nil (g : Gr E N P G) (f : Feed T) : BInv g f [] [] ⟨[], [], []⟩ :=
  ⟨⟨List.nodup_nil, rfl, fun n i => by simp⟩, by simp, by simp, by simp, by simp⟩

/-! ### keys and pieces -/

variable [DecidableEq E]

theorem getEdg_iff {g : Gr E N P G} (ok : GraphOk g) (a b : N) (e : E) : getEdg g a b = some e ↔ e ∈ g.es ∧ g.src e = a ∧ g.dst e = b := by
  unfold getEdg
  constructor
  · intro h
    have h1 := List.mem_of_find?_eq_some h
    have h2 := List.find?_some h
    simp only [Bool.and_eq_true, decide_eq_true_eq] at h2
    exact ⟨h1, h2⟩
  · rintro ⟨h1, rfl, rfl⟩
    cases hf : g.es.find? fun x => decide (g.src x = g.src e) && decide (g.dst x = g.dst e) with
    | none =>
      have := List.find?_eq_none.1 hf e h1
      simp at this
    | some x =>
      have h2 := List.find?_some hf
      simp only [Bool.and_eq_true, decide_eq_true_eq] at h2
      rw [ok.uniq x (List.mem_of_find?_eq_some hf) e h1 h2.1 h2.2]

/-- The key of an edge is the piece it belongs to. -/
theorem keyOf_iff {g : Gr E N P G} (ok : GraphOk g) {e x : E} (he : e ∈ g.es) : keyOf g x = some e ↔ Over g e x := by
  unfold keyOf Over
  cases hr : g.rev x with
  | false => simp
  | true =>
    simp only [if_true]
    rw [getEdg_iff ok]
    constructor
    · rintro ⟨_, h1, h2⟩; exact Or.inr ⟨trivial, h1, h2⟩
    · rintro (⟨h, _⟩ | ⟨_, h1, h2⟩)
      · cases h
      · exact ⟨he, h1, h2⟩

theorem keyOf_some {g : Gr E N P G} (ok : GraphOk g) {x : E} (hx : x ∈ g.es) : ∃ e ∈ g.es, keyOf g x = some e := by
  unfold keyOf
  cases hr : g.rev x with
  | false => exact ⟨x, hx, by simp⟩
  | true =>
    obtain ⟨e, he, h1, h2⟩ := ok.opp x hx
    exact ⟨e, he, by simp only [if_true]; exact (getEdg_iff ok _ _ _).2 ⟨he, h1, h2⟩⟩

theorem keyed_rides (g : Gr E N P G) (forests : List (List (Leaf E T))) :
    forests.flatten.flatMap (keyed g) = (rides forests).map fun r => (keyOf g r.2, r.1) := by
  unfold rides keyed
  rw [List.map_flatMap]
  congr 1
  funext l
  rw [List.map_flatMap]
  congr 1
  funext x
  rw [List.map_map]
  rfl

end Verif.Net
