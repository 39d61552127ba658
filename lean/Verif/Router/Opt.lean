import Verif.Router.Lemmas

namespace Verif.Router
open Verif.Trie (Nd WF lt_of_get get_of_lt)
variable {E C X D S P A : Type}

theorem Laws.irr {ops : CostOps C} (L : Laws ops) (a : C) : ops.lt a a = false := by
  cases hb : ops.lt a a with
  | false => rfl
  | true => have := L.asymm a a hb; rw [hb] at this; cases this

/-! ### transitions tried and transitions of the specification -/

theorem nullPrefix_spec (l : List (Cand E C X)) : nullPrefix l ≤ l.length ∧
    (∀ j, j < nullPrefix l → ∃ c, l[j]? = some c ∧ c.e = none) ∧
    (∀ c, l[nullPrefix l]? = some c → c.e ≠ none) := by
  induction l with
  | nil => simp [nullPrefix]
  | cons c cs ih =>
    cases he : c.e with
    | some e => simp [nullPrefix, he]
    | none =>
      obtain ⟨h1, h2, h3⟩ := ih
      simp only [nullPrefix, he, Option.isSome_none, Bool.false_eq_true, if_false, List.length_cons]
      refine ⟨by omega, ?_, ?_⟩
      · intro j hj
        cases j with
        | zero => exact ⟨c, rfl, he⟩
        | succ j => simpa using h2 j (by omega)
      · intro d hd; exact h3 d (by simpa using hd)

theorem lt_nullPrefix (l : List (Cand E C X)) (k : Nat) :
    k < nullPrefix l ↔ ∀ j, j ≤ k → ∃ c, l[j]? = some c ∧ c.e = none := by
  obtain ⟨h1, h2, h3⟩ := nullPrefix_spec l
  constructor
  · intro h j hj; exact h2 j (by omega)
  · intro h
    by_cases hk : k < nullPrefix l
    · exact hk
    · obtain ⟨c, hc, he⟩ := h (nullPrefix l) (by omega)
      exact absurd he (h3 c hc)

theorem firstDummy_le (l : List (Cand E C X)) (k : Nat) (hk : k < l.length) :
    firstDummy l ≤ k ↔ ∃ (j : Nat) (d : Cand E C X), 1 ≤ j ∧ j ≤ k ∧ l[j]? = some d ∧ d.e ≠ none := by
  obtain ⟨h1, h2, h3⟩ := nullPrefix_spec (l.drop 1)
  unfold firstDummy
  constructor
  · intro h
    have hl : 1 + nullPrefix (l.drop 1) < l.length := by omega
    refine ⟨1 + nullPrefix (l.drop 1), l[1 + nullPrefix (l.drop 1)], by omega, h,
      List.getElem?_eq_getElem hl, h3 _ ?_⟩
    rw [List.getElem?_drop]; exact List.getElem?_eq_getElem hl
  · intro ⟨j, d, g1, g2, g3, g4⟩
    by_cases hh : 1 + nullPrefix (l.drop 1) ≤ k
    · exact hh
    · obtain ⟨c, hc, he⟩ := h2 (j - 1) (by omega)
      rw [List.getElem?_drop, show 1 + (j - 1) = j from by omega, g3] at hc
      cases hc; exact absurd he g4

theorem stays_iff (f t : Nd P A) : (f.arr && !t.arr) = true ↔ Stays f t := by
  simp [Stays]

/-- Every transition tried is one of the specification. -/
theorem transOf_sound (env : Env E C X D S) (nid : Nat) (f t : Nd P A) (ents : List (Ent D)) (fb : Option UInt32)
    (u : Tr C) (hu : u ∈ transOf env nid f t ents fb) (x : C) : Step env nid f t ents fb u.fr u.to x (u.f x) := by
  unfold transOf at hu
  by_cases hs : (f.arr && !t.arr) = true
  · rw [if_pos hs] at hu
    simp only [depTrans, List.mem_flatMap, List.mem_range] at hu
    obtain ⟨to, hto, hu⟩ := hu
    cases hc : (env.ecm nid)[to]? with
    | none => rw [hc] at hu; cases hu
    | some cand =>
      rw [hc] at hu
      simp only [List.mem_map] at hu
      obtain ⟨fr, hfr, rfl⟩ := hu
      exact Step.stay cand ((stays_iff f t).mp hs) hc hfr
  · rw [if_neg hs] at hu
    have hns : ¬ Stays f t := fun h => hs ((stays_iff f t).mpr h)
    rcases List.mem_append.mp hu with hu | hu
    · simp only [matTrans, List.mem_filterMap] at hu
      obtain ⟨m, hm, hu⟩ := hu
      cases hc : (env.ecm nid)[m.to]? with
      | none => rw [hc] at hu; cases hu
      | some cand =>
        rw [hc] at hu
        simp only [Option.some.injEq] at hu
        subst hu
        exact Step.hop cand m hns hm rfl rfl hc
    · cases fb with
      | none => cases hu
      | some mc =>
        simp only at hu
        rcases List.mem_append.mp hu with hu | hu
        · simp only [nullTrans, List.mem_flatMap, List.mem_range, List.mem_map] at hu
          obtain ⟨fr, hfr, to, hto, rfl⟩ := hu
          exact Step.null mc hns rfl hfr ((lt_nullPrefix _ _).mp hto)
        · simp only [dummyTrans, List.mem_flatMap, List.mem_range, List.mem_filterMap] at hu
          obtain ⟨fr, hfr, k, hk, hu⟩ := hu
          cases hc : (env.ecm nid)[firstDummy (env.ecm nid) + k]? with
          | none => rw [hc] at hu; cases hu
          | some cand =>
            rw [hc] at hu
            simp only [Option.some.injEq] at hu
            subst hu
            obtain ⟨j, d, g1, g2, g3, g4⟩ := (firstDummy_le (env.ecm nid) (firstDummy (env.ecm nid) + k)
              (List.getElem?_eq_some_iff.mp hc).1).mp (by omega)
            exact Step.dummy mc cand j d hns rfl hfr hc g1 g2 g3 g4

/-- Every transition of the specification is tried. -/
theorem transOf_complete (env : Env E C X D S) (nid : Nat) (f t : Nd P A) (ents : List (Ent D))
    (fb : Option UInt32) (fr to : Nat) (x c : C) (h : Step env nid f t ents fb fr to x c) :
    ∃ u ∈ transOf env nid f t ents fb, u.fr = fr ∧ u.to = to ∧ u.f x = c := by
  unfold transOf
  cases h with
  | stay cand hs hc hfr =>
    rw [if_pos ((stays_iff f t).mpr hs)]
    refine ⟨⟨fr, to, fun c => env.ops.add c cand.pen⟩, ?_, rfl, rfl, rfl⟩
    simp only [depTrans, List.mem_flatMap, List.mem_range]
    refine ⟨to, (List.getElem?_eq_some_iff.mp hc).1, ?_⟩
    rw [hc]
    exact List.mem_map.mpr ⟨fr, hfr, rfl⟩
  | hop cand m hs hm h1 h2 hc =>
    subst h1 h2
    rw [if_neg (fun h => hs ((stays_iff f t).mp h))]
    refine ⟨⟨m.fr, m.to, fun c => env.ops.add (env.ops.add c cand.pen) (env.weight nid m)⟩, ?_, rfl, rfl, rfl⟩
    apply List.mem_append_left
    simp only [matTrans, List.mem_filterMap]
    exact ⟨m, hm, by rw [hc]⟩
  | null mc hs hfb hfr hall =>
    rw [if_neg (fun h => hs ((stays_iff f t).mp h))]
    subst hfb
    refine ⟨⟨fr, to, fun c => env.ops.add c (env.ops.ofU32 (mc * 100))⟩, ?_, rfl, rfl, rfl⟩
    apply List.mem_append_right
    apply List.mem_append_left
    simp only [nullTrans, List.mem_flatMap, List.mem_range, List.mem_map]
    exact ⟨fr, hfr, to, (lt_nullPrefix _ _).mpr hall, rfl⟩
  | dummy mc cand j d hs hfb hfr hc g1 g2 g3 g4 =>
    rw [if_neg (fun h => hs ((stays_iff f t).mp h))]
    subst hfb
    refine ⟨⟨fr, to, fun c => env.ops.add c cand.pen⟩, ?_, rfl, rfl, rfl⟩
    apply List.mem_append_right
    apply List.mem_append_right
    have hlt := (List.getElem?_eq_some_iff.mp hc).1
    have hle := (firstDummy_le (env.ecm nid) to hlt).mpr ⟨j, d, g1, g2, g3, g4⟩
    simp only [dummyTrans, List.mem_flatMap, List.mem_range, List.mem_filterMap]
    refine ⟨fr, hfr, to - firstDummy (env.ecm nid), by omega, ?_⟩
    rw [show firstDummy (env.ecm nid) + (to - firstDummy (env.ecm nid)) = to from by omega, hc]

theorem transOf_mono {env : Env E C X D S} (L : Laws env.ops) (nid : Nat) (f t : Nd P A) (ents : List (Ent D))
    (fb : Option UInt32) (u : Tr C) (hu : u ∈ transOf env nid f t ents fb) :
    (∀ x y, env.ops.lt y x = false → env.ops.lt (u.f y) (u.f x) = false) ∧
    env.ops.lt (u.f env.ops.inf) env.ops.inf = false := by
  have one : ∀ p : C, (∀ x y, env.ops.lt y x = false → env.ops.lt (env.ops.add y p) (env.ops.add x p) = false) ∧
      env.ops.lt (env.ops.add env.ops.inf p) env.ops.inf = false :=
    fun p => ⟨fun x y h => L.mono x y p h, L.add_inf p⟩
  unfold transOf at hu
  by_cases hs : (f.arr && !t.arr) = true
  · rw [if_pos hs] at hu
    simp only [depTrans, List.mem_flatMap, List.mem_range] at hu
    obtain ⟨to, hto, hu⟩ := hu
    cases hc : (env.ecm nid)[to]? with
    | none => rw [hc] at hu; cases hu
    | some cand =>
      rw [hc] at hu
      simp only [List.mem_map] at hu
      obtain ⟨fr, hfr, rfl⟩ := hu
      exact one _
  · rw [if_neg hs] at hu
    rcases List.mem_append.mp hu with hu | hu
    · simp only [matTrans, List.mem_filterMap] at hu
      obtain ⟨m, hm, hu⟩ := hu
      cases hc : (env.ecm nid)[m.to]? with
      | none => rw [hc] at hu; cases hu
      | some cand =>
        rw [hc] at hu
        simp only [Option.some.injEq] at hu
        subst hu
        refine ⟨fun x y h => L.mono _ _ _ (L.mono _ _ _ h), ?_⟩
        exact L.trans _ _ _ (L.add_inf (env.weight nid m)) (L.mono _ _ _ (L.add_inf cand.pen))
    · cases fb with
      | none => cases hu
      | some mc =>
        simp only at hu
        rcases List.mem_append.mp hu with hu | hu
        · simp only [nullTrans, List.mem_flatMap, List.mem_range, List.mem_map] at hu
          obtain ⟨fr, hfr, to, hto, rfl⟩ := hu
          exact one _
        · simp only [dummyTrans, List.mem_flatMap, List.mem_range, List.mem_filterMap] at hu
          obtain ⟨fr, hfr, k, hk, hu⟩ := hu
          cases hc : (env.ecm nid)[firstDummy (env.ecm nid) + k]? with
          | none => rw [hc] at hu; cases hu
          | some cand =>
            rw [hc] at hu
            simp only [Option.some.injEq] at hu
            subst hu
            exact one _

/-! ### layers -/

theorem layer_len {env : Env E C X D S} {nds : List (Nd P A)} (w : WF nds) (s : S) {nid : Nat} {t : Nd P A}
    (h0 : nid ≠ 0) (ht : nds[nid]? = some t) :
    ((search env nds s).layers nid).length = (env.ecm nid).length := by
  have ok := search_spec env w s nid t h0 ht
  by_cases hp : t.parent = 0
  · rw [ok.root hp]; simp
  · obtain ⟨f, hf⟩ := get_of_lt (l := nds) (i := t.parent) (by
      cases nid with
      | zero => exact absurd rfl h0
      | succ i => have := w.par i t ht; have := lt_of_get ht; omega)
    rw [(ok.next hp f hf).1, relaxAll_len]; simp [initLayer]

theorem par_lt {nds : List (Nd P A)} (w : WF nds) {nid : Nat} {t : Nd P A} (h0 : nid ≠ 0)
    (ht : nds[nid]? = some t) : t.parent < nid := by
  cases nid with
  | zero => exact absurd rfl h0
  | succ i => exact w.par i t ht

theorem mkHop_joins (env : Env E C X D S) (nid : Nat) (a b : Cand E C X) : Joins env nid a b (mkHop env nid a b) := by
  unfold Joins mkHop Cand.end
  cases a.e <;> cases b.e <;> simp

/-- What the search computes for each candidate of each node: finite costs are the costs of a
sequence, back-tracking yields its hops, and no sequence is cheaper. -/
theorem search_opt {env : Env E C X D S} (L : Laws env.ops) {nds : List (Nd P A)} (w : WF nds) (s : S) :
    ∀ (nid : Nat) (t : Nd P A), nid ≠ 0 → nds[nid]? = some t →
    ∀ (k : Nat) (c : C) (p : Option Nat), ((search env nds s).layers nid)[k]? = some (c, p) →
    (env.ops.lt c env.ops.inf = true → ∃ ids hs,
      SeqCost env nds (search env nds s).ents (search env nds s).fb nid (k :: ids) c ∧
      HopsOf env nds nid (k :: ids) hs ∧
      ∀ n, nid < n → backtrack env nds (search env nds s).layers n nid k = some hs) ∧
    ∀ ids c', SeqCost env nds (search env nds s).ents (search env nds s).fb nid (k :: ids) c' →
      env.ops.lt c' c = false := by
  intro nid
  induction nid using Nat.strongRecOn with
  | _ nid ih =>
    intro t h0 ht k c p hk
    have ok := search_spec env w s nid t h0 ht
    have hpl := par_lt w h0 ht
    by_cases hp : t.parent = 0
    · rw [ok.root hp] at hk
      simp only [List.getElem?_map, Option.map_eq_some_iff, Prod.mk.injEq] at hk
      obtain ⟨cand, hc, rfl, rfl⟩ := hk
      refine ⟨fun _ => ⟨[], [], SeqCost.first nid k t cand ht hp hc, HopsOf.first nid k t ht hp, ?_⟩, ?_⟩
      · intro n hn
        cases n with
        | zero => omega
        | succ n =>
          have : ((search env nds s).layers nid)[k]? = some (cand.pen, none) := by
            rw [ok.root hp]; simp [hc]
          simp only [backtrack, this]
      · intro ids c' hseq
        cases hseq with
        | first _ _ t' cand' ht' hp' hc' => rw [hc] at hc'; cases hc'; exact L.irr _
        | next _ fr _ f t' ids' c0 _ ht' hp' => rw [ht] at ht'; cases ht'; exact absurd hp hp'
    · obtain ⟨f, hf⟩ := get_of_lt (l := nds) (i := t.parent) (by have := lt_of_get ht; omega)
      have hlay := (ok.next hp f hf).1
      have hk' := hk
      rw [hlay] at hk
      obtain ⟨c0, p0, h1, h2, h3, h4⟩ := relaxAll_spec L _ _ _ k c p hk
      have hci : c0 = env.ops.inf ∧ p0 = none := by
        simp only [initLayer, List.getElem?_map, Option.map_eq_some_iff, Prod.mk.injEq] at h1
        obtain ⟨_, _, e1, e2⟩ := h1
        exact ⟨e1.symm, e2.symm⟩
      obtain ⟨rfl, rfl⟩ := hci
      have costs : ∀ (i : Nat) (x : C), ((search env nds s).layers t.parent).costs[i]? = some x ↔
          ∃ q, ((search env nds s).layers t.parent)[i]? = some (x, q) := by
        intro i x
        simp only [Layer.costs, List.getElem?_map, Option.map_eq_some_iff]
        constructor
        · rintro ⟨⟨a, q⟩, h, rfl⟩; exact ⟨q, h⟩
        · rintro ⟨q, h⟩; exact ⟨_, h, rfl⟩
      constructor
      · intro hfin
        rcases h2 with ⟨rfl, _⟩ | ⟨u, hu, x, hto, hx, rfl, rfl, _⟩
        · rw [L.irr] at hfin; cases hfin
        · obtain ⟨q, hq⟩ := (costs _ _).mp hx
          have hxfin : env.ops.lt x env.ops.inf = true := by
            cases hb : env.ops.lt x env.ops.inf with
            | true => rfl
            | false =>
              obtain ⟨hm, hi⟩ := transOf_mono L nid f t _ _ u hu
              have := L.trans _ _ _ hi (hm _ _ hb)
              rw [this] at hfin; cases hfin
          obtain ⟨hgood, _⟩ := ih t.parent hpl f hp hf u.fr x q hq
          obtain ⟨ids, hs, g1, g2, g3⟩ := hgood hxfin
          have hstep := transOf_sound env nid f t _ _ u hu x
          rw [hto] at hstep
          have hseq := SeqCost.next nid u.fr k f t ids x (u.f x) ht hp hf g1 hstep
          by_cases hst : (f.arr && !t.arr) = true
          · refine ⟨u.fr :: ids, hs, hseq,
              HopsOf.stay nid u.fr k f t ids hs ht hp hf ((stays_iff f t).mp hst) g2, ?_⟩
            intro n hn
            cases n with
            | zero => omega
            | succ n =>
              simp only [backtrack, hk', ht, hf, if_pos hst]
              exact g3 n (by omega)
          · obtain ⟨a, ha⟩ : ∃ a, (env.ecm t.parent)[u.fr]? = some a := by
              refine ⟨_, List.getElem?_eq_getElem ?_⟩
              rw [← layer_len w s hp hf]
              exact (List.getElem?_eq_some_iff.mp hq).1
            obtain ⟨b, hb⟩ : ∃ b, (env.ecm nid)[k]? = some b := by
              refine ⟨_, List.getElem?_eq_getElem ?_⟩
              rw [← layer_len w s h0 ht]
              exact (List.getElem?_eq_some_iff.mp hk').1
            refine ⟨u.fr :: ids, mkHop env nid a b :: hs, hseq,
              HopsOf.hop nid u.fr k f t ids hs a b _ ht hp hf (fun h => hst ((stays_iff f t).mpr h)) ha hb
                (mkHop_joins env nid a b) g2, ?_⟩
            intro n hn
            cases n with
            | zero => omega
            | succ n =>
              simp only [backtrack, hk', ht, hf, if_neg hst, ha, hb, g3 n (by omega)]
      · intro ids c' hseq
        cases hseq with
        | first _ _ t' cand' ht' hp' hc' => rw [ht] at ht'; cases ht'; exact absurd hp' hp
        | next _ fr _ f' t' ids' cf _ ht' hp' hf' hseq' hstep =>
          rw [ht] at ht'; cases ht'
          rw [hf] at hf'; cases hf'
          have hfr : fr < (env.ecm t.parent).length := by
            cases hseq' with
            | first _ _ _ cand _ _ hc => exact (List.getElem?_eq_some_iff.mp hc).1
            | next _ _ _ _ _ _ _ _ _ _ _ _ hstep =>
              cases hstep with
              | stay cand _ hc _ => exact (List.getElem?_eq_some_iff.mp hc).1
              | hop cand m _ _ _ _ hc => exact (List.getElem?_eq_some_iff.mp hc).1
              | null mc _ _ _ hall =>
                obtain ⟨cand, hc, _⟩ := hall fr (Nat.le_refl _)
                exact (List.getElem?_eq_some_iff.mp hc).1
              | dummy mc cand j d _ _ _ hc => exact (List.getElem?_eq_some_iff.mp hc).1
          obtain ⟨⟨x, q⟩, hq⟩ : ∃ y, ((search env nds s).layers t.parent)[fr]? = some y :=
            ⟨_, List.getElem?_eq_getElem (by rw [layer_len w s hp hf]; exact hfr)⟩
          have hle := (ih t.parent hpl f hp hf fr x q hq).2 ids' cf hseq'
          obtain ⟨u, hu, e1, e2, e3⟩ := transOf_complete env nid f t _ _ fr k cf c' hstep
          subst e1 e3
          have := h4 u hu e2 x ((costs _ _).mpr ⟨q, hq⟩)
          exact L.trans _ _ _ this ((transOf_mono L nid f t _ _ u hu).1 _ _ hle)

/-! ### the end of the search -/

theorem sink_spec {ops : CostOps C} (L : Laws ops) (l : Layer C) :
    (∀ (k : Nat) (c : C) (p : Option Nat), l[k]? = some (c, p) → ops.lt c (sink ops l).2 = false) ∧
    (ops.lt (sink ops l).2 ops.inf = true → ∃ p, l[(sink ops l).1]? = some ((sink ops l).2, p)) := by
  have key : ∀ (m : List (C × Option Nat)) (n : Nat) (b : Nat × C), 
      let r := ((List.range' n m.length).zip m).foldl
        (fun b p => if ops.lt p.2.1 b.2 then (p.1, p.2.1) else b) b
      (∀ (k : Nat) (c : C) (p : Option Nat), m[k]? = some (c, p) → ops.lt c r.2 = false) ∧
      ops.lt b.2 r.2 = false ∧ (r = b ∨ ∃ (k : Nat) (p : Option Nat), r.1 = n + k ∧ m[k]? = some (r.2, p)) := by
    intro m
    induction m with
    | nil => intro n b; exact ⟨by simp, L.irr _, Or.inl rfl⟩
    | cons x m ih =>
      intro n b
      simp only [List.length_cons, List.range'_succ, List.zip_cons_cons, List.foldl_cons]
      obtain ⟨i1, i2, i3⟩ := ih (n + 1) (if ops.lt x.1 b.2 then (n, x.1) else b)
      refine ⟨?_, ?_, ?_⟩
      · intro k c p hk
        cases k with
        | zero =>
          simp only [List.getElem?_cons_zero, Option.some.injEq] at hk
          subst hk
          by_cases hlt : ops.lt c b.2 = true
          · simpa only [hlt, if_true] using i2
          · have hlt : ops.lt c b.2 = false := by simpa using hlt
            simp only [hlt, Bool.false_eq_true, if_false] at i2 ⊢
            exact L.trans _ _ _ i2 hlt
        | succ k => exact i1 k c p (by simpa using hk)
      · by_cases hlt : ops.lt x.1 b.2 = true
        · simp only [hlt, if_true] at i2 ⊢
          exact L.trans _ _ _ i2 (L.asymm _ _ hlt)
        · simpa only [hlt, Bool.false_eq_true, if_false] using i2
      · rcases i3 with i3 | ⟨k, p, e1, e2⟩
        · by_cases hlt : ops.lt x.1 b.2 = true
          · right
            rw [i3]
            simp only [hlt, if_true]
            exact ⟨0, x.2, rfl, rfl⟩
          · left; rw [i3]; simp only [hlt, Bool.false_eq_true, if_false]
        · right
          exact ⟨k + 1, p, by rw [e1]; omega, by simpa using e2⟩
  have := key l 0 (0, ops.inf)
  rw [← List.range_eq_range'] at this
  obtain ⟨h1, h2, h3⟩ := this
  refine ⟨h1, ?_⟩
  intro hlt
  rcases h3 with h3 | ⟨k, p, e1, e2⟩
  · change sink ops l = _ at h3
    rw [h3, L.irr] at hlt; cases hlt
  · change (sink ops l).1 = _ at e1
    exact ⟨p, by rw [e1, Nat.zero_add]; exact e2⟩

end Verif.Router
