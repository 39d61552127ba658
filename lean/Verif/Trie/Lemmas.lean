import Verif.Trie.Spec

namespace Verif.Trie
variable {T P A : Type}

/-- The kind of node expected below node `i`. -/
def nextArr (nds : List (Nd P A)) (i : Nat) : Bool :=
  if i = 0 then false else match nds[i]? with
    | none => false
    | some n => !n.arr

structure WF (nds : List (Nd P A)) : Prop where
  pos : 0 < nds.length
  par : ∀ (i : Nat) n, nds[i + 1]? = some n → n.parent < i + 1
  chi : ∀ (i : Nat) n (c : Nat), nds[i]? = some n → c ∈ n.childs → i < c ∧ ∃ m, nds[c]? = some m ∧ m.parent = i
  alt : ∀ (i : Nat) n, nds[i + 1]? = some n → n.arr = nextArr nds n.parent
  lnk : ∀ (i : Nat) n, nds[i + 1]? = some n → ∃ p, nds[n.parent]? = some p ∧ i + 1 ∈ p.childs
  nod : ∀ (i : Nat) n, nds[i]? = some n → n.childs.Nodup

def Same (n n' : Nd P A) : Prop :=
  n'.name = n.name ∧ n'.platform = n.platform ∧ n'.pos = n.pos ∧ n'.time = n.time ∧
    n'.arr = n.arr ∧ n'.parent = n.parent

def Ext (nds nds' : List (Nd P A)) : Prop :=
  ∀ (i : Nat) n, nds[i]? = some n → ∃ n', nds'[i]? = some n' ∧ Same n n'

theorem Same.refl (n : Nd P A) : Same n n := ⟨rfl, rfl, rfl, rfl, rfl, rfl⟩

theorem Same.trans {a b c : Nd P A} (h : Same a b) (g : Same b c) : Same a c := by
  obtain ⟨h1, h2, h3, h4, h5, h6⟩ := h
  obtain ⟨g1, g2, g3, g4, g5, g6⟩ := g
  exact ⟨g1.trans h1, g2.trans h2, g3.trans h3, g4.trans h4, g5.trans h5, g6.trans h6⟩

theorem Ext.refl (nds : List (Nd P A)) : Ext nds nds := fun _ n h => ⟨n, h, Same.refl n⟩

theorem Ext.trans {a b c : List (Nd P A)} (h : Ext a b) (g : Ext b c) : Ext a c := by
  intro i n hn
  obtain ⟨n', h1, h2⟩ := h i n hn
  obtain ⟨n'', g1, g2⟩ := g i n' h1
  exact ⟨n'', g1, h2.trans g2⟩

theorem Ext.length {a b : List (Nd P A)} (h : Ext a b) : a.length ≤ b.length := by
  by_cases h0 : a.length = 0
  · omega
  · have hl : a.length - 1 < a.length := by omega
    obtain ⟨n', h1, _⟩ := h _ _ (List.getElem?_eq_getElem hl)
    have := (List.getElem?_eq_some_iff.mp h1).1
    omega

theorem lt_of_get {l : List (Nd P A)} {i : Nat} {n} (h : l[i]? = some n) : i < l.length :=
  (List.getElem?_eq_some_iff.mp h).1

theorem get_of_lt {l : List (Nd P A)} {i : Nat} (h : i < l.length) : ∃ n, l[i]? = some n :=
  ⟨_, List.getElem?_eq_getElem h⟩

theorem nextArr_ext {nds nds' : List (Nd P A)} (h : Ext nds nds') {i : Nat} (hi : i < nds.length) :
    nextArr nds' i = nextArr nds i := by
  obtain ⟨n, hn⟩ := get_of_lt hi
  obtain ⟨n', hn', hs⟩ := h i n hn
  simp [nextArr, hn, hn', hs.2.2.2.2.1]

/-! ### paths -/

theorem pathF_fuel {nds : List (Nd P A)} (w : WF nds) :
    ∀ i f g, i ≤ f → i ≤ g → pathF nds f i = pathF nds g i := by
  intro i
  induction i using Nat.strongRecOn with
  | _ i ih =>
    intro f g hf hg
    match i, f, g with
    | 0, 0, 0 => rfl
    | 0, 0, _ + 1 => rfl
    | 0, _ + 1, 0 => rfl
    | 0, _ + 1, _ + 1 => rfl
    | i + 1, f + 1, g + 1 =>
      simp only [pathF]
      cases h : nds[i + 1]? with
      | none => rfl
      | some n =>
        have := w.par i n h
        simp only
        rw [ih n.parent this f g (by omega) (by omega)]

theorem pathOf_zero (nds : List (Nd P A)) : pathOf nds 0 = [] := rfl

theorem pathOf_succ {nds : List (Nd P A)} (w : WF nds) {i n} (h : nds[i + 1]? = some n) :
    pathOf nds (i + 1) = pathOf nds n.parent ++ [i + 1] := by
  have := w.par i n h
  simp only [pathOf, pathF, h]
  rw [pathF_fuel w n.parent i n.parent (by omega) (Nat.le_refl _)]

theorem pathOf_pos {nds : List (Nd P A)} (w : WF nds) {i n} (h0 : i ≠ 0) (h : nds[i]? = some n) :
    pathOf nds i = pathOf nds n.parent ++ [i] := by
  cases i with
  | zero => exact absurd rfl h0
  | succ i => exact pathOf_succ w h

theorem pathOf_ext {nds nds' : List (Nd P A)} (w : WF nds) (w' : WF nds') (h : Ext nds nds') :
    ∀ i, i < nds.length → pathOf nds' i = pathOf nds i := by
  intro i
  induction i using Nat.strongRecOn with
  | _ i ih =>
    intro hi
    cases i with
    | zero => rfl
    | succ i =>
      obtain ⟨n, hn⟩ := get_of_lt hi
      obtain ⟨n', hn', hs⟩ := h _ n hn
      have := w.par i n hn
      rw [pathOf_succ w hn, pathOf_succ w' hn', hs.2.2.2.2.2, ih _ this (by omega)]

theorem pathOf_bounds {nds : List (Nd P A)} (w : WF nds) :
    ∀ i, i < nds.length → (∀ k ∈ pathOf nds i, 0 < k ∧ k ≤ i) ∧ (pathOf nds i).Nodup := by
  intro i
  induction i using Nat.strongRecOn with
  | _ i ih =>
    intro hi
    cases i with
    | zero => simp [pathOf_zero]
    | succ i =>
      obtain ⟨n, hn⟩ := get_of_lt hi
      have hp := w.par i n hn
      obtain ⟨h1, h2⟩ := ih _ hp (by omega)
      rw [pathOf_succ w hn]
      refine ⟨?_, ?_⟩
      · intro k hk
        rcases List.mem_append.mp hk with h | h
        · have := h1 k h; omega
        · simp only [List.mem_singleton] at h; omega
      · rw [List.nodup_append]
        refine ⟨h2, by simp, ?_⟩
        intro a ha b hb
        simp only [List.mem_singleton] at hb
        have := h1 a ha
        omega

/-! ### one visit -/

theorem firstMatch_spec (env : Env T P A) (tx st time) {nds : List (Nd P A)} (cs : List Nat)
    (hc : ∀ c ∈ cs, c < nds.length) (h0 : ∀ c ∈ cs, c ≠ 0) :
    ∃ c, firstMatch env tx st time nds cs = some c ∧
      (c ≠ 0 → c ∈ cs ∧ ∃ n, nds[c]? = some n ∧ matchNd env tx st time n = true) ∧
      (c = 0 → ∀ k ∈ cs, ∀ n, nds[k]? = some n → matchNd env tx st time n = false) := by
  induction cs with
  | nil => exact ⟨0, rfl, by simp, by simp⟩
  | cons c cs ih =>
    obtain ⟨n, hn⟩ := get_of_lt (hc c (by simp))
    simp only [firstMatch, hn]
    cases hm : matchNd env tx st time n with
    | true =>
      refine ⟨c, by simp, fun _ => ⟨by simp, n, hn, hm⟩, ?_⟩
      intro h; exact absurd h (h0 c (by simp))
    | false =>
      obtain ⟨d, h1, h2, h3⟩ := ih (fun c h => hc c (by simp [h])) (fun c h => h0 c (by simp [h]))
      refine ⟨d, by simpa using h1, ?_, ?_⟩
      · intro h; obtain ⟨g1, g2⟩ := h2 h; exact ⟨by simp [g1], g2⟩
      · intro h k hk m hm'
        rcases List.mem_cons.mp hk with rfl | hk
        · rw [hn] at hm'; cases hm'; exact hm
        · exact h3 h k hk m hm'

theorem getMatchChild_spec (env : Env T P A) (tx st time) {nds : List (Nd P A)} (w : WF nds) {cur}
    (hcur : cur < nds.length) :
    ∃ c, getMatchChild env tx st time nds cur = some c ∧
      (c ≠ 0 → ∃ n, nds[c]? = some n ∧ n.parent = cur ∧ matchNd env tx st time n = true) := by
  obtain ⟨p, hp⟩ := get_of_lt hcur
  obtain ⟨c, h1, h2, _⟩ := firstMatch_spec env tx st time (nds := nds) p.childs
    (fun c h => by obtain ⟨_, m, hm, _⟩ := w.chi _ _ c hp h; exact lt_of_get hm)
    (fun c h => by have := (w.chi _ _ c hp h).1; omega)
  refine ⟨c, by simp [getMatchChild, hp, h1], ?_⟩
  intro h
  obtain ⟨g1, n, g2, g3⟩ := h2 h
  obtain ⟨_, m, hm, hm'⟩ := w.chi _ _ c hp g1
  rw [g2] at hm; cases hm
  exact ⟨n, g2, hm', g3⟩

theorem matchNd_iff (env : Env T P A) (tx) (st : StopTime P) (time) (n : Nd P A) :
    matchNd env tx st time n = true ↔
      n.name = st.name ∧ n.platform = st.platform ∧ env.near n.pos st.pos = true ∧
        (tx = true → n.time = time) := by
  simp only [matchNd, Bool.and_eq_true, beq_iff_eq, Bool.or_eq_true, Bool.not_eq_true', and_assoc]
  cases tx <;> simp

/-- Statistics of the nodes: what was added to each of them. -/
def NodeStat (env : Env T P A) (n : Nd P A) (h : List (A × Int)) : Prop :=
  n.trips = h.length ∧ n.accTime = (h.map (·.2)).sum ∧
    ∃ x tl, h = x :: tl ∧ n.attrs = (tl.map (·.1)).foldl env.merge x.1

def Stat (env : Env T P A) (nds : List (Nd P A)) (H : Nat → List (A × Int)) : Prop :=
  (∀ (i : Nat) n, i ≠ 0 → nds[i]? = some n → NodeStat env n (H i)) ∧ (∀ i, nds.length ≤ i → H i = []) ∧
    H 0 = []

structure Visited (env : Env T P A) (tx : Bool) (a : A) (st : StopTime P) (time : Int) (arr : Bool)
    (nds : List (Nd P A)) (cur : Nat) (nds' : List (Nd P A)) (c : Nat) : Prop where
  wf : WF nds'
  ext : Ext nds nds'
  c0 : c ≠ 0
  fit : ∃ n, nds'[c]? = some n ∧ n.parent = cur ∧ matchNd env tx st time n = true ∧ n.arr = arr
  stat : ∀ H, Stat env nds H → Stat env nds' fun i => if i = c then H i ++ [(a, time)] else H i

theorem NodeStat.bump {env : Env T P A} {n : Nd P A} {h} (g : NodeStat env n h) (a time) :
    NodeStat env (n.bump env a time) (h ++ [(a, time)]) := by
  obtain ⟨g1, g2, x, tl, rfl, g3⟩ := g
  refine ⟨by simp [Nd.bump, g1], by simp [Nd.bump, g2, List.sum_append, Int.add_assoc], x, tl ++ [(a, time)], rfl, ?_⟩
  simp [Nd.bump, g3, List.foldl_append]

theorem visit_spec (env : Env T P A) (hnear : ∀ p, env.near p p = true) (tx a rej st time arr)
    {nds : List (Nd P A)} (w : WF nds) {cur} (hcur : cur < nds.length)
    (harr : arr = nextArr nds cur) :
    (visit env tx a rej st time arr nds cur = some (false, nds, cur) ∧ rej = true) ∨
    ∃ nds' c, visit env tx a rej st time arr nds cur = some (true, nds', c) ∧
      Visited env tx a st time arr nds cur nds' c := by
  obtain ⟨c, h1, h2⟩ := getMatchChild_spec env tx st time w hcur
  match c with
  | c + 1 =>
    obtain ⟨n, hn, hpar, hm⟩ := h2 (by simp)
    right
    refine ⟨nds.set (c + 1) (n.bump env a time), c + 1, by simp only [visit, h1, bump, hn], ?_⟩
    have hlt := lt_of_get hn
    have hext : Ext nds (nds.set (c + 1) (n.bump env a time)) := by
      intro i m hm'
      by_cases h : i = c + 1
      · subst h; rw [hn] at hm'; cases hm'
        exact ⟨n.bump env a time, List.getElem?_set_self hlt, Same.refl _⟩
      · exact ⟨m, by rw [List.getElem?_set_ne (by omega)]; exact hm', Same.refl m⟩
    have inv : ∀ (i : Nat) m', (nds.set (c + 1) (n.bump env a time))[i]? = some m' →
          ∃ m, nds[i]? = some m ∧ Same m m' ∧ m'.childs = m.childs := by
      intro i m' hm'
      by_cases h : i = c + 1
      · subst h; rw [List.getElem?_set_self hlt] at hm'; cases hm'
        exact ⟨n, hn, Same.refl _, rfl⟩
      · rw [List.getElem?_set_ne (by omega)] at hm'
        exact ⟨m', hm', Same.refl _, rfl⟩
    constructor
    · constructor
      · simpa using w.pos
      · intro i m' hm'
        obtain ⟨m, g1, g2, _⟩ := inv _ _ hm'
        rw [g2.2.2.2.2.2]; exact w.par i m g1
      · intro i m' k hm' hk
        obtain ⟨m, g1, _, g3⟩ := inv _ _ hm'
        rw [g3] at hk
        obtain ⟨q1, q, q2, q3⟩ := w.chi i m k g1 hk
        obtain ⟨q', q4, q5⟩ := hext _ _ q2
        exact ⟨q1, q', q4, by rw [q5.2.2.2.2.2, q3]⟩
      · intro i m' hm'
        obtain ⟨m, g1, g2, _⟩ := inv _ _ hm'
        have := w.par i m g1
        have hl := lt_of_get g1
        rw [g2.2.2.2.2.1, g2.2.2.2.2.2, nextArr_ext hext (by omega)]
        exact w.alt i m g1
      · intro i m' hm'
        obtain ⟨m, g1, g2, _⟩ := inv _ _ hm'
        obtain ⟨q, q1, q2⟩ := w.lnk i m g1
        rw [g2.2.2.2.2.2]
        by_cases h : m.parent = c + 1
        · rw [h] at q1 ⊢
          rw [hn] at q1; cases q1
          exact ⟨_, List.getElem?_set_self hlt, q2⟩
        · exact ⟨q, by rw [List.getElem?_set_ne (by omega)]; exact q1, q2⟩
      · intro i m' hm'
        obtain ⟨m, g1, _, g3⟩ := inv _ _ hm'
        rw [g3]; exact w.nod i m g1
    · exact hext
    · simp
    · refine ⟨_, List.getElem?_set_self hlt, hpar, hm, ?_⟩
      show n.arr = arr
      rw [w.alt c n hn, hpar, harr]
    · intro H ⟨s1, s2, s3⟩
      refine ⟨?_, ?_, by simp [s3]⟩
      · intro i m h0 hm'
        by_cases h : i = c + 1
        · subst h; rw [List.getElem?_set_self hlt] at hm'; cases hm'
          simp only [if_true]
          exact (s1 _ n h0 hn).bump a time
        · rw [List.getElem?_set_ne (by omega)] at hm'
          simp only [h, if_false]
          exact s1 i m h0 hm'
      · intro i hi
        rw [List.length_set] at hi
        simp only [show i ≠ c + 1 by omega, if_false]
        exact s2 i hi
  | 0 =>
    cases rej with
    | true => left; exact ⟨by simp [visit, h1], rfl⟩
    | false =>
      right
      obtain ⟨p, hp⟩ := get_of_lt hcur
      let nd : Nd P A := ⟨st.name, st.platform, st.pos, time, arr, time, 1, cur, [], a⟩
      have hp' : (nds ++ [nd])[cur]? = some p := by
        rw [List.getElem?_append_left hcur]; exact hp
      refine ⟨(nds ++ [nd]).set cur { p with childs := p.childs ++ [nds.length] }, nds.length, ?_, ?_⟩
      · simp only [visit, h1, insert]
        simp only [nd] at hp'
        simp [hp', nd]
      · generalize hq : ({ p with childs := p.childs ++ [nds.length] } : Nd P A) = q
        have qs : Same p q := by subst hq; exact Same.refl _
        have qc : q.childs = p.childs ++ [nds.length] := by subst hq; rfl
        have qst : ∀ h, NodeStat env p h → NodeStat env q h := by subst hq; intro h g; exact g
        have hlen : ((nds ++ [nd]).set cur q).length = nds.length + 1 := by simp
        have gcur : ((nds ++ [nd]).set cur q)[cur]? = some q :=
          List.getElem?_set_self (by simp; omega)
        have gnew : ((nds ++ [nd]).set cur q)[nds.length]? = some nd := by
          rw [List.getElem?_set_ne (by omega)]; simp
        have gold : ∀ i, i ≠ cur → i < nds.length → ((nds ++ [nd]).set cur q)[i]? = nds[i]? := by
          intro i h hi
          rw [List.getElem?_set_ne (by omega), List.getElem?_append_left hi]
        have inv : ∀ (i : Nat) m', ((nds ++ [nd]).set cur q)[i]? = some m' →
            (i = cur ∧ m' = q) ∨ (i = nds.length ∧ m' = nd) ∨ (i ≠ cur ∧ i < nds.length ∧ nds[i]? = some m') := by
          intro i m' hm'
          have hi := lt_of_get hm'
          rw [hlen] at hi
          by_cases h : i = cur
          · subst h; rw [gcur] at hm'; cases hm'; exact Or.inl ⟨rfl, rfl⟩
          · by_cases h' : i = nds.length
            · subst h'; rw [gnew] at hm'; cases hm'; exact Or.inr (Or.inl ⟨rfl, rfl⟩)
            · have : i < nds.length := by omega
              rw [gold i h this] at hm'; exact Or.inr (Or.inr ⟨h, this, hm'⟩)
        have hext : Ext nds ((nds ++ [nd]).set cur q) := by
          intro i m hm'
          by_cases h : i = cur
          · subst h; rw [hp] at hm'; cases hm'; exact ⟨q, gcur, qs⟩
          · exact ⟨m, by rw [gold i h (lt_of_get hm')]; exact hm', Same.refl m⟩
        have c0 : nds.length ≠ 0 := by have := w.pos; omega
        constructor
        · constructor
          · rw [hlen]; omega
          · intro i m' hm'
            rcases inv _ _ hm' with ⟨h, rfl⟩ | ⟨h, rfl⟩ | ⟨_, _, h⟩
            · rw [qs.2.2.2.2.2]; exact w.par i p (h ▸ hp)
            · show cur < i + 1; omega
            · exact w.par i m' h
          · intro i m' k hm' hk
            rcases inv _ _ hm' with ⟨h, rfl⟩ | ⟨h, rfl⟩ | ⟨_, _, h⟩
            · rw [qc] at hk
              rcases List.mem_append.mp hk with hk | hk
              · obtain ⟨q1, r, q2, q3⟩ := w.chi cur p k hp hk
                obtain ⟨r', q4, q5⟩ := hext _ _ q2
                exact ⟨by omega, r', q4, by rw [q5.2.2.2.2.2, q3, h]⟩
              · simp only [List.mem_singleton] at hk
                subst hk
                exact ⟨by omega, nd, gnew, h.symm⟩
            · exact absurd hk (List.not_mem_nil)
            · obtain ⟨q1, r, q2, q3⟩ := w.chi i m' k h hk
              obtain ⟨r', q4, q5⟩ := hext _ _ q2
              exact ⟨q1, r', q4, by rw [q5.2.2.2.2.2, q3]⟩
          · intro i m' hm'
            rcases inv _ _ hm' with ⟨h, rfl⟩ | ⟨h, rfl⟩ | ⟨_, _, h⟩
            · have hp1 : nds[i + 1]? = some p := h ▸ hp
              have := w.par i p hp1
              have := lt_of_get hp1
              rw [qs.2.2.2.2.1, qs.2.2.2.2.2, nextArr_ext hext (by omega)]
              exact w.alt i p hp1
            · show arr = nextArr _ cur
              rw [nextArr_ext hext hcur]; exact harr
            · have := w.par i m' h
              rw [nextArr_ext hext (by omega)]
              exact w.alt i m' h
          · have old : ∀ (i : Nat) m, nds[i + 1]? = some m →
                ∃ r, ((nds ++ [nd]).set cur q)[m.parent]? = some r ∧ i + 1 ∈ r.childs := by
              intro i m hm'
              obtain ⟨r, r1, r2⟩ := w.lnk i m hm'
              by_cases h : m.parent = cur
              · rw [h] at r1 ⊢
                rw [hp] at r1; cases r1
                exact ⟨q, gcur, by rw [qc]; simp [r2]⟩
              · exact ⟨r, by rw [gold _ h (lt_of_get r1)]; exact r1, r2⟩
            intro i m' hm'
            rcases inv _ _ hm' with ⟨h, rfl⟩ | ⟨h, rfl⟩ | ⟨_, _, h⟩
            · rw [qs.2.2.2.2.2]; exact old i p (h ▸ hp)
            · exact ⟨q, gcur, by rw [qc, h]; simp⟩
            · exact old i m' h
          · intro i m' hm'
            rcases inv _ _ hm' with ⟨h, rfl⟩ | ⟨h, rfl⟩ | ⟨_, _, h⟩
            · rw [qc, List.nodup_append]
              refine ⟨w.nod cur p hp, by simp, ?_⟩
              intro x hx y hy
              simp only [List.mem_singleton] at hy
              obtain ⟨_, m, hm, _⟩ := w.chi cur p x hp hx
              have := lt_of_get hm
              omega
            · exact List.nodup_nil
            · exact w.nod i m' h
        · exact hext
        · exact c0
        · exact ⟨nd, gnew, rfl, (matchNd_iff env tx st time nd).mpr ⟨rfl, rfl, hnear _, fun _ => rfl⟩, rfl⟩
        · intro H ⟨s1, s2, s3⟩
          refine ⟨?_, ?_, by simp [s3, c0.symm]⟩
          · intro i m h0 hm'
            rcases inv _ _ hm' with ⟨h, rfl⟩ | ⟨h, rfl⟩ | ⟨_, hlt, h⟩
            · subst h
              simp only [show i ≠ nds.length by omega, if_false]
              exact qst _ (s1 i p h0 hp)
            · subst h
              simp only [if_true, s2 _ (Nat.le_refl _), List.nil_append]
              exact ⟨rfl, by simp [nd], _, [], rfl, rfl⟩
            · simp only [show i ≠ nds.length by omega, if_false]
              exact s1 i m h0 h
          · intro i hi
            rw [hlen] at hi
            simp only [show i ≠ nds.length by omega, if_false]
            exact s2 i (by omega)

end Verif.Trie
