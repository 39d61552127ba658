import Verif.Router.Opt
import Verif.Router.EcmLemmas

/-!
# Router (properties C13, C14, C49, C57)

All theorems quantify over every trip trie built by any history of insertions, every cost
arithmetic satisfying `Laws`, every result of the hop calculation, every weight, every maximum
costs and every shortest path search.
-/

set_option linter.unusedSectionVars false

namespace Verif.Router
open Verif.Trie (Nd WF OneRoot lt_of_get get_of_lt nextArr history Op pathOf Inv run_spec oneRoot_history)
variable {E C X D S T P A : Type} [DecidableEq T]

theorem history_facts (tenv : Verif.Trie.Env T P A) (hnear : ∀ p, tenv.near p p = true) (ops : List (Op T A))
    {tr : Verif.Trie.Trie T P A} {log : List (Op T A × Nat)} (h : history tenv ops = some (tr, log)) :
    Inv tenv tr log ∧ OneRoot tr.nds := by
  obtain ⟨tr', log', h', I, _⟩ := run_spec tenv hnear ops _ _ (Inv.empty tenv)
  unfold history at h
  rw [h'] at h; cases h
  refine ⟨I, oneRoot_history tenv hnear ops _ _ (Inv.empty tenv) ?_ (fun _ => rfl) _ _ h'⟩
  intro i n hn
  simp [Verif.Trie.Trie.empty] at hn

theorem route_of_sink {env : Env E C X D S} (L : Laws env.ops) {nds : List (Nd P A)} (w : WF nds) (s : S) {nid : Nat}
    (h0 : nid ≠ 0) (hl : nid < nds.length) :
    let st := search env nds s
    (∀ ids c, SeqCost env nds st.ents st.fb nid ids c → env.ops.lt c (sink env.ops (st.layers nid)).2 = false) ∧
    (env.ops.lt (sink env.ops (st.layers nid)).2 env.ops.inf = true → ∃ ids hs,
      SeqCost env nds st.ents st.fb nid ids (sink env.ops (st.layers nid)).2 ∧ HopsOf env nds nid ids hs ∧
      route env nds s nid = some hs) := by
  intro st
  obtain ⟨t, ht⟩ := get_of_lt hl
  obtain ⟨s1, s2⟩ := sink_spec L (st.layers nid)
  constructor
  · intro ids c hseq
    have hid : ∃ k ids', ids = k :: ids' ∧ k < (env.ecm nid).length := by
      cases hseq with
      | first _ k _ cand _ _ hc => exact ⟨k, [], rfl, (List.getElem?_eq_some_iff.mp hc).1⟩
      | next _ fr k _ _ ids' _ _ _ _ _ _ hstep =>
        refine ⟨k, fr :: ids', rfl, ?_⟩
        cases hstep with
        | stay cand _ hc _ => exact (List.getElem?_eq_some_iff.mp hc).1
        | hop cand m _ _ _ _ hc => exact (List.getElem?_eq_some_iff.mp hc).1
        | null mc _ _ _ hall =>
          obtain ⟨cand, hc, _⟩ := hall k (Nat.le_refl _)
          exact (List.getElem?_eq_some_iff.mp hc).1
        | dummy mc cand j d _ _ _ hc => exact (List.getElem?_eq_some_iff.mp hc).1
    obtain ⟨k, ids', rfl, hk⟩ := hid
    obtain ⟨⟨x, q⟩, hx⟩ : ∃ y, (st.layers nid)[k]? = some y :=
      ⟨_, List.getElem?_eq_getElem (by rw [layer_len w s h0 ht]; exact hk)⟩
    exact L.trans _ _ _ (s1 k x q hx) ((search_opt L w s nid t h0 ht k x q hx).2 ids' c hseq)
  · intro hfin
    obtain ⟨p, hp⟩ := s2 hfin
    obtain ⟨ids, hs, g1, g2, g3⟩ := (search_opt L w s nid t h0 ht _ _ p hp).1 hfin
    exact ⟨_, hs, g1, g2, g3 nds.length hl⟩

/-- C14. For every filed trip with at least two stops, no sequence of candidates along its
stops is cheaper than the costs the router ends with, and if these are finite, they are the
costs of a sequence of candidates whose hops are those returned. -/
theorem C14_optimal (tenv : Verif.Trie.Env T P A) (hnear : ∀ p, tenv.near p p = true) (ops : List (Op T A))
    (tr : Verif.Trie.Trie T P A) (log : List (Op T A × Nat)) (h : history tenv ops = some (tr, log))
    (env : Env E C X D S) (L : Laws env.ops) (s : S) (op : Op T A) (nid : Nat) (hop : (op, nid) ∈ log)
    (hstops : 2 ≤ (tenv.stops op.t).length) :
    ∃ cost,
      (∀ ids c, SeqCost env tr.nds (search env tr.nds s).ents (search env tr.nds s).fb nid ids c →
        env.ops.lt c cost = false) ∧
      (env.ops.lt cost env.ops.inf = true → ∃ ids hs,
        SeqCost env tr.nds (search env tr.nds s).ents (search env tr.nds s).fb nid ids cost ∧
        HopsOf env tr.nds nid ids hs ∧ route env tr.nds s nid = some hs) := by
  obtain ⟨I, _⟩ := history_facts tenv hnear ops h
  have h0 : nid ≠ 0 := by
    rintro rfl
    have := (I.spells _ hop).1
    simp only [Verif.Trie.pathOf_zero, List.length_nil] at this
    omega
  exact ⟨_, route_of_sink L I.wf s h0 (I.lt _ hop)⟩

/-! ### the number of hops -/

/-- What the candidate table must provide: a finite candidate for the first stop, the empty
candidate first at arrivals, and for each arrival candidate a finite departure candidate that
refers to it. -/
structure Usable (env : Env E C X D S) (nds : List (Nd P A)) : Prop where
  first : ∀ (nid : Nat) t, nid ≠ 0 → nds[nid]? = some t → t.parent = 0 →
    ∃ (k : Nat) (cand : Cand E C X), (env.ecm nid)[k]? = some cand ∧ env.ops.lt cand.pen env.ops.inf = true
  stay : ∀ (nid : Nat) t f, nid ≠ 0 → nds[nid]? = some t → t.parent ≠ 0 → nds[t.parent]? = some f → Stays f t →
    ∀ fr, fr < (env.ecm t.parent).length → ∃ (k : Nat) (cand : Cand E C X), (env.ecm nid)[k]? = some cand ∧
      fr ∈ cand.depPrede ∧ env.ops.lt cand.pen env.ops.inf = true
  hop : ∀ (nid : Nat) t f, nid ≠ 0 → nds[nid]? = some t → t.parent ≠ 0 → nds[t.parent]? = some f → ¬ Stays f t →
    ∃ cand, (env.ecm nid)[0]? = some cand ∧ cand.e = none

theorem finite_of_le {ops : CostOps C} (L : Laws ops) {a b : C} (h : ops.lt b a = false) (hb : ops.lt b ops.inf = true) :
    ops.lt a ops.inf = true := by
  cases ha : ops.lt a ops.inf with
  | true => rfl
  | false =>
    have := L.trans _ _ _ ha h
    rw [this] at hb; cases hb

/-- Every node has a candidate with finite costs. -/
theorem layer_finite {env : Env E C X D S} (L : Laws env.ops) (F : Finite env.ops) {nds : List (Nd P A)} (w : WF nds)
    (u : Usable env nds) (s : S) : ∀ (nid : Nat) (t : Nd P A), nid ≠ 0 → nds[nid]? = some t →
    ∃ (k : Nat) (c : C) (p : Option Nat), ((search env nds s).layers nid)[k]? = some (c, p) ∧
      env.ops.lt c env.ops.inf = true := by
  intro nid
  induction nid using Nat.strongRecOn with
  | _ nid ih =>
    intro t h0 ht
    have ok := search_spec env w s nid t h0 ht
    have hpl := par_lt w h0 ht
    by_cases hp : t.parent = 0
    · obtain ⟨k, cand, hc, hfin⟩ := u.first nid t h0 ht hp
      exact ⟨k, cand.pen, none, by rw [ok.root hp]; simp [hc], hfin⟩
    · obtain ⟨f, hf⟩ := get_of_lt (l := nds) (i := t.parent) (by have := lt_of_get ht; omega)
      obtain ⟨hlay, hflag⟩ := ok.next hp f hf
      obtain ⟨fr, x, q, hx, hxfin⟩ := ih t.parent hpl f hp hf
      have hfrlt : fr < (env.ecm t.parent).length := by
        rw [← layer_len w s hp hf]; exact (List.getElem?_eq_some_iff.mp hx).1
      have hxc : ((search env nds s).layers t.parent).costs[fr]? = some x := by
        simp [Layer.costs, hx]
      -- a transition with finite costs suffices
      have suff : ∀ (to : Nat) (c : C), to < (env.ecm nid).length → env.ops.lt c env.ops.inf = true →
          Step env nid f t ((search env nds s).ents nid) ((search env nds s).fb nid) fr to x c →
          ∃ (k : Nat) (c : C) (p : Option Nat), ((search env nds s).layers nid)[k]? = some (c, p) ∧
            env.ops.lt c env.ops.inf = true := by
        intro to c hto hfin hstep
        obtain ⟨v, hv, e1, e2, e3⟩ := transOf_complete env nid f t _ _ fr to x c hstep
        obtain ⟨⟨y, r⟩, hy⟩ : ∃ y, ((search env nds s).layers nid)[to]? = some y :=
          ⟨_, List.getElem?_eq_getElem (by rw [layer_len w s h0 ht]; exact hto)⟩
        refine ⟨to, y, r, hy, ?_⟩
        rw [hlay] at hy
        obtain ⟨_, _, _, _, _, h4⟩ := relaxAll_spec L _ _ _ to y r hy
        have := h4 v hv e2 x (by rw [e1]; exact hxc)
        rw [e3] at this
        exact finite_of_le L this hfin
      by_cases hst : Stays f t
      · obtain ⟨k, cand, hc, hmem, hfin⟩ := u.stay nid t f h0 ht hp hf hst fr hfrlt
        exact suff k _ (List.getElem?_eq_some_iff.mp hc).1 (F.add _ _ hxfin hfin) (Step.stay cand hst hc hmem)
      · cases hfb : (search env nds s).fb nid with
        | none =>
          have := hflag (fun h => hst ((stays_iff f t).mp h)) hfb
          rw [hlay]
          exact relaxAll_found L _ _ _ this
        | some mc =>
          obtain ⟨cand, hc, he⟩ := u.hop nid t f h0 ht hp hf hst
          refine suff 0 _ (List.getElem?_eq_some_iff.mp hc).1 (F.add _ _ hxfin (F.u32 (mc * 100)))
            (Step.null mc hst hfb hfrlt ?_)
          intro j hj
          have : j = 0 := by omega
          subst this
          exact ⟨cand, hc, he⟩

/-- Two nodes of the trie per hop. -/
theorem hopsOf_length {env : Env E C X D S} {nds : List (Nd P A)} (w : WF nds) {nid : Nat} {ids : List Nat}
    {hs : List (Hop E X)} (h : HopsOf env nds nid ids hs) (h0 : nid ≠ 0) : ∃ t, nds[nid]? = some t ∧
    (pathOf nds nid).length = 2 * hs.length + if t.arr then 0 else 1 := by
  induction h with
  | first nid id t ht hp =>
    refine ⟨t, ht, ?_⟩
    rw [Verif.Trie.pathOf_pos w h0 ht, hp]
    have : t.arr = false := by
      cases nid with
      | zero => exact absurd rfl h0
      | succ i => rw [w.alt i t ht, hp]; rfl
    simp [Verif.Trie.pathOf_zero, this]
  | stay nid fr to f t ids hs ht hp hf hst _ ih =>
    obtain ⟨f', hf', e⟩ := ih hp
    rw [hf] at hf'; cases hf'
    refine ⟨t, ht, ?_⟩
    rw [Verif.Trie.pathOf_pos w h0 ht, List.length_append, e, hst.1, hst.2]
    simp
  | hop nid fr to f t ids hs a b hp' ht hp hf hst ha hb hj _ ih =>
    obtain ⟨f', hf', e⟩ := ih hp
    rw [hf] at hf'; cases hf'
    refine ⟨t, ht, ?_⟩
    have halt : t.arr = !f.arr := by
      cases nid with
      | zero => exact absurd rfl h0
      | succ i => rw [w.alt i t ht, nextArr, if_neg hp, hf]
    have hfa : f.arr = false := by
      cases hb : f.arr with
      | false => rfl
      | true => exact absurd ⟨hb, by rw [halt, hb]; rfl⟩ hst
    rw [Verif.Trie.pathOf_pos w h0 ht, List.length_append, e, halt, hfa]
    simp; omega

/-- What is assumed of the candidates of the stops (`getEdgCands`): the first one is the empty
candidate, and it has finite penalty; so have all time penalties. -/
structure Placeholder (ops : CostOps C) (g : Gen E C X) : Prop where
  add : g.add = ops.add
  first : ∀ i, ∃ c cs, g.cands i = c :: cs ∧ c.e = none ∧ ops.lt c.pen ops.inf = true
  time : ∀ a b, ops.lt (g.timePen a b) ops.inf = true

theorem usable_ecm {env : Env E C (X × Int) D S} (F : Finite env.ops) {nds : List (Nd P A)} (w : WF nds)
    (one : OneRoot nds) (g : Gen E C X) (pl : Placeholder env.ops g) (he : getECM g nds = some env.ecm) :
    Usable env nds := by
  have ent : ∀ (i : Nat) n, i ≠ 0 → nds[i]? = some n → Entry g nds i (env.ecm i) := fun i n h0 hn =>
    getECM_spec g w one env.ecm he i h0 (lt_of_get hn)
  constructor
  · intro nid t h0 ht hp
    obtain ⟨n, p, hn, _, h1, _⟩ := ent nid t h0 ht
    rw [ht] at hn; cases hn
    have : nid = 1 := by
      cases nid with
      | zero => exact absurd rfl h0
      | succ i => have := one i t ht hp; omega
    obtain ⟨c, cs, hc, _, hfin⟩ := pl.first nid
    refine ⟨0, arrCand g t c, by rw [h1 (Or.inl this), hc]; rfl, ?_⟩
    simp only [arrCand, pl.add]
    exact F.add _ _ hfin (pl.time _ _)
  · intro nid t f h0 ht hp hf hst fr hfr
    obtain ⟨n, p, hn, hp', _, h2⟩ := ent nid t h0 ht
    rw [ht] at hn; cases hn
    rw [hf] at hp'; cases hp'
    have h1 : nid ≠ 1 := by
      rintro rfl
      have := w.par 0 t ht
      omega
    obtain ⟨_, hl⟩ := h2 h1 hst.2
    obtain ⟨n', p', hn', _, g1, _⟩ := ent t.parent f hp hf
    rw [hf] at hn'; cases hn'
    rw [g1 (Or.inr hst.1)] at hfr
    simp only [List.length_map] at hfr
    refine ⟨fr, depCand' g f t fr (g.cands t.parent)[fr], ?_, ?_, ?_⟩
    · rw [hl, List.getElem?_mapIdx, List.getElem?_eq_getElem hfr]; rfl
    · simp [depCand']
    · exact pl.time _ _
  · intro nid t f h0 ht hp hf hst
    obtain ⟨n, p, hn, _, h1, _⟩ := ent nid t h0 ht
    rw [ht] at hn; cases hn
    have ha : t.arr = true := by
      cases hb : t.arr with
      | true => rfl
      | false =>
        have halt : t.arr = !f.arr := by
          cases nid with
          | zero => exact absurd rfl h0
          | succ i => rw [w.alt i t ht, nextArr, if_neg hp, hf]
        rw [hb] at halt
        exact absurd ⟨by simpa using halt.symm, hb⟩ hst
    obtain ⟨c, cs, hc, hcn, _⟩ := pl.first nid
    exact ⟨arrCand g t c, by rw [h1 (Or.inr ha), hc]; rfl, hcn⟩

/-- The router answers for every filed trip with the hops of a cheapest sequence. -/
theorem route_total (tenv : Verif.Trie.Env T P A) (hnear : ∀ p, tenv.near p p = true) (ops : List (Op T A))
    (tr : Verif.Trie.Trie T P A) (log : List (Op T A × Nat)) (h : history tenv ops = some (tr, log))
    (env : Env E C (X × Int) D S) (L : Laws env.ops) (F : Finite env.ops) (g : Gen E C X)
    (pl : Placeholder env.ops g) (he : getECM g tr.nds = some env.ecm) (s : S) (op : Op T A) (nid : Nat)
    (hop : (op, nid) ∈ log) (hstops : 2 ≤ (tenv.stops op.t).length) :
    ∃ ids hs cost, SeqCost env tr.nds (search env tr.nds s).ents (search env tr.nds s).fb nid ids cost ∧
      HopsOf env tr.nds nid ids hs ∧ route env tr.nds s nid = some hs ∧
      env.ops.lt cost env.ops.inf = true ∧ nid ≠ 0 ∧
      ∀ ids' c, SeqCost env tr.nds (search env tr.nds s).ents (search env tr.nds s).fb nid ids' c →
        env.ops.lt c cost = false := by
  obtain ⟨I, one⟩ := history_facts tenv hnear ops h
  have h0 : nid ≠ 0 := by
    rintro rfl
    have := (I.spells _ hop).1
    simp only [Verif.Trie.pathOf_zero, List.length_nil] at this
    omega
  have hlt := I.lt _ hop
  obtain ⟨t, ht⟩ := get_of_lt hlt
  obtain ⟨k, c, p, hk, hfin⟩ := layer_finite L F I.wf (usable_ecm F I.wf one g pl he) s nid t h0 ht
  have hsink := (sink_spec L ((search env tr.nds s).layers nid)).1 k c p hk
  have hsfin := finite_of_le L hsink hfin
  obtain ⟨ids, hs, g1, g2, g3⟩ := (route_of_sink L I.wf s h0 hlt).2 hsfin
  exact ⟨ids, hs, _, g1, g2, g3, hsfin, h0, (route_of_sink L I.wf s h0 hlt).1⟩

/-- C14, with the candidate table of the program: the costs are always finite, so that the hops
returned are those of a cheapest sequence of candidates. -/
theorem C14_cheapest (tenv : Verif.Trie.Env T P A) (hnear : ∀ p, tenv.near p p = true) (ops : List (Op T A))
    (tr : Verif.Trie.Trie T P A) (log : List (Op T A × Nat)) (h : history tenv ops = some (tr, log))
    (env : Env E C (X × Int) D S) (L : Laws env.ops) (F : Finite env.ops) (g : Gen E C X)
    (pl : Placeholder env.ops g) (he : getECM g tr.nds = some env.ecm) (s : S) (op : Op T A) (nid : Nat)
    (hop : (op, nid) ∈ log) (hstops : 2 ≤ (tenv.stops op.t).length) :
    ∃ ids hs cost, SeqCost env tr.nds (search env tr.nds s).ents (search env tr.nds s).fb nid ids cost ∧
      HopsOf env tr.nds nid ids hs ∧ route env tr.nds s nid = some hs ∧
      ∀ ids' c, SeqCost env tr.nds (search env tr.nds s).ents (search env tr.nds s).fb nid ids' c →
        env.ops.lt c cost = false := by
  obtain ⟨ids, hs, cost, h1, h2, h3, _, _, h5⟩ := route_total tenv hnear ops tr log h env L F g pl he s op nid hop hstops
  exact ⟨ids, hs, cost, h1, h2, h3, h5⟩

/-- C13. Every filed trip of `n ≥ 2` stops gets exactly `n - 1` hops, whatever the hop
calculation returns (nothing at all, for example), and no vector is accessed out of bounds
while collecting them. -/
theorem C13_one_hop_per_pair (tenv : Verif.Trie.Env T P A) (hnear : ∀ p, tenv.near p p = true) (ops : List (Op T A))
    (tr : Verif.Trie.Trie T P A) (log : List (Op T A × Nat)) (h : history tenv ops = some (tr, log))
    (env : Env E C (X × Int) D S) (L : Laws env.ops) (F : Finite env.ops) (g : Gen E C X)
    (pl : Placeholder env.ops g) (he : getECM g tr.nds = some env.ecm) (s : S) (op : Op T A) (nid : Nat)
    (hop : (op, nid) ∈ log) (hstops : 2 ≤ (tenv.stops op.t).length) :
    ∃ hs, route env tr.nds s nid = some hs ∧ hs.length = (tenv.stops op.t).length - 1 := by
  obtain ⟨ids, hs, cost, _, g2, g3, _, h0, _⟩ := route_total tenv hnear ops tr log h env L F g pl he s op nid hop hstops
  refine ⟨hs, g3, ?_⟩
  obtain ⟨I, _⟩ := history_facts tenv hnear ops h
  obtain ⟨t, ht, e⟩ := hopsOf_length I.wf g2 h0
  have : (pathOf tr.nds nid).length = 2 * ((tenv.stops op.t).length - 1) := (I.spells _ hop).1
  cases hb : t.arr <;> simp only [hb, if_true, Bool.false_eq_true, if_false] at e <;> omega

/-! ### consecutive hops meet -/

/-- Where a hop ends: the edge, if any, and the position. -/
def HopEnd.place : HopEnd E (X × Int) → Option E × X
  | .onEdge e x => (some e, x.1)
  | .free x => (none, x.1)

/-- Hops (last one first) of which each starts where the one before ended. -/
def Meet : List (Hop E (X × Int)) → Prop
  | h :: h' :: hs => h.fr.place = h'.to.place ∧ Meet (h' :: hs)
  | _ => True

theorem joins_place {env : Env E C (X × Int) D S} {nid : Nat} {a b : Cand E C (X × Int)} {h : Hop E (X × Int)}
    (j : Joins env nid a b h) : h.fr.place = (a.e, a.x.1) ∧ h.to.place = (b.e, b.x.1) := by
  obtain ⟨j1, j2, j3, j4, _⟩ := j
  constructor
  · cases ha : a.e with
    | none => rw [j2 ha]; rfl
    | some e => rw [j1 e ha]; rfl
  · cases hb : b.e with
    | none => rw [j4 hb]; rfl
    | some e => rw [j3 e hb]; rfl

theorem hops_meet {env : Env E C (X × Int) D S} {nds : List (Nd P A)} (w : WF nds)
    (one : OneRoot nds) (g : Gen E C X) (he : getECM g nds = some env.ecm) {ents : Nat → List (Ent D)}
    {fb : Nat → Option UInt32} {nid : Nat} {ids : List Nat} {hs : List (Hop E (X × Int))}
    (hh : HopsOf env nds nid ids hs) : ∀ c, nid ≠ 0 → SeqCost env nds ents fb nid ids c →
    Meet hs ∧ ∀ h hs', hs = h :: hs' → ∃ (k : Nat) (ids' : List Nat) (cand : Cand E C (X × Int)), ids = k :: ids' ∧
      (env.ecm nid)[k]? = some cand ∧ h.to.place = (cand.e, cand.x.1) := by
  induction hh with
  | first nid id t ht hp => intro c _ _; exact ⟨trivial, fun h hs' e => by cases e⟩
  | stay nid fr to f t ids hs ht hp hf hst hrest ih =>
    intro c h0 hseq
    cases hseq with
    | next _ _ _ f' t' _ c1 _ ht' _ hf' hseq' hstep =>
      rw [ht] at ht'; cases ht'
      rw [hf] at hf'; cases hf'
      obtain ⟨hm, hl⟩ := ih c1 hp hseq'
      refine ⟨hm, fun h hs' e => ?_⟩
      obtain ⟨k, ids', cand, e1, hc, hpl⟩ := hl h hs' e
      cases e1
      cases hstep with
      | hop _ _ hn => exact absurd hst hn
      | null _ hn => exact absurd hst hn
      | dummy _ _ _ _ hn => exact absurd hst hn
      | stay cand' _ hc' hmem =>
        refine ⟨to, fr :: ids, cand', rfl, hc', ?_⟩
        rw [hpl]
        -- both are copies of the same candidate of the stop
        obtain ⟨n, p, hn, hp', _, h2⟩ := getECM_spec g w one env.ecm he nid h0 (lt_of_get ht)
        rw [ht] at hn; cases hn
        rw [hf] at hp'; cases hp'
        have h1 : nid ≠ 1 := by
          rintro rfl
          have := w.par 0 t ht
          omega
        rw [(h2 h1 hst.2).2, List.getElem?_mapIdx, Option.map_eq_some_iff] at hc'
        obtain ⟨c0, hc0, rfl⟩ := hc'
        simp only [depCand', List.mem_singleton] at hmem
        subst hmem
        obtain ⟨n', p', hn', _, g1, _⟩ := getECM_spec g w one env.ecm he t.parent hp (lt_of_get hf)
        rw [hf] at hn'; cases hn'
        rw [g1 (Or.inr hst.1), List.getElem?_map, hc0] at hc
        cases hc
        rfl
  | hop nid fr to f t ids hs a b h' ht hp hf hst ha hb hj hrest ih =>
    intro c h0 hseq
    cases hseq with
    | next _ _ _ f' t' _ c1 _ ht' _ hf' hseq' hstep =>
      rw [ht] at ht'; cases ht'
      rw [hf] at hf'; cases hf'
      obtain ⟨hm, hl⟩ := ih c1 hp hseq'
      obtain ⟨pf, pt⟩ := joins_place hj
      refine ⟨?_, ?_⟩
      · cases hs with
        | nil => trivial
        | cons h2 hs2 =>
          refine ⟨?_, hm⟩
          obtain ⟨k, ids', cand, e1, hc, hpl⟩ := hl h2 hs2 rfl
          cases e1
          rw [ha] at hc; cases hc
          rw [pf, hpl]
      · intro h hs' e
        cases e
        exact ⟨to, fr :: ids, b, rfl, hb, pt⟩

/-- C57. Each hop of a trip starts on the edge and at the position where the hop before it
ended. -/
theorem C57_hops_meet (tenv : Verif.Trie.Env T P A) (hnear : ∀ p, tenv.near p p = true) (ops : List (Op T A))
    (tr : Verif.Trie.Trie T P A) (log : List (Op T A × Nat)) (h : history tenv ops = some (tr, log))
    (env : Env E C (X × Int) D S) (L : Laws env.ops) (F : Finite env.ops) (g : Gen E C X)
    (pl : Placeholder env.ops g) (he : getECM g tr.nds = some env.ecm) (s : S) (op : Op T A) (nid : Nat)
    (hop : (op, nid) ∈ log) (hstops : 2 ≤ (tenv.stops op.t).length) :
    ∃ hs, route env tr.nds s nid = some hs ∧ Meet hs := by
  obtain ⟨ids, hs, cost, g1, g2, g3, _, h0, _⟩ := route_total tenv hnear ops tr log h env L F g pl he s op nid hop hstops
  obtain ⟨I, one⟩ := history_facts tenv hnear ops h
  exact ⟨hs, g3, (hops_meet I.wf one g he g2 cost h0 g1).1⟩

/-! ### the candidate table -/

/-- C49. In the candidate table of a trie built by any history, every node has the empty
candidate first; arrival nodes and node 1 have one candidate per candidate of their stop, on
the same edge and at the same position; a departure node below an arrival node has a copy of
each candidate of that node, which refers to exactly this candidate, and never leaves earlier
than the arrival. -/
theorem C49_table (tenv : Verif.Trie.Env T P A) (hnear : ∀ p, tenv.near p p = true) (ops : List (Op T A))
    (tr : Verif.Trie.Trie T P A) (log : List (Op T A × Nat)) (h : history tenv ops = some (tr, log))
    (g : Gen E C X) (hpl : ∀ i, ∃ c cs, g.cands i = c :: cs ∧ c.e = none) (ecm : Ecm E C X)
    (he : getECM g tr.nds = some ecm) (i : Nat) (n : Nd P A) (h0 : i ≠ 0) (hn : tr.nds[i]? = some n) :
    (∃ cand, (ecm i)[0]? = some cand ∧ cand.e = none) ∧
    ((n.parent = 0 ∨ n.arr = true) → (ecm i).map (fun c => (c.e, c.x.1)) = (g.cands i).map fun c => (c.e, c.x)) ∧
    (n.parent ≠ 0 → n.arr = false → (ecm i).length = (ecm n.parent).length ∧
      ∀ (k : Nat) (cand : Cand E C (X × Int)), (ecm i)[k]? = some cand → cand.depPrede = [k] ∧
        ∃ a, (ecm n.parent)[k]? = some a ∧ a.e = cand.e ∧ a.x.1 = cand.x.1 ∧ a.x.2 ≤ cand.x.2) := by
  obtain ⟨I, one⟩ := history_facts tenv hnear ops h
  have par1 : i = 1 ↔ n.parent = 0 := by
    cases i with
    | zero => exact absurd rfl h0
    | succ i =>
      constructor
      · intro e
        have : i = 0 := by omega
        subst this
        have := I.wf.par 0 n hn; omega
      · intro e; have := one i n hn e; omega
  obtain ⟨n', p, hn', hp, h1, h2⟩ := getECM_spec g I.wf one ecm he i h0 (lt_of_get hn)
  rw [hn] at hn'; cases hn'
  refine ⟨?_, ?_, ?_⟩
  · by_cases ha : i = 1 ∨ n.arr = true
    · obtain ⟨c, cs, hc, hcn⟩ := hpl i
      exact ⟨arrCand g n c, by rw [h1 ha, hc]; rfl, hcn⟩
    · have ha' : i ≠ 1 ∧ n.arr = false := ⟨fun h => ha (Or.inl h), by
        cases hb : n.arr with
        | false => rfl
        | true => exact absurd (Or.inr hb) ha⟩
      obtain ⟨c, cs, hc, hcn⟩ := hpl n.parent
      exact ⟨depCand' g p n 0 c, by rw [(h2 ha'.1 ha'.2).2, hc]; simp, hcn⟩
  · intro ha
    rw [h1 (ha.imp par1.mpr id), List.map_map]
    rfl
  · intro hz ha
    obtain ⟨hpa, hl⟩ := h2 (fun h => hz (par1.mp h)) ha
    obtain ⟨p', q, hp', _, g1, _⟩ := getECM_spec g I.wf one ecm he n.parent hz (lt_of_get hp)
    rw [hp] at hp'; cases hp'
    have g1 := g1 (Or.inr hpa)
    refine ⟨by rw [hl, g1]; simp, ?_⟩
    intro k cand hk
    rw [hl, List.getElem?_mapIdx, Option.map_eq_some_iff] at hk
    obtain ⟨c0, hc0, rfl⟩ := hk
    refine ⟨rfl, arrCand g p c0, by rw [g1]; simp [hc0], rfl, rfl, ?_⟩
    simp only [arrCand, depCand']
    split <;> omega

/-- The table is defined whenever no accumulated time of a node is negative or needs more than
31 bits per trip (times of GTFS stop times before the first departure make it negative). -/
theorem C49_defined (g : Gen E C X) (nds : List (Nd P A))
    (h : ∀ n ∈ nds, 0 ≤ n.accTime ∧ n.accTime < 2147483648) : ∃ ecm, getECM g nds = some ecm := by
  have : timesDefined nds = true := by
    simp only [timesDefined, List.all_eq_true, decide_eq_true_eq]
    intro n hn
    obtain ⟨h1, h2⟩ := h n (List.mem_of_mem_drop hn)
    unfold avgTime
    split
    · omega
    · exact Int.lt_of_le_of_lt (Int.ediv_le_self _ h1) h2
  exact ⟨_, by rw [getECM, if_pos this]⟩

/-- Finding: one stop time before the first departure makes the average wrap, and the
conversion to `int` is undefined. -/
theorem C49_limit_negative_times (g : Gen E C X) (a : A) (p : P) :
    getECM g [⟨"", "", p, 0, false, 0, 0, 0, [1], a⟩, ⟨"A", "", p, 0, false, -1, 1, 0, [], a⟩] = none := by
  have : timesDefined [(⟨"", "", p, 0, false, 0, 0, 0, [1], a⟩ : Nd P A), ⟨"A", "", p, 0, false, -1, 1, 0, [], a⟩] =
      false := by simp [timesDefined, avgTime]
  simp [getECM, this]

/-- Finding: the fallback costs `maxCost * 100` wrap around: higher maximum costs can give
lower fallback costs, so that the fallback is preferred. -/
theorem C14_limit_fallback_wraps : ∃ m m' : UInt32, m < m' ∧ m' * 100 < m * 100 ∧ m' * 100 = 4 :=
  ⟨1, 42949673, by decide, by decide, by decide⟩

/-! ### non-vacuity -/

/-- costs: natural numbers with infinity -/
def exCost : CostOps (Option Nat) :=
  { lt := fun a b => match a, b with
      | some x, some y => decide (x < y)
      | some _, none => true
      | none, _ => false
    add := fun a b => match a, b with
      | some x, some y => some (x + y)
      | _, _ => none
    inf := none
    ofU32 := fun m => some m.toNat }

theorem exCost_laws : Laws exCost := by
  constructor
  · intro a b; cases a <;> cases b <;> simp [exCost]; omega
  · intro a b c; cases a <;> cases b <;> cases c <;> simp [exCost]; omega
  · intro a; cases a <;> rfl
  · intro a b c; cases a <;> cases b <;> cases c <;> simp [exCost]
  · intro c; cases c <;> rfl

theorem exCost_finite : Finite exCost := by
  constructor
  · intro a b; cases a <;> cases b <;> simp [exCost]
  · intro m; rfl

/-- each stop: the empty candidate and two edges -/
def exGen : Gen Nat (Option Nat) Nat :=
  { cands := fun i => [⟨none, some 0, i⟩, ⟨some (10 * i), some 3, 0⟩, ⟨some (10 * i + 1), some 1, 0⟩]
    timePen := fun a b => some (a - b).natAbs
    add := exCost.add }

theorem exGen_placeholder : Placeholder exCost exGen :=
  ⟨rfl, fun _ => ⟨_, _, rfl, rfl, rfl⟩, fun _ _ => rfl⟩

/-- a network in which only the hop to node 2 exists, between the first edges -/
def exEnv (ecm : Ecm Nat (Option Nat) Nat) : Env Nat (Option Nat) (Nat × Int) Nat Unit :=
  { ops := exCost, ecm := ecm, maxCost0 := fun _ => 5
    hops := fun _ nid _ m => (if nid = 2 ∧ m ≥ 10 then [⟨1, 1, 7, 0⟩, ⟨2, 1, 8, 0⟩] else [], ())
    weight := fun _ e => some e.c.toNat
    path := fun nid a b => if nid = 2 then [b, a] else [] }

def exRoute (nid : Nat) : Option (List (List Nat × (Option Nat × Nat) × (Option Nat × Nat))) :=
  match history Verif.Trie.exEnv Verif.Trie.exOps with
  | none => none
  | some r => match getECM exGen r.1.nds with
    | none => none
    | some ecm => (route (exEnv ecm) r.1.nds () nid).map fun hs => hs.map fun h => (h.edges, h.fr.place, h.to.place)

-- the hops of trip 0, last one first: the second stop was reached along edges, the third was not
example : exRoute 4 = some [([], (some 20, 0), (some 41, 0)), ([20, 11], (some 11, 0), (some 20, 0))] := by
  decide +kernel

end Verif.Router
