import Verif.Visit.Spec
import Verif.Tour.Props
import Verif.Cand.Props

/-!
# Candidates of stops on the map of an OSM file (lemmas)
-/

namespace Verif.Visit
open Verif.Trie (Trie Nd Op history Spells Fits spell pathOf)
open Verif.Router (HopEnd Cand0 Ecm getECM Stays)
open Verif.Line (Pos LHop At Trav GeoOk)
open Verif.Tour (Town FileOk MapOk DriveOk FindOk PlanOk RunOk TownOk Rides Tours)
open Verif.Full (Net Driven Joined)

variable {C P P' S T D A : Type}

/-! ## The graph -/

section
variable [DecidableEq P] {q : Town P S T D C P' A}

/-- Each edge has one in the other direction. -/
theorem file_back (ok : FileOk q) : ∀ e ∈ q.graph.es, ∃ f ∈ q.graph.es, f.src = e.dst ∧ f.dst = e.src := by
  obtain ⟨ways, own, h⟩ := Whole.base ok.filter q.d ok.doc
  have ht := ok.tidy ways h.kept
  have hs := h.sane ht.self
  have hm := h.ties.marks ok.opts ht.sense
  have G := Finish.C74_graph { q.p.cfg with orphans := q.p.orphOrder (Whole.readMap q.p q.d.tags).1.orphans } ok.order ok.nodes (Whole.raw q.p q.d.tags) hs
    (fun e he f hf => hm e f he hf)
  have hb := h.build ok.opts ht
  show ∀ e ∈ (Whole.build q.p q.d.tags).es, ∃ f ∈ (Whole.build q.p q.d.tags).es, f.src = e.dst ∧ f.dst = e.src
  rw [hb]
  exact G.2.2.2
end

section
variable [DecidableEq P] {x : Site P S T D C P' A}

theorem noDeadEnds (ok : FileOk x.town) (lk : LookOk x) : Cand.NoDeadEnds x.look.graph := by
  constructor
  · intro e
    obtain ⟨f, hf, h1, h2⟩ := file_back ok _ (List.getElem_mem e.isLt)
    obtain ⟨i, hi, rfl⟩ := List.getElem_of_mem hf
    have : (⟨i, hi⟩ : _root_.Fin x.town.graph.es.length) ∈ x.look.out x.town.graph.es[e].dst := (lk.out _ _).mpr h1
    exact List.ne_nil_of_mem this
  · intro e
    obtain ⟨f, hf, h1, h2⟩ := file_back ok _ (List.getElem_mem e.isLt)
    obtain ⟨i, hi, rfl⟩ := List.getElem_of_mem hf
    have : (⟨i, hi⟩ : _root_.Fin x.town.graph.es.length) ∈ x.look.inn x.town.graph.es[e].src := (lk.inn _ _).mpr h2
    exact List.ne_nil_of_mem this

/-! ## Candidates -/

/-- The end of a hop at a candidate, with a time. -/
def endAt (c : Cand0 Nat C (Pos P)) (t : Int) : HopEnd Nat (Pos P × Int) :=
  match c.e with
  | some e => .onEdge e (c.x, t)
  | none => .free (c.x, t)

theorem cands_ok (ok : FileOk x.town) (lk : LookOk x) (name platform : String) (pos : P') :
    (∃ l, Cand.getEdgCands x.look.graph x.look.o (x.look.ask name platform pos) = some l ∧ x.look.cands name platform pos = l.map x.look.conv) ∧
    (∃ cs, x.look.cands name platform pos = ⟨none, x.look.ofRat 0, ⟨0, (x.look.ask name platform pos).pos⟩⟩ :: cs ∧ ∀ c ∈ cs, c.e ≠ none) ∧
    (∀ c ∈ x.look.cands name platform pos, 0 ≤ c.x.progr ∧ c.x.progr ≤ 1) ∧
    (∀ c ∈ x.look.cands name platform pos, ∀ e, c.e = some e → e < x.town.graph.es.length) ∧
    ∀ c ∈ x.look.cands name platform pos, ∀ t, Place x name platform pos (endAt c t) := by
  obtain ⟨st, ed, h1, h2, -, h4, -⟩ := Cand.C50_candidates_partial x.look.graph x.look.o (x.look.ask name platform pos) (noDeadEnds ok lk)
  have hc : x.look.cands name platform pos =
      ⟨none, x.look.ofRat 0, ⟨0, (x.look.ask name platform pos).pos⟩⟩ :: (st ++ ed).map x.look.conv := by
    rw [Lookup.cands, h1]; rfl
  have one : (0 : Rat) ≤ 0 ∧ (0 : Rat) ≤ 1 := by decide +kernel
  refine ⟨⟨_, h1, by rw [Lookup.cands, h1]; rfl⟩, ⟨_, hc, ?_⟩, ?_, ?_, ?_⟩
  · intro c h
    obtain ⟨c0, h0, rfl⟩ := List.mem_map.mp h
    rcases List.mem_append.mp h0 with h0 | h0
    · obtain ⟨_, _, e, ha⟩ := h2 c0 h0
      simp [Lookup.conv, ha.edge]
    · obtain ⟨e, ha⟩ := h4 c0 h0
      simp [Lookup.conv, ha.edge]
  · intro c h
    rw [hc] at h
    rcases List.mem_cons.mp h with rfl | h
    · exact one
    obtain ⟨c0, h0, rfl⟩ := List.mem_map.mp h
    show 0 ≤ c0.progr ∧ c0.progr ≤ 1
    rcases List.mem_append.mp h0 with h0 | h0
    · obtain ⟨_, _, e, ha⟩ := h2 c0 h0
      rw [ha.progr]; exact one
    · obtain ⟨e, ha⟩ := h4 c0 h0
      rw [ha.progr]
      have := lk.progr name platform pos e
      split <;> grind
  · intro c h e he
    rw [hc] at h
    rcases List.mem_cons.mp h with rfl | h
    · cases he
    obtain ⟨c0, h0, rfl⟩ := List.mem_map.mp h
    simp only [Lookup.conv, Option.map_eq_some_iff] at he
    obtain ⟨i, _, rfl⟩ := he
    exact i.isLt
  · intro c h t
    rw [hc] at h
    rcases List.mem_cons.mp h with rfl | h
    · exact .self _ rfl
    obtain ⟨c0, h0, rfl⟩ := List.mem_map.mp h
    rcases List.mem_append.mp h0 with h0 | h0
    · obtain ⟨hu, u, e, ha⟩ := h2 c0 h0
      have hend : endAt (x.look.conv c0) t = .onEdge e.val (⟨c0.progr, c0.pos.getD x.look.origin⟩, t) := by
        unfold endAt Lookup.conv
        rw [ha.edge]; rfl
      rw [hend]
      have hst := lk.nds name platform pos u ha.found
      refine .station e.val u x.town.graph.es[e] _ hu ha.found ?_ ha.near (List.getElem?_eq_getElem e.isLt) ((lk.out u e).mp ha.leaves) ?_ ha.progr
      · have := (List.mem_filter.mp hst).2
        unfold Finish.isStat at this
        split at this
        · rename_i s hs; exact ⟨s, hs⟩
        · cases this
      · have := ha.dir
        simpa [Lookup.graph] using this
    · obtain ⟨e, ha⟩ := h4 c0 h0
      have hend : endAt (x.look.conv c0) t = .onEdge e.val (⟨c0.progr, c0.pos.getD x.look.origin⟩, t) := by
        unfold endAt Lookup.conv
        rw [ha.edge]; rfl
      rw [hend]
      have hi := lk.edgs name platform pos e ha.found
      simp only [Lookup.edges, Cand.index, List.mem_flatMap, List.mem_filter, Bool.and_eq_true, decide_eq_true_eq, Bool.not_eq_true'] at hi
      obtain ⟨_, _, _, hl, hw⟩ := hi
      have hrev := lk.rev name platform pos e
      refine .edge e _ ha.found ha.near ?_ hl (fun hr => ?_) fun hr => ?_
      · simpa [Lookup.graph] using hw
      · show c0.progr = _
        rw [ha.progr, hrev, hr, if_neg (by decide)]
      · show c0.progr = _
        rw [ha.progr, hrev, hr, if_pos rfl]

/-- The candidates of a node. -/
theorem gen_cands (tr : Trie Nat P' A) (i : Nat) : ∃ name platform pos, (x.seen.m.gen tr).cands i = x.look.cands name platform pos ∧
    ∀ nd, tr.nds[i]? = some nd → name = nd.name ∧ platform = nd.platform ∧ pos = nd.pos := by
  show ∃ name platform pos, (match tr.nds[i]? with
    | some nd => x.look.cands nd.name nd.platform nd.pos
    | none => x.look.cands "" "" x.town.m.c.rootPos) = _ ∧ _
  cases tr.nds[i]? with
  | none => exact ⟨_, _, _, rfl, fun nd h => by cases h⟩
  | some nd => exact ⟨_, _, _, rfl, fun nd' h => by cases h; exact ⟨rfl, rfl, rfl⟩⟩

theorem findOk_of (ok : FileOk x.town) (lk : LookOk x)
    (dr : DriveOk x.seen.mode0 x.seen.net (fun a => Journey.turn x.town.graph (x.town.fare a))) :
    FindOk x.seen.mode0 x.seen.net (fun a => Journey.turn x.town.graph (x.town.fare a)) where
  toDriveOk := dr
  cands := fun tr ecm => by
    refine ⟨lk.add tr ecm, fun i => ?_, lk.time tr ecm⟩
    obtain ⟨name, platform, pos, h, _⟩ := gen_cands (x := x) tr i
    obtain ⟨_, ⟨cs, hcs, _⟩, _⟩ := cands_ok ok lk name platform pos
    exact ⟨_, cs, h.trans hcs, rfl, lk.zero tr ecm⟩
  progr := fun tr i c hc _ => by
    obtain ⟨name, platform, pos, h, _⟩ := gen_cands (x := x) tr i
    have hc : c ∈ (x.seen.m.gen tr).cands i := hc
    rw [h] at hc
    exact (cands_ok ok lk name platform pos).2.2.1 c hc

theorem mapOk_of (ok : FileOk x.town) (lk : LookOk x) : MapOk x.seen where
  filter := ok.filter
  opts := ok.opts
  order := ok.order
  nodes := ok.nodes
  simplify := ok.simplify
  doc := ok.doc
  tidy := ok.tidy
  loops := ok.loops
  fare := ok.fare
  offers := by
    rintro tr e ⟨i, c, hc, he⟩
    obtain ⟨name, platform, pos, h, _⟩ := gen_cands (x := x) tr i
    rw [h] at hc
    exact (cands_ok ok lk name platform pos).2.2.2.1 c hc e he

theorem townOk_of {n : Nat} (ok : SiteOk x n) : TownOk x.seen n where
  toMapOk := mapOk_of ok.toFileOk ok.toLookOk
  run := { toFindOk := findOk_of ok.toFileOk ok.toLookOk ok.drive, toPlanOk := ok.plan }
end

/-! ## Hops and stops -/

/-- A candidate of a node is one of the candidates of the stop of the node, or of the stop of its parent, if one departs there. -/
theorem cand_node {E T X : Type} [DecidableEq T] {c : Trie.CEnv T P' A} (hnear : ∀ p, c.near p p = true) {tr : Trie T P' A} {ops : List (Op T A)}
    {log : List (Op T A × Nat)} (hh : history c.toEnv ops = some (tr, log)) {g : Router.Gen E C X}
    (hpl : ∀ i, ∃ c cs, g.cands i = c :: cs ∧ c.e = none) {ecm : Ecm E C X} (he : getECM g tr.nds = some ecm) {i : Nat} {nd : Nd P' A}
    (h0 : i ≠ 0) (hn : tr.nds[i]? = some nd) {k : Nat} {cand : Router.Cand E C (X × Int)} (hk : (ecm i)[k]? = some cand) :
    ∃ j, ((nd.parent = 0 ∨ nd.arr = true) ∧ j = i ∨ (nd.parent ≠ 0 ∧ nd.arr = false) ∧ j = nd.parent) ∧ ∃ c0 ∈ g.cands j, c0.e = cand.e ∧ c0.x = cand.x.1 := by
  obtain ⟨I, one⟩ := Router.history_facts c.toEnv hnear ops hh
  have arr : ∀ (i : Nat) nd, i ≠ 0 → tr.nds[i]? = some nd → (nd.parent = 0 ∨ nd.arr = true) → ∀ (k : Nat) (cand : Router.Cand E C (X × Int)),
      (ecm i)[k]? = some cand → ∃ c0 ∈ g.cands i, c0.e = cand.e ∧ c0.x = cand.x.1 := by
    intro i nd h0 hn hp k cand hk
    have e := (Router.C49_table c.toEnv hnear ops tr log hh g hpl ecm he i nd h0 hn).2.1 hp
    have hm : (cand.e, cand.x.1) ∈ (ecm i).map fun c => (c.e, c.x.1) := List.mem_map.mpr ⟨cand, List.mem_of_getElem? hk, rfl⟩
    rw [e] at hm
    obtain ⟨c0, hc, e0⟩ := List.mem_map.mp hm
    simp only [Prod.mk.injEq] at e0
    exact ⟨c0, hc, e0.1, e0.2⟩
  by_cases hp : nd.parent = 0 ∨ nd.arr = true
  · exact ⟨i, Or.inl ⟨hp, rfl⟩, arr i nd h0 hn hp k cand hk⟩
  · have hp0 : nd.parent ≠ 0 := fun e => hp (Or.inl e)
    have ha : nd.arr = false := by
      cases hb : nd.arr with
      | false => rfl
      | true => exact absurd (Or.inr hb) hp
    obtain ⟨_, h2⟩ := (Router.C49_table c.toEnv hnear ops tr log hh g hpl ecm he i nd h0 hn).2.2 hp0 ha
    obtain ⟨_, a, h3, h4, h5, _⟩ := h2 k cand hk
    obtain ⟨nd', p, hn', hpn, _, hq⟩ := Router.getECM_spec g I.wf one ecm he i h0 (List.getElem?_eq_some_iff.mp hn).1
    rw [hn] at hn'; cases hn'
    have hi1 : i ≠ 1 := by
      rintro rfl
      have := I.wf.par 0 nd hn
      omega
    obtain ⟨c0, hc, e1, e2⟩ := arr nd.parent p hp0 hpn (Or.inr (hq hi1 ha).1) k a h3
    exact ⟨nd.parent, Or.inr ⟨⟨hp0, ha⟩, rfl⟩, c0, hc, e1.trans h4, e2.trans h5⟩

/-- The hops of a plan join candidates of consecutive nodes on the path: hop `p` those of the nodes at places `2p` and `2p + 1`. -/
theorem driven_path {turn : Nat → Nat → Option Nat} {X : Type} {n : Net C X} {nds : List (Nd P' A)} (w : Trie.WF nds) {lost : Nat → Bool} {nid : Nat} {ids : List Nat}
    {hs : List (Router.Hop Nat X)} (h : Driven turn n nds lost nid ids hs) : nid ≠ 0 →
    ∃ t, nds[nid]? = some t ∧ (pathOf nds nid).length = 2 * hs.length + (if t.arr then 0 else 1) ∧
    ∀ (p : Nat) hp, hs.reverse[p]? = some hp → ∃ (u v : Nat) (a b : Router.Cand Nat C X) (fr to : Nat) (l : Bool),
      (pathOf nds nid)[2 * p]? = some u ∧ (pathOf nds nid)[2 * p + 1]? = some v ∧ (n.ecm u)[fr]? = some a ∧ (n.ecm v)[to]? = some b ∧ Joined turn l a b hp := by
  induction h with
  | first nid id t ht hp =>
    intro h0
    refine ⟨t, ht, ?_, fun p hp h => by simp at h⟩
    rw [Trie.pathOf_pos w h0 ht, hp]
    have : t.arr = false := by
      cases nid with
      | zero => exact absurd rfl h0
      | succ i => rw [w.alt i t ht, hp]; rfl
    simp [Trie.pathOf_zero, this]
  | stay nid fr to f t ids hs ht hp hf hst _ ih =>
    intro h0
    obtain ⟨f', hf', e, hh⟩ := ih hp
    rw [hf] at hf'; cases hf'
    refine ⟨t, ht, ?_, fun p h hr => ?_⟩
    · rw [Trie.pathOf_pos w h0 ht, List.length_append, e, hst.1, hst.2]
      simp
    · obtain ⟨u, v, a, b, fr, to, l, h1, h2, h3⟩ := hh p h hr
      refine ⟨u, v, a, b, fr, to, l, ?_, ?_, h3⟩ <;> rw [Trie.pathOf_pos w h0 ht]
      · rw [List.getElem?_append_left (List.getElem?_eq_some_iff.mp h1).1]; exact h1
      · rw [List.getElem?_append_left (List.getElem?_eq_some_iff.mp h2).1]; exact h2
  | hop nid fr to f t ids hs a b h' ht hp hf hst ha hb hj hd ih =>
    intro h0
    obtain ⟨f', hf', e, hh⟩ := ih hp
    rw [hf] at hf'; cases hf'
    have halt : t.arr = !f.arr := by
      cases nid with
      | zero => exact absurd rfl h0
      | succ i => rw [w.alt i t ht, Trie.nextArr, if_neg hp, hf]
    have hfa : f.arr = false := by
      cases hb : f.arr with
      | false => rfl
      | true => exact absurd ⟨hb, by rw [halt, hb]; rfl⟩ hst
    have hlen : (pathOf nds t.parent).length = 2 * hs.length + 1 := by rw [e, hfa]; simp
    refine ⟨t, ht, ?_, fun p h hr => ?_⟩
    · rw [Trie.pathOf_pos w h0 ht, List.length_append, hlen, halt, hfa]
      simp; omega
    · rw [List.reverse_cons] at hr
      by_cases hlt : p < hs.reverse.length
      · rw [List.getElem?_append_left hlt] at hr
        obtain ⟨u, v, a, b, fr, to, l, h1, h2, h3⟩ := hh p h hr
        refine ⟨u, v, a, b, fr, to, l, ?_, ?_, h3⟩ <;> rw [Trie.pathOf_pos w h0 ht]
        · rw [List.getElem?_append_left (List.getElem?_eq_some_iff.mp h1).1]; exact h1
        · rw [List.getElem?_append_left (List.getElem?_eq_some_iff.mp h2).1]; exact h2
      · rw [List.getElem?_append_right (by omega)] at hr
        have hpe : p = hs.length := by
          have := (List.getElem?_eq_some_iff.mp hr).1
          simp only [List.length_reverse, List.length_cons, List.length_nil] at this hlt
          omega
        subst hpe
        simp at hr
        subst hr
        refine ⟨t.parent, nid, a, b, fr, to, lost nid, ?_, ?_, ha, hb, hj⟩ <;> rw [Trie.pathOf_pos w h0 ht]
        · rw [List.getElem?_append_left (by omega), Trie.pathOf_pos w hp hf]
          have : (pathOf nds f.parent).length = 2 * hs.length := by
            rw [Trie.pathOf_pos w hp hf, List.length_append, List.length_singleton] at hlen
            omega
          rw [List.getElem?_append_right (by omega), this]
          simp
        · rw [List.getElem?_append_right (by omega), hlen]
          simp

/-- The events of a trip. -/
theorem spell_get : ∀ (ss : List (Trie.StopTime P')) (p : Nat) s s', ss[p]? = some s → ss[p + 1]? = some s' →
    (spell ss)[2 * p]? = some ⟨s, false⟩ ∧ (spell ss)[2 * p + 1]? = some ⟨s', true⟩
  | [], p, s, s', h, _ => by simp at h
  | [a], p, s, s', _, h => by simp at h
  | a :: b :: ss, 0, s, s', h, h' => by
    simp at h h'
    subst h; subst h'
    simp [spell]
  | a :: b :: ss, p + 1, s, s', h, h' => by
    obtain ⟨h1, h2⟩ := spell_get (b :: ss) p s s' (by simpa using h) (by simpa using h')
    refine ⟨?_, ?_⟩
    · show (⟨a, false⟩ :: ⟨b, true⟩ :: spell (b :: ss))[2 * p + 2]? = _
      simpa using h1
    · show (⟨a, false⟩ :: ⟨b, true⟩ :: spell (b :: ss))[2 * p + 3]? = _
      simpa using h2

theorem fits_at {env : Trie.Env T P' A} {nds : List (Nd P' A)} {op : Op T A} {nid : Nat} (h : Spells env nds op nid) {i u : Nat} {e : Trie.Ev P'}
    (hu : (pathOf nds nid)[i]? = some u) (he : (spell (env.stops op.t))[i]? = some e) : Fits env nds op.timeEx (op.start env) u e := by
  refine h.2 (u, e) ?_
  refine List.mem_of_getElem? (i := i) ?_
  rw [List.getElem?_zip_eq_some]
  exact ⟨hu, he⟩

theorem path_parent {nds : List (Nd P' A)} (w : Trie.WF nds) : ∀ nid, nid < nds.length → ∀ (i u : Nat) nd, (pathOf nds nid)[i]? = some u → nds[u]? = some nd →
    (i = 0 → nd.parent = 0) ∧ ∀ j, i = j + 1 → (pathOf nds nid)[j]? = some nd.parent := by
  intro nid
  induction nid using Nat.strongRecOn with
  | _ nid ih =>
    intro hlt i u nd hu hn
    by_cases h0 : nid = 0
    · subst h0; rw [Trie.pathOf_zero] at hu; simp at hu
    obtain ⟨t, ht⟩ : ∃ t, nds[nid]? = some t := ⟨_, List.getElem?_eq_getElem hlt⟩
    have hpar : t.parent < nid := by
      cases nid with
      | zero => exact absurd rfl h0
      | succ k => have := w.par k t ht; omega
    have hp := Trie.pathOf_pos w h0 ht
    rw [hp] at hu ⊢
    by_cases hi : i < (pathOf nds t.parent).length
    · rw [List.getElem?_append_left hi] at hu
      obtain ⟨h1, h2⟩ := ih t.parent hpar (by omega) i u nd hu hn
      refine ⟨h1, fun j hj => ?_⟩
      rw [List.getElem?_append_left (by omega)]
      exact h2 j hj
    · rw [List.getElem?_append_right (by omega)] at hu
      have hie : i = (pathOf nds t.parent).length := by
        have := (List.getElem?_eq_some_iff.mp hu).1
        simp at this
        omega
      subst hie
      simp at hu
      subst hu
      rw [ht] at hn; cases hn
      by_cases hz : nd.parent = 0
      · rw [hz]
        refine ⟨fun _ => rfl, fun j hj => ?_⟩
        rw [Trie.pathOf_zero] at hj
        simp at hj
      · obtain ⟨t', ht'⟩ : ∃ t', nds[nd.parent]? = some t' := ⟨_, List.getElem?_eq_getElem (by omega)⟩
        have hp' := Trie.pathOf_pos w hz ht'
        constructor
        · intro h
          rw [hp'] at h
          simp at h
        · intro j hj
          rw [List.getElem?_append_left (by omega), hp']
          rw [hp', List.length_append, List.length_singleton] at hj
          rw [List.getElem?_append_right (by omega)]
          simp [show j - (pathOf nds t'.parent).length = 0 by omega]

section
variable [DecidableEq P] {x : Site P S T D C P' A}

theorem visits_of (ok : FileOk x.town) (lk : LookOk x) (dr : DriveOk x.seen.mode0 x.seen.net (fun a => Journey.turn x.town.graph (x.town.fare a)))
    {turn : Nat → Nat → Option Nat} {tr : Trie Nat P' A} {ops : List (Op Nat A)} {log : List (Op Nat A × Nat)} {op : Op Nat A} {nid : Nat}
    {ecm : Ecm Nat C (Pos P)} {lost : Nat → Bool} {ids : List Nat} {hops : List (LHop Nat P)} (hh : history x.town.m.c.toEnv ops = some (tr, log))
    (hsp : Spells x.town.m.c.toEnv tr.nds op nid) (he : getECM (x.seen.m.gen tr) tr.nds = some ecm)
    (hd : Driven turn (x.seen.net tr ecm) tr.nds lost nid ids hops) (hlt : nid < tr.nds.length)
    (hlen : hops.length + 1 = (x.town.m.c.stops op.t).length) : Visits x op.t hops := by
  refine ⟨hlen, fun p h s s' hp hs hs' => ?_⟩
  have hnear : ∀ p, x.town.m.c.near p p = true := dr.near
  obtain ⟨I, _⟩ := Router.history_facts x.town.m.c.toEnv hnear ops hh
  have h0 : nid ≠ 0 := by
    rintro rfl
    have h1 := hsp.1
    rw [Trie.pathOf_zero, List.length_nil] at h1
    have := (List.getElem?_eq_some_iff.mp hs').1
    omega
  obtain ⟨t, ht, _, hpath⟩ := driven_path I.wf hd h0
  obtain ⟨u, v, a, b, fr, to, l, hu, hv, ha, hb, J⟩ := hpath p h hp
  rw [dr.ecm] at ha hb
  obtain ⟨e1, e2⟩ := spell_get _ p s s' hs hs'
  have F1 := fits_at hsp hu e1
  have F2 := fits_at hsp hv e2
  have pl : ∀ i, ∃ c cs, (x.seen.m.gen tr).cands i = c :: cs ∧ c.e = none := fun i => by
    obtain ⟨c, cs, k1, k2, _⟩ := ((findOk_of ok lk dr).cands tr ecm).first i
    exact ⟨c, cs, k1, k2⟩
  have bounds := (Trie.pathOf_bounds I.wf nid hlt).1
  -- a candidate of a node for the event of a stop is a place for the stop
  have place : ∀ (j : Nat) (ev : Trie.Ev P') (st : Trie.StopTime P') (c : Cand0 Nat C (Pos P)) (y : Int),
      Fits x.town.m.c.toEnv tr.nds op.timeEx (op.start x.town.m.c.toEnv) j ev → ev.st = st → c ∈ (x.seen.m.gen tr).cands j →
      PlaceFor x st (endAt c y) := by
    rintro j ev st c y ⟨nd, hn, f1, f2, f3, _⟩ rfl hc
    obtain ⟨name, platform, pos, hg, hnd⟩ := gen_cands (x := x) tr j
    obtain ⟨rfl, rfl, rfl⟩ := hnd nd hn
    rw [hg] at hc
    refine ⟨nd.pos, f3, ?_⟩
    rw [← f1, ← f2]
    exact (cands_ok ok lk _ _ _).2.2.2.2 c hc y
  have endEq : ∀ (c0 : Cand0 Nat C (Pos P)) (c : Router.Cand Nat C (Pos P × Int)) (z : HopEnd Nat (Pos P × Int)), c0.e = c.e → c0.x = c.x.1 →
      (∀ e, c.e = some e → z = .onEdge e c.x) → (c.e = none → z = .free c.x) → z = endAt c0 c.x.2 := by
    intro c0 c z h1 h2 h3 h4
    unfold endAt
    rw [h1, h2]
    cases hc : c.e with
    | none => exact h4 hc
    | some e => exact h3 e hc
  constructor
  · obtain ⟨nu, hnu, f1, f2, f3, f4, f5⟩ := id F1
    obtain ⟨j, hj, c0, hc0, k1, k2⟩ := cand_node hnear hh pl he (by have := bounds u (List.mem_of_getElem? hu); omega) hnu ha
    rw [endEq c0 a h.fr k1 k2 J.frEdge J.frFree]
    rcases hj with ⟨_, rfl⟩ | ⟨⟨hp0, _⟩, rfl⟩
    · exact place _ _ _ c0 _ F1 rfl hc0
    · obtain ⟨g1, g2⟩ := path_parent I.wf nid hlt _ u nu hu hnu
      cases p with
      | zero => exact absurd (g1 rfl) hp0
      | succ p =>
        obtain ⟨s0, hs0⟩ : ∃ s0, (x.town.m.c.stops op.t)[p]? = some s0 :=
          ⟨_, List.getElem?_eq_getElem (by have := (List.getElem?_eq_some_iff.mp hs).1; omega)⟩
        have e3 := (spell_get _ p s0 s hs0 hs).2
        exact place _ _ _ c0 _ (fits_at hsp (g2 (2 * p + 1) (by omega)) e3) rfl hc0
  · obtain ⟨nv, hnv, f1, f2, f3, f4, f5⟩ := id F2
    obtain ⟨j, hj, c0, hc0, k1, k2⟩ := cand_node hnear hh pl he (by have := bounds v (List.mem_of_getElem? hv); omega) hnv hb
    rw [endEq c0 b h.to k1 k2 J.toEdge J.toFree]
    rcases hj with ⟨_, rfl⟩ | ⟨⟨_, hb⟩, _⟩
    · exact place _ _ _ c0 _ F2 rfl hc0
    · rw [hb] at f4
      cases f4

theorem visits_tours {n : Nat} (ok : SiteOk x n) {k : Nat} {hops : List (LHop Nat P)} (h : Tours x.seen n k hops) : Visits x k hops := by
  obtain ⟨_, _, _, _, _, h1, _, tr, ops, log, op, nid, ecm, j, a1, a2, a3, a4, a5, _, _, _, _, top, lost, ids, cost, _, _, b3, _, _⟩ := h
  subst a3
  obtain ⟨I, _⟩ := Router.history_facts x.town.m.c.toEnv ok.drive.near ops a1
  exact visits_of ok.toFileOk ok.toLookOk ok.drive a1 a4 a5 b3 (I.lt _ a2) h1

/-! ## Distances -/

theorem close_of {geo : Line.Geo P} {pt : List P → Rat → P} (gok : GeoOk geo pt) {far : P' → P → Rat} (ok : FileOk x.town) (lk : LookOk x)
    (fk : FarOk pt far x) {s : Trie.StopTime P'} {z : HopEnd Nat (Pos P × Int)} {p : P} (h : PlaceFor x s z) (hp : At pt (Tour.mapOf x.town.graph) z p) :
    Close far x s p := by
  obtain ⟨pos, hn, hpl⟩ := h
  refine ⟨pos, hn, ?_⟩
  have line : ∀ (i : _root_.Fin x.town.graph.es.length) l, Trav (Tour.mapOf x.town.graph) i.val l → l.head? = some (x.town.graph.pos x.town.graph.es[i].src) ∧
      ∃ l0, x.town.graph.es[i].geom = some l0 ∧ (x.town.graph.es[i].a.rev = false → l = l0) ∧ (x.town.graph.es[i].a.rev = true → l = l0.reverse) := by
    intro i l hl
    have hi : x.town.graph.es[i.val]? = some x.town.graph.es[i] := List.getElem?_eq_getElem i.isLt
    have hgeo : (Tour.mapOf x.town.graph).geom i.val = x.town.graph.es[i].geom := by
      show x.town.graph.es[i.val]?.bind (·.geom) = _
      rw [hi]; rfl
    have hr : (Tour.mapOf x.town.graph).rev i.val = x.town.graph.es[i].a.rev := by simp only [Tour.mapOf, hi]
    have hf : (Tour.mapOf x.town.graph).from_ i.val = x.town.graph.pos x.town.graph.es[i].src := by simp only [Tour.mapOf, hi]
    refine ⟨by rw [← hf]; exact (Tour.town_geom (q := x.seen) (mapOk_of ok lk) i.val l hl).1, ?_⟩
    have hne : (Tour.mapOf x.town.graph).geom i.val ≠ none := Tour.town_some (q := x.seen) (mapOk_of ok lk) i.isLt
    obtain ⟨l1, h1, h2, _⟩ := Tour.town_line (q := x.seen) (mapOk_of ok lk) (e := x.town.graph.es[i]) (List.getElem_mem i.isLt)
    have hl1 : l1 ≠ [] := by
      rintro rfl
      split at h2 <;> simp at h2
    refine ⟨l1, h1, ?_⟩
    rw [← hgeo] at h1
    cases hl with
    | none h => exact absurd (h _ h1) hl1
    | fwd l h3 _ h5 =>
      rw [h1] at h3; cases h3
      rw [hr] at h5
      exact ⟨fun _ => rfl, fun h => by rw [h5] at h; cases h⟩
    | bwd l h3 _ h5 =>
      rw [h1] at h3; cases h3
      rw [hr] at h5
      exact ⟨(fun h => by rw [h5] at h; cases h), fun _ => rfl⟩
  cases hpl with
  | self y hy =>
    cases hp
    exact Or.inl hy
  | station i u e y hu hin hst hdist hi hsrc hdir hy =>
    cases hp with
    | edge _ _ l hl =>
      obtain ⟨hlt, he⟩ := List.getElem?_eq_some_iff.mp hi
      obtain ⟨hhead, _⟩ := line ⟨i, hlt⟩ l hl
      have he' : x.town.graph.es[(⟨i, hlt⟩ : _root_.Fin x.town.graph.es.length)] = e := he
      rw [hy, gok.pt_zero l _ hhead, he', hsrc]
      exact Or.inr (Or.inl (Rat.le_trans (fk.node s.name s.platform pos u) hdist))
  | edge i y hin hdist hdir hlvl hf hr =>
    cases hp with
    | edge _ _ l hl =>
      obtain ⟨_, l0, h1, h2, h3⟩ := line i l hl
      refine Or.inr (Or.inr (Rat.le_trans ?_ hdist))
      cases hrev : x.town.graph.es[i].a.rev with
      | false => rw [hf hrev, h2 hrev]; exact fk.edge s.name s.platform pos i l0 h1
      | true => rw [hr hrev, h3 hrev, fk.turned]; exact fk.edge s.name s.platform pos i l0 h1

theorem passes_of {geo : Line.Geo P} {pt : List P → Rat → P} (gok : GeoOk geo pt) {far : P' → P → Rat} (ok : FileOk x.town) (lk : LookOk x)
    (fk : FarOk pt far x) {encD : Rat → List Nat} {isAt : Shapes.Row → P → Prop} {k : Nat} {hops : List (LHop Nat P)} {shape : List Shapes.Row} {S' : Type}
    {stops : List (Out.StRow (List Nat) S')} (hl : 2 ≤ (x.town.m.c.stops k).length) (hv : Visits x k hops)
    (ha : Dists.Along pt (Tour.mapOf x.town.graph) encD isAt hops shape stops) : Passes far isAt x (x.town.m.c.stops k) shape stops := by
  intro q hq s hs
  obtain ⟨hlen, hv⟩ := hv
  generalize hc : (stops.filter fun q' => q'.seq < q.seq).length = c at hs
  have hlt := (List.getElem?_eq_some_iff.mp hs).1
  cases c with
  | zero =>
    have hmin : ∀ q' ∈ stops, q.seq ≤ q'.seq := by
      intro q' hq'
      rw [List.length_eq_zero_iff, List.filter_eq_nil_iff] at hc
      have := hc q' hq'
      simp only [decide_eq_true_eq] at this
      omega
    have h0 : 0 < hops.reverse.length := by rw [List.length_reverse]; omega
    obtain ⟨h, hh⟩ : ∃ h, hops.reverse[0]? = some h := ⟨_, List.getElem?_eq_getElem h0⟩
    obtain ⟨s', hs'⟩ : ∃ s', (x.town.m.c.stops k)[0 + 1]? = some s' := ⟨_, List.getElem?_eq_getElem (by omega)⟩
    obtain ⟨r, hr, hd, p, hat, hp⟩ := ha.start q hq hmin h (by rw [← List.head?_reverse, List.head?_eq_getElem?]; exact hh)
    exact ⟨r, hr, hd, p, hat, close_of gok ok lk fk (hv 0 h s s' hh hs hs').1 hp⟩
  | succ c =>
    have h0 : c < hops.reverse.length := by rw [List.length_reverse]; omega
    obtain ⟨h, hh⟩ : ∃ h, hops.reverse[c]? = some h := ⟨_, List.getElem?_eq_getElem h0⟩
    obtain ⟨s0, hs0⟩ : ∃ s0, (x.town.m.c.stops k)[c]? = some s0 := ⟨_, List.getElem?_eq_getElem (by omega)⟩
    obtain ⟨r, hr, hd, p, hat, hp⟩ := ha.place q hq c h hc hh
    exact ⟨r, hr, hd, p, hat, close_of gok ok lk fk (hv c h s0 s hh hs0 hs).2 hp⟩
end

end Verif.Visit
