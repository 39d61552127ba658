import Verif.Whole.Lemmas

/-!
# The graph before gaps are closed and the file
-/

set_option linter.unusedSectionVars false

namespace Verif.Whole
open Verif.Osm Verif.Collapse Verif.Payload Verif.Snap Verif.Turns
open Verif.Restrictor (run R Op run_weak rules_from Announced)
open Verif.Finish (RulesIn Marked)

variable {P S T D : Type}

/-- `ways` are the ways of the file that are wanted, with the tags that are wanted. -/
def Kept (p : Par P S T D) (d : Doc P) (ways : List Way) : Prop :=
  ∃ (br : DElem P → Rel) (bw : DElem P → Way) (q : DElem P → Bool), (∀ x, ReadsRel p.keysR x (br x)) ∧ (∀ x, ReadsWay p.keysW x (bw x)) ∧
    (∀ x ∈ d.ways, q x = true ↔ WayWritten p.f br (if d.ways = [] then d.rels.drop 1 else d.rels)
      (p.box (passReport p.bbox (fNohup p.o) d.nodes)) (bw x)) ∧
    ways = (d.ways.filter q).map bw

/-- Nodes without turns, and nodes in the area, after the first pass over the file. -/
def noTurn (p : Par P S T D) (d : Doc P) (i : Nat) : Bool := p.hup (passReport p.bbox (fNohup p.o) d.nodes) i
def inArea (p : Par P S T D) (d : Doc P) (i : Nat) : Bool := p.box (passReport p.bbox (fNohup p.o) d.nodes) i

/-- The pieces of the ways in the area. Nodes without turns are never left out. -/
def mapSegs (p : Par P S T D) (d : Doc P) (ways : List Way) : List Seg := segs (noTurn p d) (fun i => noTurn p d i || inArea p d i) 0 ways

theorem nodeSteps_fst (p : Par P S T D) (nds : List (Nod P)) (c : GSt P × NState Nat S) :
    (nds.foldl (nodeStep p) c).1 = nds.foldl (addNode (fun n => fStation p.o n.attrs != 0) (fun n => (p.info n).isSome)) c.1 := by
  induction nds generalizing c with
  | nil => rfl
  | cons nd nds ih => rw [List.foldl_cons, List.foldl_cons, ih]; rfl

theorem readMap_fst (p : Par P S T D) (file : List (Ev P)) : (readMap p file).1 =
    readGraph p.p0 p.f p.keysN p.keysW p.keysR p.box p.hup p.bbox (fNohup p.o) (fun n => fStation p.o n.attrs != 0) (fun n => (p.info n).isSome) file := by
  unfold readMap readGraph
  dsimp only
  rw [nodeSteps_fst]

theorem readMap_eq (p : Par P S T D) (d : Doc P) (hd : d.Ok) :
    let ops := passReport p.bbox (fNohup p.o) d.nodes
    let st := relState p.f p.keysR (seenRels d.ways d.rels)
    let s := ((d.ways.map (readWay p.keysW)).filter (keepWay p.f st.wayRels st.flat (p.box ops))).foldl
      (addWay (p.hup ops) (p.box ops)) GSt.init
    readMap p d.tags =
      ((d.nodes.map (readNod p.keysN)).filter (keepNode p.f (fun i => (s.nodes.get i).isSome) (fun i => (s.multi.get i).isSome)
        st.nodeRels st.flat (p.box ops))).foldl (nodeStep p) (s, NState.init Nat S) := by
  intro ops st s
  obtain ⟨h0, hs, hh, hh'⟩ := hd.head
  have e1 : skipUntil .node d.tags =
      flat (d.nodes.map DNode.el) ++ (flat (d.ways.map DElem.way) ++ flat (d.rels.map DElem.rel)) := by
    rw [Doc.tags, hh]
    exact skip_node h0 hs hh' d.nodes hd.some _
  have e2 : bboxGo p.bbox (fNohup p.o) (flat (d.nodes.map DNode.el) ++ (flat (d.ways.map DElem.way) ++ flat (d.rels.map DElem.rel)))
      false 0 = (ops, flat (d.ways.map DElem.way) ++ flat (d.rels.map DElem.rel)) :=
    bboxGo_first p.bbox (fNohup p.o) d.nodes hd.some
    (fun x hx => hd.nodes.nz _ (List.mem_map.2 ⟨x, hx, rfl⟩))
    (fun x hx => hd.nodes.nested _ (List.mem_map.2 ⟨x, hx, rfl⟩)) _ (rest_level d.ways d.rels)
  have e3 : readRels p.keysR p.f (skipUntil .relation (flat (d.ways.map DElem.way) ++ flat (d.rels.map DElem.rel))) = st := by
    rw [skip_rel d.ways d.rels hd.plainWays hd.plainRels, readRels]
    rw [show (if d.ways = [] then d.rels.drop 1 else d.rels) = seenRels d.ways d.rels from rfl,
      read_rels p.f p.keysR _ (proper_seen d.ways hd.rels)]
    rfl
  have e4 := ways_section p.keysW (keepWay p.f st.wayRels st.flat (p.box ops)) (by intro w hw; simp [keepWay] at hw; exact hw.1.1.1.1)
    d.ways hd.ways _ (stops_ways_rels d.rels)
  have e5 := nodes_section p.p0 p.keysN (keepNode p.f (fun i => (s.nodes.get i).isSome) (fun i => (s.multi.get i).isSome)
        st.nodeRels st.flat (p.box ops)) (by intro w hw; simp [keepNode] at hw; exact hw.1.1.1) d.nodes hd.nodes _
        (stops_rest d.ways d.rels)
  unfold readMap
  simp only [e1, e2, e3, e4]
  rw [show (((d.ways.map (readWay p.keysW)).filter (keepWay p.f st.wayRels st.flat (p.box ops))).foldl
      (addWay (p.hup ops) (p.box ops)) GSt.init) = s from rfl, e5]

theorem addNodes_next (isSt stat : Nod P → Bool) (nds : List (Nod P)) (s : GSt P) : s.next ≤ (nds.foldl (addNode isSt stat) s).next := by
  induction nds generalizing s with
  | nil => exact Nat.le_refl _
  | cons nd nds ih => exact Nat.le_trans (addNode_keeps isSt stat s nd).2.2.2 (ih _)

/-- Graph nodes, places, pieces. -/
structure Base (p : Par P S T D) (d : Doc P) (ways : List Way) (own : List Place) : Prop where
  kept : Kept p d ways
  ties : Ties p own (raw p d.tags).es (mapSegs p d ways)
  len : own.length ≤ (raw p d.tags).next
  calls : Match (Is own) (readMap p d.tags).1.edges (mapSegs p d ways)
  owns : ∀ g i, (∃ q, own[g]? = some q ∧ q.node = i) ↔
    ((readMap p d.tags).1.nodes.get i = some g ∨ ∃ l, (readMap p d.tags).1.multi.get i = some l ∧ g ∈ l)
  pos : ∀ x ∈ d.nodes, ∀ g q, own[g]? = some q → q.node = x.id → (noTurn p d x.id = false ∨ inArea p d x.id = true) →
    (raw p d.tags).pos g = x.pos

/-- How the nodes are read. -/
def Read (p : Par P S T D) (d : Doc P) (ways : List Way) (own : List Place) : Prop :=
  ∃ (k0 : Nat) (s0 : GSt P) (nr : FMap Nat (List Nat)) (fl : List Nat), s0 = ways.foldl (addWay (noTurn p d) (inArea p d)) GSt.init ∧
    PInv (noTurn p d) (inArea p d) own k0 0 s0 ∧
    readMap p d.tags = ((d.nodes.map (readNod p.keysN)).filter (keepNode p.f (fun i => (s0.nodes.get i).isSome)
      (fun i => (s0.multi.get i).isSome) nr fl (inArea p d))).foldl (nodeStep p) (s0, NState.init Nat S) ∧
    ∀ i, Member nr fl i ↔ LiftsNode p.f (readRel p.keysR) (seenRels d.ways d.rels) i

theorem base_ways {p : Par P S T D} (hf : p.f.Ok) (d : Doc P) (hd : d.Ok) : ∃ ways own, Base p d ways own ∧ Read p d ways own ∧
    ways = (d.ways.map (readWay p.keysW)).filter (keepWay p.f (relState p.f p.keysR (seenRels d.ways d.rels)).wayRels
      (relState p.f p.keysR (seenRels d.ways d.rels)).flat (inArea p d)) := by
  have hread := readMap_eq p d hd
  dsimp only at hread
  have heq := readMap_fst p d.tags
  rw [readGraph_eq p.p0 p.f p.keysN p.keysW p.keysR p.box p.hup p.bbox (fNohup p.o) _ _ d hd] at heq
  obtain ⟨ops, hops⟩ : ∃ ops, ops = passReport p.bbox (fNohup p.o) d.nodes := ⟨_, rfl⟩
  obtain ⟨st, hst⟩ : ∃ st, st = relState p.f p.keysR (seenRels d.ways d.rels) := ⟨_, rfl⟩
  rw [← hops, ← hst] at heq hread
  obtain ⟨ws, hws⟩ : ∃ ws, ws = (d.ways.map (readWay p.keysW)).filter (keepWay p.f st.wayRels st.flat (p.box ops)) := ⟨_, rfl⟩
  rw [← hws] at heq hread
  obtain ⟨own, k', h1, h2, h3⟩ := addWays_place (P := P) (nohup := p.hup ops) (box := p.box ops) ws 0 [] GSt.init (pinv_init _ _) [] .nil
  obtain ⟨s0, hs0⟩ : ∃ s0, s0 = ws.foldl (addWay (p.hup ops) (p.box ops)) (GSt.init : GSt P) := ⟨_, rfl⟩
  rw [← hs0] at h1 h2 h3 heq hread
  have hkeep := addNodes_keeps (fun n => fStation p.o n.attrs != 0) (fun n => (p.info n).isSome)
    ((d.nodes.map (readNod p.keysN)).filter (keepNode p.f (fun i => (s0.nodes.get i).isSome)
    (fun i => (s0.multi.get i).isSome) st.nodeRels st.flat (p.box ops))) s0
  rw [← heq] at hkeep
  have hnext := addNodes_next (fun n => fStation p.o n.attrs != 0) (fun n => (p.info n).isSome)
    ((d.nodes.map (readNod p.keysN)).filter (keepNode p.f (fun i => (s0.nodes.get i).isSome)
    (fun i => (s0.multi.get i).isSome) st.nodeRels st.flat (p.box ops))) s0
  rw [← heq] at hnext
  have hinv := relState_inv p.f p.keysR (seenRels d.ways d.rels)
  rw [← hst] at hinv
  have hz1 : ∀ x ∈ seenRels d.ways d.rels, x.id ≠ 0 :=
    fun x hx => hd.rels.nz _ (List.mem_map.2 ⟨x, seen_sub _ _ x hx, rfl⟩)
  have mw : ∀ i, Member st.wayRels st.flat i ↔ LiftsWay p.f (readRel p.keysR) (seenRels d.ways d.rels) i := fun i =>
    (member_aux (sel := fun r => r.ways.map (·.1)) hinv.flat hinv.ways i).trans
      (lifts_aux hf p.keysR _ hz1 (fun r => r.ways) (fun _ _ => rfl) i)
  have mn : ∀ i, Member st.nodeRels st.flat i ↔ LiftsNode p.f (readRel p.keysR) (seenRels d.ways d.rels) i := fun i =>
    (member_aux (sel := fun r => r.nodes.map (·.1)) hinv.flat hinv.nodes i).trans
      (lifts_aux hf p.keysR _ hz1 (fun r => r.nodes) (fun _ _ => rfl) i)
  have hRead : Read p d ws own := by
    unfold Read
    rw [show noTurn p d = p.hup ops from by unfold noTurn; rw [← hops], show inArea p d = p.box ops from by unfold inArea; rw [← hops]]
    exact ⟨k', s0, st.nodeRels, st.flat, hs0, h1, hread, mn⟩
  have hsegs : mapSegs p d ws = [] ++ segs (p.hup ops) (fun i => p.hup ops i || p.box ops i) 0 ws := by
    unfold mapSegs noTurn inArea
    rw [← hops]
    rfl
  have hcalls : Match (Is own) (readMap p d.tags).1.edges (mapSegs p d ws) := by
    rw [hkeep.2.2, hsegs]
    exact h3
  have howns : ∀ g i, (∃ q, own[g]? = some q ∧ q.node = i) ↔
    ((readMap p d.tags).1.nodes.get i = some g ∨ ∃ l, (readMap p d.tags).1.multi.get i = some l ∧ g ∈ l) := by
    intro g i
    rw [hkeep.1, hkeep.2.1]
    constructor
    · rintro ⟨q, hq, rfl⟩
      cases q with
      | shared i => exact Or.inl ((h1.nd i g).2 hq)
      | alone i k j => exact Or.inr (h1.al i g k j hq).2.2
    · rintro (h | ⟨l, hl, hg⟩)
      · exact ⟨_, (h1.nd i g).1 h, rfl⟩
      · obtain ⟨k, j, hq⟩ := h1.mu i l hl g hg
        exact ⟨_, hq, rfl⟩
  refine ⟨ws, own, ⟨⟨readRel p.keysR, readWay p.keysW, fun x => keepWay p.f st.wayRels st.flat (p.box ops) (readWay p.keysW x),
    readRel_spec p.keysR, readWay_spec p.keysW, ?_, ?_⟩, ties h1.inj hcalls _, ?_, hcalls, howns, ?_⟩, hRead, ?_⟩
  · intro x hx
    simp only
    rw [keepWay_iff hf, ← hops]
    have hz := hd.ways.nz _ (List.mem_map.2 ⟨x, hx, rfl⟩)
    constructor
    · rintro ⟨_, h⟩
      exact ⟨h.two, h.why.imp (mw _).1 id, h.nodrop, h.inbox⟩
    · intro h
      exact ⟨hz, h.two, h.why.imp (mw _).2 id, h.nodrop, h.inbox⟩
  · rw [hws, List.filter_map]; rfl
  · rw [h1.len]; exact hnext
  · intro x hx g q hq hi hc
    unfold noTurn inArea at hc
    have := C33_positions_partial hf p.p0 p.keysN p.keysW p.keysR p.box p.hup p.bbox (fNohup p.o) _ _ d hd _ (readMap_fst p d.tags) x hx g
      ((howns g x.id).1 ⟨q, hq, hi⟩) hc
    show ((readMap p d.tags).1.geom.get g).getD p.p0 = x.pos
    rw [this]; rfl
  · rw [hws, hst, hops]; rfl

theorem base_read {p : Par P S T D} (hf : p.f.Ok) (d : Doc P) (hd : d.Ok) : ∃ ways own, Base p d ways own ∧ Read p d ways own := by
  obtain ⟨ways, own, h, hr, _⟩ := base_ways hf d hd
  exact ⟨ways, own, h, hr⟩

theorem base {p : Par P S T D} (hf : p.f.Ok) (d : Doc P) (hd : d.Ok) : ∃ ways own, Base p d ways own := by
  obtain ⟨ways, own, h, _⟩ := base_read hf d hd
  exact ⟨ways, own, h⟩

/-! ### rules -/

theorem turns_inv (p : Par P S T D) (file : List (Ev P)) : ∃ q ids, TInv q (fun _ g => (g.src, g.dst)) (p.hup (bboxGo p.bbox (fNohup p.o) (skipUntil .node file) false 0).1)
    (p.box (bboxGo p.bbox (fNohup p.o) (skipUntil .node file) false 0).1) ids (turns p file) := by
  unfold turns readTurns
  dsimp only
  exact ⟨_, (turnWays_spec _ [] _ (tinv_init (P := P) (E := Nat × Nat) _ _ _ _)).1⟩

theorem turns_graph (p : Par P S T D) (file : List (Ev P)) : (readMap p file).1.edges = (turns p file).g.edges ∧
    (readMap p file).1.nodes = (turns p file).g.nodes ∧ (readMap p file).1.multi = (turns p file).g.multi := by
  rw [readMap_fst]
  exact C70_same_graph p.o (fun _ g => (g.src, g.dst)) p.p0 p.f p.keysN p.keysW p.keysR p.box p.hup p.bbox (fNohup p.o) _ _ file

theorem raw_rules (p : Par P S T D) (file : List (Ev P)) : RulesIn (raw p file).es (raw p file).res := by
  obtain ⟨q, ids, I⟩ := turns_inv p file
  have M := made p (readMap p file).1.edges
  have hw := run_weak (turns p file).ops
  have mk : ∀ (i : Nat) (x : GEdge) (n v : Nat), (turns p file).g.edges[i]? = some x → (x.src = n ∨ x.dst = n) → ids[n]? = some v →
      marks q v x.way.id = true → Marked (raw p file).es n (x.src, x.dst) := by
    intro i x n v hx hn hv hm
    have hmem : x ∈ (readMap p file).1.edges := by rw [(turns_graph p file).1]; exact List.mem_of_getElem? hx
    obtain ⟨e, he, h1, h2⟩ := M.to x hmem
    have hfl : (x.src, x.dst) ∈ (turns p file).flags := (I.flags _).2 ⟨i, x, n, v, hx, hn, hv, rfl, hm⟩
    refine ⟨flag (turns p file).flags e, List.mem_map.2 ⟨e, he, rfl⟩, ?_, ?_, ?_⟩
    · show (e.src, e.dst) = _
      rw [h1, h2]
    · show (turns p file).flags.contains (e.src, e.dst) = true
      rw [h1, h2]
      exact List.contains_iff_mem.2 hfl
    · show n = e.src ∨ n = e.dst
      rw [h1, h2]
      exact hn.imp Eq.symm Eq.symm
  have hadd : ∀ fr t n pos, Op.add fr t n pos ∈ (turns p file).ops → Marked (raw p file).es n fr := by
    intro fr t n pos h
    obtain ⟨i, x, n', v, hx, hn, hv, ho⟩ := (I.ops _).1 h
    obtain ⟨rfl, rfl, hq⟩ := add_turnOps.1 ho
    exact mk i x n v hx hn hv (marks_iff.2 ⟨pos, _, hq, Or.inl rfl⟩)
  have hrel : ∀ t n e, Op.relax t n e ∈ (turns p file).ops → Marked (raw p file).es n e := by
    intro t n e h
    obtain ⟨i, x, n', v, hx, hn, hv, ho⟩ := (I.ops _).1 h
    obtain ⟨rfl, rfl, rfl, pos, a, _, hq⟩ := relax_turnOps.1 ho
    exact mk i x n v hx hn hv (marks_iff.2 ⟨pos, _, hq, Or.inr rfl⟩)
  intro v r hr
  rcases hr with hr | hr
  · obtain ⟨to, h1, h2, _⟩ := rules_from (hw.pos.res v) (fr := r.1) (t := r.2) hr
    exact ⟨hadd _ _ _ _ h1, fun x hx => hrel _ _ _ (h2 x hx)⟩
  · obtain ⟨to, h1, h2, _⟩ := rules_from (hw.neg.res v) (fr := r.1) (t := r.2) hr
    exact ⟨hadd _ _ _ _ h1, fun x hx => hrel _ _ _ (h2 x hx)⟩

theorem Base.sane {p : Par P S T D} {d : Doc P} {ways : List Way} {own : List Place} (h : Base p d ways own)
    (hself : ∀ s ∈ mapSegs p d ways, s.a ≠ s.b) : Sane (raw p d.tags) := by
  have hlt : ∀ e ∈ (raw p d.tags).es, e.src < (raw p d.tags).next ∧ e.dst < (raw p d.tags).next := by
    intro e he
    obtain ⟨s, _, s1, s2, _⟩ := h.ties.back e he
    exact ⟨Nat.lt_of_lt_of_le (List.getElem?_eq_some_iff.1 s1).1 h.len, Nat.lt_of_lt_of_le (List.getElem?_eq_some_iff.1 s2).1 h.len⟩
  refine ⟨h.ties.uniq, hlt, ?_, ?_⟩
  · intro e he heq
    obtain ⟨s, hs, s1, s2, _⟩ := h.ties.back e he
    rw [heq, s2] at s1
    exact hself s hs (Option.some.inj s1).symm
  · intro v r hr
    obtain ⟨h1, h2⟩ := raw_rules p d.tags v r hr
    have : ∀ x, Marked (raw p d.tags).es v x → x.1 < (raw p d.tags).next ∧ x.2 < (raw p d.tags).next := by
      rintro x ⟨e, he, rfl, _⟩
      exact hlt e he
    exact ⟨this _ h1, fun x hx => this x (h2 x hx)⟩

/-! ### gaps -/

theorem two_length {A : Type} {l : List A} {a b : A} (ha : a ∈ l) (hb : b ∈ l) (hne : a ≠ b) : 2 ≤ l.length := by
  match l with
  | [] => cases ha
  | [x] =>
    rw [List.mem_singleton] at ha hb
    exact absurd (ha.trans hb.symm) hne
  | _ :: _ :: _ => simp

theorem Base.tip {p : Par P S T D} {d : Doc P} {ways : List Way} {own : List Place} (h : Base p d ways own) (u : Nat)
    (hu : ((raw p d.tags).es.filter fun e => e.src = u).length + ((raw p d.tags).es.filter fun e => e.dst = u).length = 1) :
    ∃ q, own[u]? = some q ∧ Tip (mapSegs p d ways) q := by
  obtain ⟨e, he, hn⟩ : ∃ e ∈ (raw p d.tags).es, e.src = u ∨ e.dst = u := by
    rcases Nat.eq_zero_or_pos ((raw p d.tags).es.filter fun e => e.src = u).length with h0 | h0
    · obtain ⟨e, he⟩ := List.exists_mem_of_length_pos (show 0 < ((raw p d.tags).es.filter fun e => e.dst = u).length by omega)
      exact ⟨e, (List.mem_filter.1 he).1, Or.inr (by simpa using (List.mem_filter.1 he).2)⟩
    · obtain ⟨e, he⟩ := List.exists_mem_of_length_pos h0
      exact ⟨e, (List.mem_filter.1 he).1, Or.inl (by simpa using (List.mem_filter.1 he).2)⟩
  have only : ∀ f ∈ (raw p d.tags).es, f.src = u ∨ f.dst = u → f = e := by
    intro f hf hfn
    apply Classical.byContradiction
    intro hne
    have m1 : ∀ {x : Edg Nat P}, x ∈ (raw p d.tags).es → x.src = u → x ∈ (raw p d.tags).es.filter fun e => e.src = u :=
      fun hx h => List.mem_filter.2 ⟨hx, by simpa using h⟩
    have m2 : ∀ {x : Edg Nat P}, x ∈ (raw p d.tags).es → x.dst = u → x ∈ (raw p d.tags).es.filter fun e => e.dst = u :=
      fun hx h => List.mem_filter.2 ⟨hx, by simpa using h⟩
    rcases hn with hn | hn <;> rcases hfn with hfn | hfn
    · have := two_length (m1 hf hfn) (m1 he hn) hne; omega
    · have := List.length_pos_of_mem (m2 hf hfn); have := List.length_pos_of_mem (m1 he hn); omega
    · have := List.length_pos_of_mem (m1 hf hfn); have := List.length_pos_of_mem (m2 he hn); omega
    · have := two_length (m2 hf hfn) (m2 he hn) hne; omega
  obtain ⟨s, hs, s1, s2, _⟩ := h.ties.back e he
  obtain ⟨q, hq, hqs⟩ : ∃ q, own[u]? = some q ∧ (s.a = q ∨ s.b = q) := by
    rcases hn with hn | hn
    · exact ⟨s.a, hn ▸ s1, Or.inl rfl⟩
    · exact ⟨s.b, hn ▸ s2, Or.inr rfl⟩
  refine ⟨q, hq, s, hs, hqs, fun t ht htq => ?_⟩
  obtain ⟨f, hf, f1, f2⟩ := h.ties.to t ht
  have : f = e := by
    refine only f hf ?_
    rcases htq with k | k
    · left; rw [k] at f1; exact h.ties.inj _ _ _ f1 hq
    · right; rw [k] at f2; exact h.ties.inj _ _ _ f2 hq
  subst this
  rw [s1] at f1
  rw [s2] at f2
  exact ⟨(Option.some.inj f1).symm, (Option.some.inj f2).symm⟩

end Verif.Whole
