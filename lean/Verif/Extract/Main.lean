import Verif.Extract.Parts

/-!
# The same graph from the written file (lemmas)
-/

set_option linter.unusedSectionVars false
set_option linter.unusedSimpArgs false

namespace Verif.Extract
open Verif.Names (Str)
open Verif.Osm Verif.Whole Verif.Payload
open Verif.Turns (sRestriction readTurns readRestr Rests TSt turnWay)
open Verif.Attrs (Has Met Wanted filePar fileRels fileWays fileLines relsOf file_rels Naming Info wayLines)

variable {P S T D : Type}

/-- The area of `q` includes that of `p`. -/
structure Wider (os : List Osm.Opts) (ord : Osm.Attrs → Osm.Attrs) (p q : Par P S T D) : Prop where
  configs : Configs os ord q
  exact : Exact q
  sub : ∀ x, p.bbox x = true → q.bbox x = true

/-- The relations as they are read. -/
def relsIn (p : Par P S T D) (d : Doc P) : List Rel := d.rels.filterMap fun x => keepRel p.f (readRel p.keysR x)

/-- The ways as they are read. -/
def waysIn (p : Par P S T D) (d : Doc P) : List Way := (d.ways.map (readWay p.keysW)).filter
  (keepWay p.f (relState p.f p.keysR d.rels).wayRels (relState p.f p.keysR d.rels).flat (inArea p d))

section
variable {w : Pen P} {os : List Osm.Opts} {ord : Osm.Attrs → Osm.Attrs} {p q : Par P S T D} {d : Doc P}

theorem the_cut (hd : d.Ok) (hc : Configs os ord p) (hL : Lossless w d) (hR : Clear os d) :
    Cut (fun i => (wids os ord q d).contains i) (fun i => (nids os ord q d).contains i) (relsIn p d) (relsIn p (selDoc w os ord q d)) :=
  rels_cut hL.order hc _ _ d.rels (fun x hx => hd.rels.nz _ (List.mem_map.2 ⟨x, hx, rfl⟩)) hL.rels hR

theorem rels_nz (hd : d.Ok) : ∀ x ∈ d.rels, x.id ≠ 0 := fun x hx => hd.rels.nz _ (List.mem_map.2 ⟨x, hx, rfl⟩)

theorem in_wider (hx : Exact p) (hw : Wider os ord p q) {i : Nat} (h : inArea p d i = true) : inArea q d i = true := by
  obtain ⟨x, h1, h2, h3⟩ := (area_iff hx _ _).1 h
  exact (area_iff hw.exact _ _).2 ⟨x, h1, h2, hw.sub _ h3⟩

theorem way_up (hd : d.Ok) (hc : Configs os ord p) (hx : Exact p) (hw : Wider os ord p q) (hR : Clear os d) {x : DElem P}
    (h : keepWay p.f (relState p.f p.keysR d.rels).wayRels (relState p.f p.keysR d.rels).flat (inArea p d) (readWay p.keysW x) = true) :
    wq os ord q d x = true := by
  obtain ⟨h0, hk⟩ := (keepWay_iff hc.flt _ _ _ _).1 h
  refine (keepWay_iff hc.merged _ _ _ _).2 ⟨h0, hk.two, ?_, no_drop _ _, ?_⟩
  · rcases hk.why with h | h
    · refine .inl ((member_in _ _ _ _).1.2 (in_merged hc (rels_nz hd) hR (t := .way) (fun _ _ _ => rfl) ((member_in _ _ _ _).1.1 h)))
    · rw [hc.keep] at h
      exact .inr (merged_hits hc (attrs_sub hc.kW x.kids) h)
  · obtain ⟨i, hi, hb⟩ := hk.inbox
    exact ⟨i, hi, by rw [box_area hw.exact]; exact in_wider hx hw hb⟩

theorem way_same (hd : d.Ok) (hc : Configs os ord p) (hx : Exact p) (hw : Wider os ord p q) (hL : Lossless w d) (hR : Clear os d) {x : DElem P} (hm : x ∈ d.ways)
    (hq : wq os ord q d x = true) :
    Alike (fun i => (wids os ord q d).contains i) (readWay p.keysW x) (readWay p.keysW (outWay w (readWay (os.flatMap keptWay) x))) ∧
    keepWay p.f (relState p.f p.keysR (selDoc w os ord q d).rels).wayRels (relState p.f p.keysR (selDoc w os ord q d).rels).flat
      (inArea p (selDoc w os ord q d)) (readWay p.keysW (outWay w (readWay (os.flatMap keptWay) x))) =
    keepWay p.f (relState p.f p.keysR d.rels).wayRels (relState p.f p.keysR d.rels).flat (inArea p d) (readWay p.keysW x) := by
  obtain ⟨e1, e2, e3⟩ := reread_way hL.order (hL.ways x hm) hc.kW
  have hf : x ∈ d.ways.filter (wq os ord q d) := List.mem_filter.2 ⟨hm, hq⟩
  have hW : (wids os ord q d).contains x.id = true := List.contains_iff_mem.2 (List.mem_map.2 ⟨x, hf, rfl⟩)
  refine ⟨⟨hW, e1, e2, e3⟩, ?_⟩
  rw [Bool.eq_iff_iff, keepWay_iff hc.flt, keepWay_iff hc.flt]
  have hmem : Member (relState p.f p.keysR (selDoc w os ord q d).rels).wayRels (relState p.f p.keysR (selDoc w os ord q d).rels).flat
      (readWay p.keysW (outWay w (readWay (os.flatMap keptWay) x))).id ↔
      Member (relState p.f p.keysR d.rels).wayRels (relState p.f p.keysR d.rels).flat (readWay p.keysW x).id := by
    rw [(member_in _ _ _ _).1, (member_in _ _ _ _).1, e1]
    exact ((cut_in (the_cut hd hc hL hR) x.id).1 hW).symm
  have hbox : ∀ i ∈ kidRefs x.kids, inArea p (selDoc w os ord q d) i = inArea p d i := fun i hi =>
    (areas_use hd hc hw.configs hx hL (List.mem_flatMap.2 ⟨x, hf, hi⟩)).1
  constructor
  · rintro ⟨h0, h⟩
    refine ⟨h0, ?_, h.why.imp hmem.1 (e3.hits _ _).2, fun h' => h.nodrop ((e3.hits _ _).1 h'), ?_⟩
    · have := h.two
      rw [e2] at this
      exact this
    · obtain ⟨i, hi, hb⟩ := h.inbox
      rw [e2] at hi
      exact ⟨i, hi, by rw [← hbox i hi]; exact hb⟩
  · rintro ⟨h0, h⟩
    refine ⟨h0, ?_, h.why.imp hmem.2 (e3.hits _ _).1, fun h' => h.nodrop ((e3.hits _ _).2 h'), ?_⟩
    · rw [e2]
      exact h.two
    · obtain ⟨i, hi, hb⟩ := h.inbox
      exact ⟨i, by rw [e2]; exact hi, by rw [hbox i hi]; exact hb⟩

theorem ways_match (hd : d.Ok) (hc : Configs os ord p) (hx : Exact p) (hw : Wider os ord p q) (hL : Lossless w d) (hR : Clear os d) :
    Match (Alike fun i => (wids os ord q d).contains i) (waysIn p d) (waysIn p (selDoc w os ord q d)) := by
  have := match_filter (R := Alike fun i => (wids os ord q d).contains i) (readWay p.keysW)
    (fun x => readWay p.keysW (outWay w (readWay (os.flatMap keptWay) x))) (wq os ord q d)
    (keepWay p.f (relState p.f p.keysR d.rels).wayRels (relState p.f p.keysR d.rels).flat (inArea p d))
    (keepWay p.f (relState p.f p.keysR (selDoc w os ord q d).rels).wayRels (relState p.f p.keysR (selDoc w os ord q d).rels).flat
      (inArea p (selDoc w os ord q d))) d.ways (fun x _ h => way_up hd hc hx hw hR h) (fun x hm hq => (way_same hd hc hx hw hL hR hm hq).2)
      (fun x hm hq _ => (way_same hd hc hx hw hL hR hm hq).1)
  have e : (selDoc w os ord q d).ways.map (readWay p.keysW) =
      (d.ways.filter (wq os ord q d)).map (fun x => readWay p.keysW (outWay w (readWay (os.flatMap keptWay) x))) := by
    simp only [selDoc, List.map_map]
    rfl
  unfold waysIn
  rw [e]
  exact this

theorem ways_use (hd : d.Ok) (hc : Configs os ord p) (hx : Exact p) (hw : Wider os ord p q) (hR : Clear os d) : ∀ y ∈ waysIn p d, ∀ i ∈ y.nodes, i ∈ uses os ord q d := by
  intro y hy i hi
  obtain ⟨h1, h2⟩ := List.mem_filter.1 hy
  obtain ⟨x, hx', rfl⟩ := List.mem_map.1 h1
  exact List.mem_flatMap.2 ⟨x, List.mem_filter.2 ⟨hx', way_up hd hc hx hw hR h2⟩, hi⟩

/-- The nodes as they are read. -/
def nodesIn (p : Par P S T D) (d : Doc P) (s : GSt P) : List (Nod P) := (d.nodes.map (readNod p.keysN)).filter
  (keepNode p.f (fun i => (s.nodes.get i).isSome) (fun i => (s.multi.get i).isSome)
    (relState p.f p.keysR d.rels).nodeRels (relState p.f p.keysR d.rels).flat (inArea p d))

theorem nodes_match (hd : d.Ok) (hc : Configs os ord p) (hx : Exact p) (hw : Wider os ord p q) (hL : Lossless w d) (hR : Clear os d) {s s' : GSt P}
    (hu : Uses (inArea p d) (· ∈ uses os ord q d) s) (e1 : s'.nodes = s.nodes) (e2 : s'.multi = s.multi) :
    Match (fun n n' => NSim n n' ∧ (nids os ord q d).contains n.id = true) (nodesIn p d s) (nodesIn p (selDoc w os ord q d) s') := by
  have hk : ∀ i, (s.nodes.get i).isSome = true → i ∈ uses os ord q d := by
    intro i h
    obtain ⟨n, hn⟩ := Option.isSome_iff_exists.1 h
    exact (hu.nodes i n hn).1
  have hmu : ∀ i, (s.multi.get i).isSome = true → i ∈ uses os ord q d := by
    intro i h
    obtain ⟨n, hn⟩ := Option.isSome_iff_exists.1 h
    exact hu.multi i n hn
  have hN : ∀ x ∈ d.nodes, nq os ord q d x = true → (nids os ord q d).contains x.id = true := fun x h1 h2 =>
    List.contains_iff_mem.2 (List.mem_append.2 (.inr (List.mem_map.2 ⟨x, List.mem_filter.2 ⟨h1, h2⟩, rfl⟩)))
  have := match_filter (R := fun n n' => NSim n n' ∧ (nids os ord q d).contains n.id = true) (readNod p.keysN)
    (fun x => readNod p.keysN (outNode w (readNod (os.flatMap keptNode) x))) (nq os ord q d)
    (keepNode p.f (fun i => (s.nodes.get i).isSome) (fun i => (s.multi.get i).isSome)
      (relState p.f p.keysR d.rels).nodeRels (relState p.f p.keysR d.rels).flat (inArea p d))
    (keepNode p.f (fun i => (s'.nodes.get i).isSome) (fun i => (s'.multi.get i).isSome)
      (relState p.f p.keysR (selDoc w os ord q d).rels).nodeRels (relState p.f p.keysR (selDoc w os ord q d).rels).flat
      (inArea p (selDoc w os ord q d))) d.nodes ?_ ?_ ?_
  · have e : (selDoc w os ord q d).nodes.map (readNod p.keysN) =
        (d.nodes.filter (nq os ord q d)).map (fun x => readNod p.keysN (outNode w (readNod (os.flatMap keptNode) x))) := by
      simp only [selDoc, List.map_map]
      rfl
    unfold nodesIn
    rw [e]
    exact this
  · intro x hm h
    obtain ⟨h0, hk'⟩ := (keepNode_iff hc.flt _ _ _ _ _ _).1 h
    rcases hk'.why with h | h | h
    · exact nq_use hd hw.configs hm (hk _ h)
    · exact nq_use hd hw.configs hm (hmu _ h)
    · have hb : (uses os ord q d).contains x.id = true ∨ inArea q d x.id = true :=
        hk'.inbox.imp (fun h => List.contains_iff_mem.2 (hk _ h)) fun h => in_wider hx hw h
      refine (keepNode_iff hc.merged _ _ _ _ _ _).2 ⟨h0, .inr (.inr ?_), ?_, .inr (.inr (no_drop _ _))⟩
      · rcases h with h | h
        · exact .inl ((member_in _ _ _ _).2.2 (in_merged hc (rels_nz hd) hR (t := .node) (fun _ _ _ => rfl) ((member_in _ _ _ _).2.1 h)))
        · rw [hc.keep] at h
          exact .inr (merged_hits hc (attrs_sub hc.kN x.kids) h)
      · rw [box_area hw.exact]
        exact hb
  · intro x hm hq
    have e3 := reread_node hL.order (hL.nodes x hm) hc.kN
    rw [Bool.eq_iff_iff, keepNode_iff hc.flt, keepNode_iff hc.flt, e1, e2]
    have hmem : Member (relState p.f p.keysR (selDoc w os ord q d).rels).nodeRels (relState p.f p.keysR (selDoc w os ord q d).rels).flat x.id ↔
        Member (relState p.f p.keysR d.rels).nodeRels (relState p.f p.keysR d.rels).flat x.id := by
      rw [(member_in _ _ _ _).2, (member_in _ _ _ _).2]
      exact ((cut_in (the_cut hd hc hL hR) x.id).2 (hN x hm hq)).symm
    have hbox := (areas_node hd hc hx hL hm hq).1
    constructor
    · rintro ⟨h0, h⟩
      refine ⟨h0, h.why.imp id (Or.imp id (Or.imp hmem.1 (e3.hits _ _).2)), h.inbox.imp id fun h => ?_,
        h.nodrop.imp id (Or.imp id fun h h' => h ((e3.hits _ _).1 h'))⟩
      exact hbox.symm.trans h
    · rintro ⟨h0, h⟩
      refine ⟨h0, h.why.imp id (Or.imp id (Or.imp hmem.2 (e3.hits _ _).1)), h.inbox.imp id fun h => ?_,
        h.nodrop.imp id (Or.imp id fun h h' => h ((e3.hits _ _).2 h'))⟩
      exact hbox.trans h
  · intro x hm hq _
    exact ⟨⟨rfl, hL.pos x hm, reread_node hL.order (hL.nodes x hm) hc.kN⟩, hN x hm hq⟩

/-! ### turn rules -/

theorem turns_eq (p : Par P S T D) (d : Doc P) (hd : d.Ok) (hne : d.ways ≠ []) :
    turns p d.tags = (waysIn p d).foldl (turnWay ((relsIn p d).foldl (readRestr p.o) Rests.init) (fun _ g => (g.src, g.dst)) (noTurn p d) (inArea p d))
      TSt.init := by
  obtain ⟨h0, hs, hh, hh'⟩ := hd.head
  have e1 : skipUntil .node d.tags =
      flat (d.nodes.map DNode.el) ++ (flat (d.ways.map DElem.way) ++ flat (d.rels.map DElem.rel)) := by
    rw [Doc.tags, hh]
    exact skip_node h0 hs hh' d.nodes hd.some _
  have e2 : bboxGo p.bbox (fNohup p.o) (flat (d.nodes.map DNode.el) ++ (flat (d.ways.map DElem.way) ++ flat (d.rels.map DElem.rel)))
      false 0 = (passReport p.bbox (fNohup p.o) d.nodes, flat (d.ways.map DElem.way) ++ flat (d.rels.map DElem.rel)) :=
    bboxGo_first p.bbox (fNohup p.o) d.nodes hd.some
    (fun x hx => hd.nodes.nz _ (List.mem_map.2 ⟨x, hx, rfl⟩))
    (fun x hx => hd.nodes.nested _ (List.mem_map.2 ⟨x, hx, rfl⟩)) _ (rest_level d.ways d.rels)
  have e3 : (readAll (nextRel p.keysR p.f) (skipUntil .relation (flat (d.ways.map DElem.way) ++ flat (d.rels.map DElem.rel)))).1 = relsIn p d := by
    rw [skip_rel d.ways d.rels hd.plainWays hd.plainRels, if_neg hne, read_rels p.f p.keysR _ hd.rels]
    rfl
  have e4 := ways_section p.keysW (keepWay p.f (relState p.f p.keysR d.rels).wayRels (relState p.f p.keysR d.rels).flat (inArea p d))
    (by intro w hw; simp [keepWay] at hw; exact hw.1.1.1.1) d.ways hd.ways _ (stops_ways_rels d.rels)
  unfold turns readTurns
  simp only [e1, e2, e3]
  rw [show (readAll (nextWay p.keysW (keepWay p.f ((relsIn p d).foldl addRel ⟨[], [], [], []⟩).wayRels ((relsIn p d).foldl addRel ⟨[], [], [], []⟩).flat
    (p.box (passReport p.bbox (fNohup p.o) d.nodes)))) (flat (d.ways.map DElem.way) ++ flat (d.rels.map DElem.rel))).1 = waysIn p d from by
      show (readAll (nextWay p.keysW (keepWay p.f (relState p.f p.keysR d.rels).wayRels (relState p.f p.keysR d.rels).flat (inArea p d))) _).1 = _
      rw [e4]; rfl]
  rfl

/-- The nodes of the map. -/
theorem restricts (hc : Configs os ord p) {r : Rel} (hr : r ∈ relsIn p d) : ∃ x ∈ d.rels, r.ways = kidMembers .way x.kids ∧ r.nodes = kidMembers .node x.kids ∧
    (IsRestr p.o r → Restricts p x) := by
  obtain ⟨x, hx, hk⟩ := List.mem_filterMap.1 hr
  obtain ⟨_, hwant, rfl⟩ := (keepRel_iff hc.flt _ _).1 hk
  refine ⟨x, hx, rfl, rfl, fun h => ?_⟩
  have hw : FMap.WF (attrsOf p.keysR x.kids []) := attrsOf_wf _ _ _ FMap.WF.nil
  have ha : ∀ k, FMap.get (attrsOf p.keysR x.kids []) k = kidVal p.keysR x.kids k := fun k => get_attrsOf_nil _ _ _
  have kk : ∀ rules : Rules, (∀ k ∈ rules.keys, k ∈ keptRel p.o) → ∀ k ∈ rules.keys, k ∈ p.keysR := fun rules h k hk => by
    rw [hc.keysR]; exact h k hk
  have met : ∀ (rules : Rules) (kind : Nat), (∀ k ∈ rules.keys, k ∈ keptRel p.o) → (Hits rules kind (attrsOf p.keysR x.kids []) ↔ Met rules kind x.kids) :=
    fun rules kind h => Verif.Attrs.hits_met (kk rules h) kind hw ha
  obtain ⟨_, _, _, _, _, _, _, n1, n2⟩ := C28_decisions p.o hc.own (attrsOf p.keysR x.kids [])
  have kp : ∀ k ∈ p.o.posRestr.keys, k ∈ keptRel p.o := fun k hk => by simp only [keptRel, List.mem_append]; simp [hk]
  have kn : ∀ k ∈ p.o.negRestr.keys, k ∈ keptRel p.o := fun k hk => by simp only [keptRel, List.mem_append]; simp [hk]
  have kx : ∀ k ∈ p.o.noRestr.keys, k ∈ keptRel p.o := fun k hk => by simp only [keptRel, List.mem_append]; simp [hk]
  have kK : ∀ k ∈ p.o.keep.keys, k ∈ keptRel p.o := fun k hk => by simp only [keptRel, List.mem_append]; simp [hk]
  have kD : ∀ k ∈ p.o.drop.keys, k ∈ keptRel p.o := fun k hk => by simp only [keptRel, List.mem_append]; simp [hk]
  have h2 : fPosRestr p.o (attrsOf p.keysR x.kids []) ≠ 0 ∨ fNegRestr p.o (attrsOf p.keysR x.kids []) ≠ 0 := by
    have := h.2
    by_cases g : fPosRestr p.o (attrsOf p.keysR x.kids []) = 0
    · exact .inr fun g' => this ⟨g, g'⟩
    · exact .inl g
  constructor
  case wanted =>
    unfold Wanted
    rw [hc.keep, hc.drop, ← met _ _ kK, ← met _ _ kD]
    have a := hwant.keep
    have b := hwant.nodrop
    rw [hc.keep] at a
    rw [hc.drop] at b
    exact ⟨a, b⟩
  case type => exact has_of_mem (kv := (sType, sRestriction)) (FMap.mem_of_get h.1)
  case kind =>
    rw [← met _ _ kp, ← met _ _ kn]
    exact h2.imp (fun g => (n2.1 g).1) (fun g => (n1.1 g).1)
  case noEx =>
    rw [← met _ _ kx]
    exact h2.elim (fun g => (n2.1 g).2) (fun g => (n1.1 g).2)

end

/-! ### the graph -/

section
variable {w : Pen P} {os : List Osm.Opts} {ord : Osm.Attrs → Osm.Attrs} {p q : Par P Info Str D} {d : Doc P}

theorem same_graph (n : Naming) (hd : d.Ok) (hc : Configs os ord p) (hx : Exact p) (hw : Wider os ord p q) (hL : Lossless w d) (hR : Clear os d)
    (hl : Complete os d (sel os ord q d)) (hi : Intact p d (sel os ord q d)) :
    build (filePar n p (extract w q.p0 os ord q.box q.bbox d.tags)) (extract w q.p0 os ord q.box q.bbox d.tags) = build (filePar n p d.tags) d.tags := by
  rw [extract_eq hw.configs hd hl]
  have hs := sel_eq hw.configs hd hl
  have hne : d.ways.filter (wq os ord q d) ≠ [] := by
    intro e
    refine hl.any ?_
    rw [hs, e]
    rfl
  have hn1 : d.ways ≠ [] := fun e => hne (by rw [e]; rfl)
  have hd' : (selDoc w os ord q d).Ok := written_ok hd hw.configs hw.exact hne
  have hn2 : (selDoc w os ord q d).ways ≠ [] := fun e => hne (List.map_eq_nil_iff.1 (List.map_eq_nil_iff.1 e))
  have hws := ways_match hd hc hx hw hL hR
  have huse := ways_use hd hc hx hw hR
  have hcut := the_cut (q := q) hd hc hL hR
  have hrows := cut_rows hcut
  have ru : ∀ d : Doc P, d.ways ≠ [] → seenRels d.ways d.rels = d.rels := fun d h => by rw [seenRels, if_neg h]
  have ru' : ∀ d : Doc P, d.ways ≠ [] → relsOf d = d.rels := fun d h => by rw [relsOf, if_neg h]
  obtain ⟨f1, f2⟩ := file_rels p d hd
  obtain ⟨f1', f2'⟩ := file_rels p _ hd'
  rw [ru' d hn1] at f1 f2
  rw [ru' _ hn2] at f1' f2'
  change fileRels p d.tags = (relsIn p d).foldl addRel ⟨[], [], [], []⟩ at f1
  change fileRels p (selDoc w os ord q d).tags = (relsIn p (selDoc w os ord q d)).foldl addRel ⟨[], [], [], []⟩ at f1'
  change fileWays p d.tags = waysIn p d at f2
  change fileWays p (selDoc w os ord q d).tags = waysIn p (selDoc w os ord q d) at f2'
  -- lines
  have hkept : ∀ y ∈ waysIn p d, (wids os ord q d).contains y.id = true := by
    intro y hy
    obtain ⟨h1, h2⟩ := List.mem_filter.1 hy
    obtain ⟨x, hx', rfl⟩ := List.mem_map.1 h1
    exact List.contains_iff_mem.2 (List.mem_map.2 ⟨x, List.mem_filter.2 ⟨hx', way_up hd hc hx hw hR h2⟩, rfl⟩)
  have hlines : (fileLines n p (selDoc w os ord q d).tags).map (·.1) = (fileLines n p d.tags).map (·.1) := by
    unfold fileLines
    rw [f1, f1', f2, f2']
    exact (wayLines_same n (rs := fun i => rows (·.ways) i (relsIn p d)) (rs' := fun i => rows (·.ways) i (relsIn p (selDoc w os ord q d))) hws
      (fun y _ => way_lists _ _) (fun y _ => way_lists _ _) (fun y hy => hrows.1 _ (hkept y hy)) ⟨[], [], []⟩ ⟨[], [], []⟩
      (fun k q h => by cases h) (fun k q h => by cases h) rfl rfl).symm
  obtain ⟨p1, hp1⟩ : ∃ p1, p1 = filePar n p d.tags := ⟨_, rfl⟩
  obtain ⟨p2, hp2⟩ : ∃ p2, p2 = filePar n p (selDoc w os ord q d).tags := ⟨_, rfl⟩
  rw [← hp1, ← hp2]
  have lns : ∀ e e' : GEdge, ESim (fun i => (wids os ord q d).contains i) e e' → p2.lines e'.way = p1.lines e.way := by
    intro e e' h
    rw [hp1, hp2]
    show ((((fileLines n p (selDoc w os ord q d).tags).map (·.1)).getD []).lookup e'.way.id).getD [] =
      ((((fileLines n p d.tags).map (·.1)).getD []).lookup e.way.id).getD []
    rw [hlines, h.way.id]
  have trk : ∀ e e' : GEdge, ESim (fun i => (wids os ord q d).contains i) e e' → p2.track e'.way = p1.track e.way := by
    intro e e' h
    rw [hp1, hp2]
    show (Attrs.wayTrack n (fileRels p (selDoc w os ord q d).tags) e'.way).getD none = (Attrs.wayTrack n (fileRels p d.tags) e.way).getD none
    unfold Attrs.wayTrack
    rw [f1, f1', h.way.id, firstMatch_congr _ n.edges fun s => getAttr_same s (way_lists (relsIn p d) e.way.id) (way_lists (relsIn p (selDoc w os ord q d)) e.way.id)
      (hrows.1 _ h.way.kept) h.way.attrs]
  have inf : ∀ a b : Nod P, NSim a b → (nids os ord q d).contains a.id = true → p2.info b = p1.info a := by
    intro a b h hN
    rw [hp1, hp2]
    show (Attrs.getStatInfo n b.id b.attrs (fileRels p (selDoc w os ord q d).tags).nodeRels (fileRels p (selDoc w os ord q d).tags).rels).getD none =
      (Attrs.getStatInfo n a.id a.attrs (fileRels p d.tags).nodeRels (fileRels p d.tags).rels).getD none
    rw [f1, f1', h.id, statInfo_same n (node_lists (relsIn p d) a.id) (node_lists (relsIn p (selDoc w os ord q d)) a.id) (hrows.2 _ hN) h.attrs]
  -- the map
  have r1 : readMap p1 d.tags = (nodesIn p d ((waysIn p d).foldl (addWay (noTurn p d) (inArea p d)) GSt.init)).foldl (nodeStep p1)
      ((waysIn p d).foldl (addWay (noTurn p d) (inArea p d)) GSt.init, NState.init Nat Info) := by
    have := readMap_eq p1 d hd
    dsimp only at this
    rw [ru d hn1] at this
    rw [this, hp1]
    rfl
  have r2 : readMap p2 (selDoc w os ord q d).tags = (nodesIn p (selDoc w os ord q d) ((waysIn p (selDoc w os ord q d)).foldl
      (addWay (noTurn p (selDoc w os ord q d)) (inArea p (selDoc w os ord q d))) GSt.init)).foldl (nodeStep p2)
      ((waysIn p (selDoc w os ord q d)).foldl (addWay (noTurn p (selDoc w os ord q d)) (inArea p (selDoc w os ord q d))) GSt.init, NState.init Nat Info) := by
    have := readMap_eq p2 _ hd'
    dsimp only at this
    rw [ru _ hn2] at this
    rw [this, hp2]
    rfl
  have hb : ∀ y ∈ waysIn p d, ∀ i ∈ y.nodes, noTurn p (selDoc w os ord q d) i = noTurn p d i ∧ inArea p (selDoc w os ord q d) i = inArea p d i :=
    fun y hy i hi => (areas_use hd hc hw.configs hx hL (huse y hy i hi)).symm
  have g0 : GSim (P := P) (fun i => (wids os ord q d).contains i) GSt.init GSt.init := ⟨rfl, rfl, rfl, rfl, rfl, .nil⟩
  have u0 : Uses (P := P) (inArea p d) (· ∈ uses os ord q d) GSt.init := ⟨(fun i n h => by cases h), (fun i n h => by cases h)⟩
  obtain ⟨gs, us⟩ := addWays_sim hws huse hb GSt.init GSt.init g0 u0
  generalize (waysIn p d).foldl (addWay (noTurn p d) (inArea p d)) GSt.init = s at *
  generalize (waysIn p (selDoc w os ord q d)).foldl (addWay (noTurn p (selDoc w os ord q d)) (inArea p (selDoc w os ord q d))) GSt.init = s' at *
  have hns := nodes_match hd hc hx hw hL hR us gs.nodes gs.multi
  have o1 : p1.o = p.o := by rw [hp1]; rfl
  have o2 : p2.o = p1.o := by rw [hp1, hp2]; rfl
  obtain ⟨m1, m2⟩ := nodes_sim (p := p1) (p' := p2) (by rw [o1]; exact hc.own) o2
    (hns.mono fun a b h => ⟨h.1, inf a b h.1 h.2⟩) (c := (s, NState.init Nat Info)) (c' := (s', NState.init Nat Info)) gs rfl
  rw [← r1, ← r2] at m1 m2
  -- turns
  have t1 : turns p1 d.tags = (waysIn p d).foldl (turnWay ((relsIn p d).foldl (readRestr p.o) Rests.init) (fun _ g => (g.src, g.dst))
      (noTurn p d) (inArea p d)) TSt.init := by
    rw [turns_eq p1 d hd hn1, hp1]; rfl
  have t2 : turns p2 (selDoc w os ord q d).tags = (waysIn p (selDoc w os ord q d)).foldl (turnWay ((relsIn p (selDoc w os ord q d)).foldl (readRestr p.o)
      Rests.init) (fun _ g => (g.src, g.dst)) (noTurn p (selDoc w os ord q d)) (inArea p (selDoc w os ord q d))) TSt.init := by
    rw [turns_eq p2 _ hd' hn2, hp2]; rfl
  have outW : ∀ y : Way, y ∈ (sel os ord q d).ways ↔ ∃ x ∈ d.ways.filter (wq os ord q d), y = readWay (os.flatMap keptWay) x := by
    intro y
    rw [hs]
    simp only [List.mem_map]
    exact ⟨fun ⟨x, h1, h2⟩ => ⟨x, h1, h2.symm⟩, fun ⟨x, h1, h2⟩ => ⟨x, h1, h2.symm⟩⟩
  have outU : ∀ i, (∃ y ∈ (sel os ord q d).ways, i ∈ y.nodes) ↔ i ∈ uses os ord q d := by
    intro i
    constructor
    · rintro ⟨y, hy, hi⟩
      obtain ⟨x, hx', rfl⟩ := (outW y).1 hy
      exact List.mem_flatMap.2 ⟨x, hx', hi⟩
    · intro h
      obtain ⟨x, hx', hi⟩ := List.mem_flatMap.1 h
      exact ⟨_, (outW _).2 ⟨x, hx', rfl⟩, hi⟩
  have hq := cut_rests hc.own (OnMap p d (sel os ord q d)) (fun v hv => List.contains_iff_mem.2 (List.mem_append.2 (.inl ((outU v).1 hv.1)))) hcut (by
    intro r hr h1 h2
    obtain ⟨x, hx', e1, e2, h3⟩ := restricts hc hr
    rw [e2] at h2
    obtain ⟨a, b⟩ := hi x hx' (h3 h1) h2
    rw [e1, e2]
    refine ⟨fun m hm hf => ?_, fun m hm hf => ?_⟩
    · obtain ⟨y, hy, he⟩ := a m hm hf
      obtain ⟨z, hz, rfl⟩ := (outW y).1 hy
      exact List.contains_iff_mem.2 (List.mem_map.2 ⟨z, hz, he⟩)
    · refine List.contains_iff_mem.2 (List.mem_append.2 ?_)
      rcases b m hm hf with h | ⟨y, hy, he⟩
      · exact .inl ((outU _).1 h)
      · rw [hs] at hy
        obtain ⟨z, hz, rfl⟩ := List.mem_map.1 hy
        exact .inr (List.mem_map.2 ⟨z, hz, he⟩)) Rests.init Rests.init (fun _ _ => ⟨rfl, rfl⟩)
  have ts := turnWays_sim hws huse hb (fun i hi h => hq i ⟨(outU i).2 hi, h.symm⟩) TSt.init TSt.init ⟨g0, rfl, rfl⟩ u0
  rw [← t1, ← t2] at ts
  -- the graph
  have es : (readMap p2 (selDoc w os ord q d).tags).1.edges.foldl (readEdge p2) [] = (readMap p1 d.tags).1.edges.foldl (readEdge p1) [] :=
    readEdge_sim (by rw [o1]; exact hc.own) o2 (m1.edges.mono fun a b h => ⟨h, lns a b h⟩) []
  have et := tracks_sim (m1.edges.mono fun a b h => ⟨h, trk a b h⟩)
  have hraw : raw p2 (selDoc w os ord q d).tags = raw p1 d.tags := by
    unfold raw
    dsimp only
    rw [es, et, ts.flags, ts.ops, m2, m1.next, m1.geom]
    rw [hp1, hp2]
    rfl
  unfold build
  dsimp only
  rw [hraw, m1.orphans]
  rw [hp1, hp2]
  rfl

end

end Verif.Extract
