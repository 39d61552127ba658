import Verif.Ids.Lemmas
import Verif.Extract.Props

/-!
# C94: the id sets of the first pass

The sets of nodes in the area and of nodes without turns are kept in files, behind a filter that may be wrong about ids it was never told about.
-/

set_option linter.unusedSectionVars false

namespace Verif.Ids
open Verif.Names (Str)
open Verif.Osm Verif.Whole
open Verif.OsmIdSet (Params observe)
open Verif.Extract (Pen extract Configs Exact Lossless Clear Complete Intact)
open Verif.Attrs (filePar Naming Info)

variable {P S T D : Type}

/-- C94: a set answers as if it had not been asked before. -/
theorem C94_asked (H : Params) (hB : 0 < H.B) (hS : 0 < H.S) (bbox : P → Bool) (nohup : Str → Str → Bool) (d : Doc P) (hd : d.Ok) (hf : Fits d) (ops : List BoxOp)
    (ho : ops = (bboxGo bbox nohup (skipUntil .node d.tags) false 0).1) (asked : List Nat) (i : Nat) :
    boxSet H asked ops i = boxSet H [] ops i ∧ hupSet H asked ops i = hupSet H [] ops i := by
  rw [pass_eq bbox nohup hd] at ho
  subst ho
  unfold boxSet hupSet
  rw [answer_asked hB hS (box_plain _) asked (fun i h => add_fits hf _ _ i (call_add.1 h)),
    answer_asked hB hS (hup_plain _) asked (fun i h => hup_fits hf _ _ i (call_hup.1 h))]
  exact ⟨rfl, rfl⟩

/-- C94: what the sets answer after the first pass over a file. A node in the area is never missed; for a node of the file, or if all nodes are in the
area, the answer is right; the set of nodes without turns is always right. -/
theorem C94_answers (H : Params) (hB : 0 < H.B) (hS : 0 < H.S) (bbox : P → Bool) (nohup : Str → Str → Bool) (d : Doc P) (hd : d.Ok) (hf : Fits d)
    (ops : List BoxOp) (ho : ops = (bboxGo bbox nohup (skipUntil .node d.tags) false 0).1) (asked : List Nat) (i : Nat) :
    ((∃ n ∈ d.nodes, n.id = i ∧ bbox n.pos = true) → boxSet H asked ops i = true) ∧
    (((∃ n ∈ d.nodes, n.id = i) ∨ AllIn bbox d) → (boxSet H asked ops i = true ↔ ∃ n ∈ d.nodes, n.id = i ∧ bbox n.pos = true)) ∧
    (hupSet H asked ops i = true ↔ ∃ n ∈ d.nodes, n.id = i ∧ Tagged nohup n) := by
  rw [pass_eq bbox nohup hd] at ho
  subst ho
  have key : ((∃ n ∈ d.nodes, n.id = i) ∨ AllIn bbox d) →
      (boxSet H asked (passReport bbox nohup d.nodes) i = true ↔ ∃ n ∈ d.nodes, n.id = i ∧ bbox n.pos = true) := by
    intro h
    rw [boxSet_exact hB hS asked (add_fits hf _ _), decide_eq_true_iff, Extract.add_mem]
    rcases h with ⟨n, hn, rfl⟩ | h
    · exact (seen_node bbox nohup hn).imp id .inl
    · exact .inr (.inr (all_in h _))
  refine ⟨fun h => ?_, key, ?_⟩
  · obtain ⟨n, hn, e, hb⟩ := h
    exact (key (.inl ⟨n, hn, e⟩)).2 ⟨n, hn, e, hb⟩
  · show hupSet H asked (passReport bbox nohup d.nodes) i = true ↔ _
    rw [hupSet_exact hB hS asked (hup_fits hf _ _), decide_eq_true_iff, Extract.hup_mem]
    constructor
    · rintro ⟨n, hn, e, k, v, hv, h⟩
      exact ⟨n, hn, e, _, Extract.kidVals_iff.1 hv, rfl, k, v, rfl, h⟩
    · rintro ⟨n, hn, e, ⟨l, t⟩, he, hl, k, v, ht, h⟩
      simp only at hl ht
      subst hl ht
      exact ⟨n, hn, e, k, v, Extract.kidVals_iff.2 he, h⟩

/-- C94: whatever the sets are wrong about, the graph is one for the nodes in the area and ids that no node of the file has. -/
theorem C94_besides (H : Params) (hB : 0 < H.B) (hS : 0 < H.S) (n : Naming) (p : Par P Info Str D) (d : Doc P) (hd : d.Ok) (hf : Fits d) :
    ∃ extra : Nat → Bool, (∀ i, extra i = true → ∀ x ∈ d.nodes, x.id ≠ i) ∧
      build (filePar n (withSets H p) d.tags) d.tags = build (filePar n (besides extra p) d.tags) d.tags := by
  refine ⟨fun i => boxSet H [] (passReport p.bbox (fNohup p.o) d.nodes) i && !d.nodes.any (fun x => x.id == i), fun i hi x hx e => ?_, ?_⟩
  · simp only [Bool.and_eq_true, Bool.not_eq_true', List.any_eq_false, beq_iff_eq] at hi
    exact hi.2 x hx e
  · obtain ⟨extra, he⟩ : ∃ extra : Nat → Bool, extra = fun i => boxSet H [] (passReport p.bbox (fNohup p.o) d.nodes) i && !d.nodes.any (fun x => x.id == i) := ⟨_, rfl⟩
    rw [← he]
    have ha : ∀ i, inArea (withSets H p) d i = inArea (besides extra p) d i := by
      intro i
      show boxSet H [] (passReport p.bbox (fNohup p.o) d.nodes) i = (decide (BoxOp.add i ∈ passReport p.bbox (fNohup p.o) d.nodes) || extra i)
      rw [he]
      dsimp only
      rcases Bool.eq_false_or_eq_true (d.nodes.any (fun x => x.id == i)) with h | h
      · rw [h, Bool.not_true, Bool.and_false, Bool.or_false]
        obtain ⟨x, hx, e⟩ := List.any_eq_true.1 h
        exact area_exact hB hS hf (.inl ⟨x, hx, beq_iff_eq.1 e⟩)
      · rw [h, Bool.not_false, Bool.and_true, decide_eq_false, Bool.false_or]
        intro hm
        obtain ⟨x, hx, e, _⟩ := (Extract.add_mem _ _ _ _).1 hm
        exact List.any_eq_false.1 h x hx (beq_iff_eq.2 e)
    exact (graph_agree n (withSets H p) (besides extra p).box (besides extra p).hup hd
      ⟨fun x _ => ha x.id, fun _ _ i _ => turn_exact hB hS hf i, fun _ _ i _ => ha i⟩).symm

/-- C94: with a file whose ways refer to its nodes only, or that lies in the area, the graph is the one for sets that are exact. -/
theorem C94_graph_partial (H : Params) (hB : 0 < H.B) (hS : 0 < H.S) (n : Naming) (p : Par P Info Str D) (d : Doc P) (hd : d.Ok) (hf : Fits d)
    (hc : Closed d ∨ AllIn p.bbox d) : build (filePar n (withSets H p) d.tags) d.tags = build (filePar n (exactly p) d.tags) d.tags :=
  (graph_agree n (withSets H p) (exactly p).box (exactly p).hup hd (alike_exact hB hS hf hc)).symm

/-- C94: and the filtered file is the one for a set that is exact. -/
theorem C94_filter_partial (H : Params) (hB : 0 < H.B) (hS : 0 < H.S) (w : Pen P) (p0 : P) (os : List Opts) (ord : Osm.Attrs → Osm.Attrs) (bbox : P → Bool)
    (d : Doc P) (hd : d.Ok) (hf : Fits d) (hc : Closed d ∨ AllIn bbox d) :
    extract w p0 os ord (boxSet H []) bbox d.tags = extract w p0 os ord (fun ops i => decide (BoxOp.add i ∈ ops)) bbox d.tags := by
  unfold extract
  rw [filter_exact hB hS hf _ _ _ _ _ _ hd hc]

theorem exactly_exact (p : Par P S T D) : Exact (exactly p) := ⟨fun _ _ => decide_eq_true_iff, fun _ _ => decide_eq_true_iff⟩

theorem exactly_configs {os : List Opts} {ord : Osm.Attrs → Osm.Attrs} {p : Par P S T D} (hc : Configs os ord p) (bbox : P → Bool) :
    Configs os ord { exactly p with bbox := bbox } := by
  obtain ⟨a1, a2, a3, a4, a5, a6, a7, a8, a9, a10, a11, a12⟩ := hc
  exact ⟨a1, a2, a3, a4, a5, a6, a7, a8, a9, a10, a11, a12⟩

/-- The ways that are written refer to nodes that are written. -/
theorem written_closed (w : Pen P) (os : List Opts) (ord : Osm.Attrs → Osm.Attrs) (q : Par P S T D) {d : Doc P} (hd : d.Ok) (hc : Closed d) :
    Closed (Extract.selDoc w os ord q d) := by
  intro y hy e he i ht
  simp only [Extract.selDoc, List.mem_map] at hy
  obtain ⟨y', ⟨x, hx, rfl⟩, rfl⟩ := hy
  have hi : i ∈ kidRefs x.kids := by
    rcases List.mem_append.1 he with he | he
    · obtain ⟨j, hj, rfl⟩ := List.mem_map.1 he
      cases ht
      exact hj
    · obtain ⟨kv, _, rfl⟩ := List.mem_map.1 he
      cases ht
  obtain ⟨n, hn, rfl⟩ := refs_in hc (List.mem_filter.1 hx).1 hi
  refine ⟨_, List.mem_map.2 ⟨_, List.mem_map.2 ⟨n, List.mem_filter.2 ⟨hn, ?_⟩, rfl⟩, rfl⟩, rfl⟩
  have hu : (Extract.uses os ord q d).contains (readNod (os.flatMap keptNode) n).id = true :=
    List.contains_iff_mem.2 (List.mem_flatMap.2 ⟨x, hx, hi⟩)
  unfold Extract.nq keepNode
  have hz : ((readNod (os.flatMap keptNode) n).id != 0) = true := bne_iff_ne.2 (hd.nodes.nz _ (List.mem_map.2 ⟨n, hn, rfl⟩))
  dsimp only
  rw [hu, hz]
  simp

/-- C94: routing on a filtered file is routing on the file (C81, C93), with the sets of the program for both filtering and reading. The area `wide` for
which the file is filtered includes the area that is read; `o` is what is written. -/
theorem C94_filtered_partial (H : Params) (hB : 0 < H.B) (hS : 0 < H.S) (n : Naming) (w : Pen P) (os : List Opts) (ord : Osm.Attrs → Osm.Attrs)
    (p : Par P Info Str D) (d : Doc P) (hd : d.Ok) (hf : Fits d) (hk : Closed d ∨ AllIn p.bbox d) (hc : Configs os ord p) (hL : Lossless w d) (hR : Clear os d)
    (wide : P → Bool) (hw : ∀ x, p.bbox x = true → wide x = true) (o : Out P)
    (ho : o = filterWrite p.p0 ⟨mergeAll os, [], ord⟩ (os.flatMap keptNode) (os.flatMap keptWay) (os.flatMap keptRel) (boxSet H []) wide d.tags)
    (hl : Complete os d o) (hi : Intact (exactly p) d o) (file : List (Ev P)) (hfile : file = extract w p.p0 os ord (boxSet H []) wide d.tags) :
    build (filePar n (withSets H p) file) file = build (filePar n (withSets H p) d.tags) d.tags := by
  have hk' : Closed d ∨ AllIn wide d := hk.imp id fun h x hx => hw _ (h x hx)
  rw [filter_exact hB hS hf _ _ _ _ _ _ hd hk'] at ho
  rw [C94_filter_partial H hB hS w p.p0 os ord wide d hd hf hk'] at hfile
  obtain ⟨q, hq⟩ : ∃ q : Par P Info Str D, q = { exactly p with bbox := wide } := ⟨_, rfl⟩
  have hcq : Configs os ord q := by rw [hq]; exact exactly_configs hc wide
  have hxq : Exact q := by rw [hq]; exact ⟨(exactly_exact p).box, (exactly_exact p).hup⟩
  have hwd : Extract.Wider os ord (exactly p) q := ⟨hcq, hxq, by rw [hq]; exact hw⟩
  have eo : o = Extract.sel os ord q d := by rw [ho, hq]; rfl
  have ef : file = extract w q.p0 os ord q.box q.bbox d.tags := by rw [hfile, hq]; rfl
  rw [eo] at hl hi
  have hg := Extract.same_graph n hd (exactly_configs hc p.bbox) (exactly_exact p) hwd hL hR hl hi
  rw [← ef] at hg
  have es : file = (Extract.selDoc w os ord q d).tags := by rw [ef]; exact Extract.extract_eq hcq hd hl
  have hs := Extract.sel_eq hcq hd hl
  have hne : d.ways.filter (Extract.wq os ord q d) ≠ [] := by
    intro e
    refine hl.any ?_
    rw [hs, e]
    rfl
  have hok : (Extract.selDoc w os ord q d).Ok := Extract.written_ok hd hcq hxq hne
  have mem : ∀ y ∈ (Extract.selDoc w os ord q d).nodes, ∃ x ∈ d.nodes, y.id = x.id ∧ y.pos = w.pos x.pos := by
    intro y hy
    simp only [Extract.selDoc, List.mem_map] at hy
    obtain ⟨y', ⟨x, hx, rfl⟩, rfl⟩ := hy
    exact ⟨x, (List.mem_filter.1 hx).1, rfl, rfl⟩
  have hfit : Fits (Extract.selDoc w os ord q d) := by
    intro y hy
    obtain ⟨x, hx, e, _⟩ := mem y hy
    rw [e]
    exact hf x hx
  have hcl : Closed (Extract.selDoc w os ord q d) ∨ AllIn p.bbox (Extract.selDoc w os ord q d) := by
    refine hk.imp (written_closed w os ord q hd) fun h y hy => ?_
    obtain ⟨x, hx, _, e⟩ := mem y hy
    rw [e, hL.pos x hx]
    exact h x hx
  have h1 := C94_graph_partial H hB hS n p _ hok hfit hcl
  rw [← es] at h1
  rw [h1, C94_graph_partial H hB hS n p d hd hf hk]
  exact hg

/-! ### examples -/

open Verif.Attrs (exNaming exNPar exNOpts)
open Verif.Extract (exPen exXD exXD_ok exOther exX_configs exX_lossless exX_clear exXD_complete exXD_intact exSel)

/-- A filter that cannot tell two even ids apart. -/
def exH : Params := ⟨2, 2, 1000, fun x => x % 2, fun _ => 2⟩

/-- Only a part of the file is in the area. -/
def exP : Par Nat Info Str Int := { exNPar with bbox := fun x => decide (x < 5) }

/-- What can be seen of a graph: the edges, the ways they are on, and their positions. -/
def exView (p : Par Nat Info Str Int) (file : List (Ev Nat)) : List (Nat × Nat) × List Nat :=
  let g := build (filePar exNaming p file) file
  (g.es.map fun e => (e.src, e.dst), (List.range 4).map g.pos)

theorem exXD_closed : Closed exXD := by
  unfold Closed
  intro x hx e he i ht
  have hi : i ∈ [1, 3, 4, 5, 6, 7, 8] := by
    simp only [exXD, Extract.exX, Extract.exXWays, Extract.exLast, List.mem_append, List.mem_cons, List.not_mem_nil, or_false] at hx
    rcases hx with (rfl | rfl | rfl | rfl) | rfl <;> simp only [List.mem_cons, List.not_mem_nil, or_false] at he
    all_goals
      rcases he with rfl | rfl | rfl | rfl | rfl
      all_goals first | (cases ht; simp) | cases ht
  simp only [List.mem_cons, List.not_mem_nil, or_false] at hi
  rcases hi with rfl | rfl | rfl | rfl | rfl | rfl | rfl <;> simp [exXD, Extract.exX]

theorem exXD_fits : Fits exXD := by
  unfold Fits
  simp [exXD, Extract.exX]

theorem exP_configs : Configs [exOther, exNOpts] id exP := by
  obtain ⟨a1, a2, a3, a4, a5, a6, a7, a8, a9, a10, a11, a12⟩ := exX_configs
  exact ⟨a1, a2, a3, a4, a5, a6, a7, a8, a9, a10, a11, a12⟩

/-- What is written is what is written with a set that is exact, and is all of the two configurations. -/
theorem exSets_sel : filterWrite exP.p0 ⟨mergeAll [exOther, exNOpts], [], id⟩ ([exOther, exNOpts].flatMap keptNode) ([exOther, exNOpts].flatMap keptWay)
    ([exOther, exNOpts].flatMap keptRel) (boxSet exH []) exNPar.bbox exXD.tags = exSel exXD := by
  rw [filter_exact (by decide) (by decide) exXD_fits _ _ _ _ _ _ exXD_ok (.inl exXD_closed)]
  have e : (fun (ops : List BoxOp) (i : Nat) => decide (BoxOp.add i ∈ ops)) = exNPar.box := by
    funext ops i
    rw [Bool.eq_iff_iff, decide_eq_true_iff]
    exact (Extract.exX_exact.box ops i).symm
  rw [e]
  rfl

theorem exP_intact : Intact (exactly exP) exXD (exSel exXD) := by
  intro x hx hr ⟨m, hm, hv, hon⟩
  refine exXD_intact x hx ⟨hr.wanted, hr.type, hr.kind, hr.noEx⟩ ⟨m, hm, hv, hon.1, hon.2.imp (fun h => ?_) fun h => ?_⟩
  · obtain ⟨y, hy, e, hb⟩ := (Extract.area_iff (exactly_exact exP) _ _).1 h
    refine (Extract.area_iff Extract.exX_exact _ _).2 ⟨y, hy, e, ?_⟩
    have : y.pos < 5 := of_decide_eq_true hb
    show decide (y.pos < 10) = true
    exact decide_eq_true (by omega)
  · exact (Extract.turn_iff Extract.exX_exact _ _).2 ((Extract.turn_iff (exactly_exact exP) _ _).1 h)

/-- C94 is not vacuous: three nodes are outside of the area that is read, the file is filtered for a larger one, and there are a turn restriction, a
station and lines. -/
example : 0 < exH.B ∧ 0 < exH.S ∧ exXD.Ok ∧ Fits exXD ∧ Closed exXD ∧ ¬ AllIn exP.bbox exXD ∧ Configs [exOther, exNOpts] id exP ∧
    Lossless exPen exXD ∧ Clear [exOther, exNOpts] exXD ∧ (∀ x, exP.bbox x = true → exNPar.bbox x = true) ∧ Complete [exOther, exNOpts] exXD (exSel exXD) ∧
    Intact (exactly exP) exXD (exSel exXD) ∧
    exView (withSets exH exP) exXD.tags = ([(0, 1), (1, 2), (1, 3), (1, 0), (2, 1), (3, 1), (2, 2)], [1, 2, 3, 4]) ∧
    (List.range 10).filter (boxSet exH [3, 9] (boxReport exP.bbox exXD.nodes)) = [1, 3, 4, 5] := by
  refine ⟨by decide, by decide, exXD_ok, exXD_fits, exXD_closed, ?_, exP_configs, exX_lossless _ _, exX_clear _, ?_, exXD_complete, exP_intact,
    by decide +kernel, by decide +kernel⟩
  · intro h
    have := h ⟨8, 7, []⟩ (by simp [exXD, Extract.exX])
    revert this
    decide
  · intro x hx
    have : x < 5 := of_decide_eq_true hx
    show decide (x < 10) = true
    exact decide_eq_true (by omega)

/-- The way 8 refers to the node 20, which is not in the file, as it is often the case at the border of an extract. -/
def exCut : Doc Nat where
  header := [⟨0, .other⟩, ⟨1, .other⟩]
  nodes := [⟨10, 1, []⟩, ⟨11, 9, []⟩, ⟨30, 2, []⟩]
  ways := [⟨7, [⟨3, .nd 10⟩, ⟨3, .nd 30⟩, ⟨3, .tag kHw vHw⟩]⟩, ⟨8, [⟨3, .nd 30⟩, ⟨3, .nd 20⟩, ⟨3, .tag kHw vHw⟩]⟩,
    ⟨9, [⟨3, .nd 11⟩, ⟨3, .nd 20⟩, ⟨3, .tag kHw vHw⟩]⟩]
  rels := []

theorem exCut_ok : exCut.Ok :=
  ⟨⟨_, _, rfl, by simp [isNode]⟩, by simp [exCut], ⟨by simp [exCut], by simp [exCut], by simp [exCut]⟩, ⟨by simp [exCut], by simp [exCut], by simp [exCut]⟩,
    ⟨by simp [exCut], by simp [exCut], by simp [exCut]⟩, by simp [exCut, Plain, isNode, isWay, isRel], by simp [exCut]⟩

/-- Ways have to refer to nodes of the file: otherwise the graph may lead to a node that does not exist, at the default position. -/
theorem C94_negation_missing : exCut.Ok ∧ Fits exCut ∧ (∀ x ∈ exCut.nodes, x.id ≠ 20) ∧
    exView (exactly exP) exCut.tags = ([(0, 1), (1, 0)], [1, 2, 0, 0]) ∧
    exView (withSets exH exP) exCut.tags = ([(2, 0), (0, 2)], [1, 2, 0, 0]) ∧
    build (filePar exNaming (withSets exH exP) exCut.tags) exCut.tags ≠ build (filePar exNaming (exactly exP) exCut.tags) exCut.tags := by
  refine ⟨exCut_ok, by unfold Fits; simp [exCut], by simp [exCut], by decide +kernel, by decide +kernel, fun h => ?_⟩
  have : exView (withSets exH exP) exCut.tags = exView (exactly exP) exCut.tags := by
    unfold exView
    rw [h]
  revert this
  decide +kernel

/-- The ways that are written. -/
def exOut (box : List BoxOp → Nat → Bool) : List Nat :=
  (filterWrite 0 ⟨mergeAll [exNOpts], [], id⟩ (keptNode exNOpts) (keptWay exNOpts) (keptRel exNOpts) box exP.bbox exCut.tags).ways.map (·.id)

/-- And a way of which no node is in the area may be written to a filtered file. -/
theorem C94_negation_filter : exCut.Ok ∧ Fits exCut ∧ exOut (fun ops i => decide (BoxOp.add i ∈ ops)) = [7, 8] ∧ exOut (boxSet exH []) = [7, 8, 9] :=
  ⟨exCut_ok, by unfold Fits; simp [exCut], by decide +kernel, by decide +kernel⟩

end Verif.Ids
