import Verif.Extract.Main

/-!
# C81: routing on the filtered file is routing on the file

The program can filter a file for all its configurations (`--write-osm`) and be run on the result. For each of the configurations, the graph that is
built from the filtered file is the graph that is built from the file itself: nodes, edges, positions, stations, lines and turn rules.
-/

set_option linter.unusedSectionVars false
set_option linter.unusedSimpArgs false

namespace Verif.Extract
open Verif.Names (Str)
open Verif.Osm Verif.Whole
open Verif.Attrs (filePar Naming Info exNaming exNPar exNOpts exLine exNDoc kPl kNm kRef exN_flagged)
open Verif.Turns (exRel kTurn vNo)

variable {P D : Type}

/-- C81: the same graph, if the file survives being written, turn restrictions are written as a whole, and the configurations do not contradict each
other. -/
theorem C81_same_graph_partial (n : Naming) (w : Pen P) (os : List Osm.Opts) (ord : Osm.Attrs → Osm.Attrs) (p : Par P Info Str D) (d : Doc P) (hd : d.Ok)
    (hc : Configs os ord p) (hx : Exact p) (hL : Lossless w d) (hR : Clear os d) (o : Out P)
    (ho : o = filterWrite p.p0 ⟨mergeAll os, [], ord⟩ (os.flatMap keptNode) (os.flatMap keptWay) (os.flatMap keptRel) p.box p.bbox d.tags)
    (hl : Complete os d o) (hi : Intact p d o) (file : List (Ev P)) (hf : file = extract w p.p0 os ord p.box p.bbox d.tags) :
    build (filePar n p file) file = build (filePar n p d.tags) d.tags := by
  subst ho hf
  exact same_graph n hd hc hx ⟨hc, hx, fun _ h => h⟩ hL hR hl hi

/-! ### example -/

def kRail : Str := [77]

/-- A second configuration. -/
def exOther : Osm.Opts := { Turns.exRules with keep := [(kRail, [(vHw, 1)])] }

/-- Nothing is lost when writing. -/
def exPen : Pen Nat := ⟨id, id, id, id, List.reverse⟩

def exXWays : List (DElem Nat) :=
  [⟨10, [⟨3, .nd 1⟩, ⟨3, .nd 3⟩, ⟨3, .tag kHw vHw⟩, ⟨3, .tag kPl [49]⟩, ⟨3, .tag [99] [98]⟩]⟩, ⟨20, [⟨3, .nd 3⟩, ⟨3, .nd 4⟩, ⟨3, .tag kHw vHw⟩]⟩,
    ⟨30, [⟨3, .nd 3⟩, ⟨3, .nd 5⟩, ⟨3, .tag kHw vHw⟩]⟩, ⟨40, [⟨3, .nd 6⟩, ⟨3, .nd 7⟩, ⟨3, .tag kRail vHw⟩]⟩]

/-- Ways of both configurations, a way of none, a turn restriction, relations that name a node and lines. -/
def exX (ways rels : List (DElem Nat)) : Doc Nat where
  header := [⟨0, .other⟩, ⟨1, .other⟩]
  nodes := [⟨1, 1, []⟩, ⟨3, 2, [⟨3, .tag kSt vYes⟩, ⟨3, .tag kNm [65, 0]⟩]⟩, ⟨4, 3, [⟨3, .tag kSt vYes⟩, ⟨3, .tag kPl [52]⟩, ⟨3, .tag [99] [98]⟩]⟩,
    ⟨5, 4, []⟩, ⟨6, 5, []⟩, ⟨7, 6, []⟩, ⟨8, 7, []⟩]
  ways := ways
  rels := rels

def exLast : DElem Nat := ⟨50, [⟨3, .nd 7⟩, ⟨3, .nd 8⟩]⟩

def exXD : Doc Nat := exX (exXWays ++ [exLast]) [exLine 1 [66] [55], exRel 2 10 30 vNo, exLine 3 [67] [56]]

theorem exX_ok (ways rels : List (DElem Nat)) (h' : Proper (ways.map (·.id)) (ways.map (·.kids))) (hp' : ∀ r ∈ ways, Plain r.kids)
    (h : Proper (rels.map (·.id)) (rels.map (·.kids))) (hp : ∀ r ∈ rels, Plain r.kids) : (exX ways rels).Ok :=
  ⟨⟨_, _, rfl, by simp [isNode]⟩, by simp [exX], ⟨by simp [exX], by simp [exX], by simp [exX]⟩, h', h, hp', hp⟩

theorem exXD_ok : exXD.Ok :=
  exX_ok _ _ ⟨by simp [exXWays, exLast], by simp [exXWays, exLast], by simp [exXWays, exLast]⟩ (by simp [exXWays, exLast, Plain, isNode, isWay, isRel])
    ⟨by simp [exLine, exRel], by simp [exLine, exRel], by simp [exLine, exRel]⟩ (by simp [Plain, exLine, exRel, isNode, isWay, isRel])

theorem exX_configs : Configs [exOther, exNOpts] id exNPar := by
  have wf1 : WFR exOther.keep := by
    refine ⟨by unfold FMap.WF; decide, fun k vals h => ?_⟩
    have := FMap.mem_of_get h
    simp [exOther] at this
    rw [this.2]; unfold FMap.WF; decide
  have wf2 : WFR exNOpts.keep := by
    refine ⟨by unfold FMap.WF; decide, fun k vals h => ?_⟩
    have := FMap.mem_of_get h
    simp [exNOpts, Turns.exKeep] at this
    rcases this with ⟨_, rfl⟩ | ⟨_, rfl⟩ <;> unfold FMap.WF <;> decide
  have fl1 : Flagged exOther.keep := by
    intro k vals h r hr
    have := FMap.mem_of_get h
    simp [exOther] at this
    rw [this.2] at hr
    simp at hr
    simp [hr]
  constructor
  case mem => simp [exNPar]
  case wf => simp [wf1, wf2]
  case flagged =>
    intro o ho
    simp only [List.mem_cons, List.not_mem_nil, or_false] at ho
    rcases ho with rfl | rfl
    · exact fl1
    · exact Turns.exKeep_ok.keep
  case agree =>
    have one : ∀ o ∈ [exOther, exNOpts], ∀ k v f, look o.keep k v = some f → f = 1 := by
      intro o ho k v f h
      unfold look at h
      rw [Option.bind_eq_some_iff] at h
      obtain ⟨vals, h1, h2⟩ := h
      have h1 := FMap.mem_of_get h1
      have h2 := FMap.mem_of_get h2
      simp only [List.mem_cons, List.not_mem_nil, or_false] at ho
      rcases ho with rfl | rfl
      · simp [exOther] at h1
        rw [h1.2] at h2
        simp at h2
        exact h2.2
      · simp [exNOpts, Turns.exKeep] at h1
        rcases h1 with ⟨_, rfl⟩ | ⟨_, rfl⟩ <;> simp at h2 <;> exact h2.2
    intro o ho o' ho' k v f f' h h'
    rw [one o ho k v f h, one o' ho' k v f' h']
  case own => exact exN_flagged
  case keep => rfl
  case drop => rfl
  case keysN => rfl
  case keysW => rfl
  case keysR => rfl
  case order => intro a x; rfl
  case order' => intro a x; rfl

theorem exX_exact : Exact exNPar :=
  ⟨fun _ _ => List.contains_iff_mem, fun _ _ => List.contains_iff_mem⟩

theorem reasons_one {x : DElem Nat} {f : Nat} (h : Reason [exOther, exNOpts] x f) : f = 1 := by
  obtain ⟨o, ho, k, v, _, hl, _⟩ := h
  unfold look at hl
  rw [Option.bind_eq_some_iff] at hl
  obtain ⟨vals, h1, h2⟩ := hl
  have h1 := FMap.mem_of_get h1
  have h2 := FMap.mem_of_get h2
  simp only [List.mem_cons, List.not_mem_nil, or_false] at ho
  rcases ho with rfl | rfl
  · simp [exOther] at h1
    rw [h1.2] at h2
    simp at h2
    exact h2.2
  · simp [exNOpts, Turns.exKeep] at h1
    rcases h1 with ⟨_, rfl⟩ | ⟨_, rfl⟩ <;> simp at h2 <;> exact h2.2

theorem exX_clear (d : Doc Nat) : Clear [exOther, exNOpts] d := by
  intro x _ f f' h h'
  rw [reasons_one h, reasons_one h']

theorem exPen_clean (kids : List (Ev Nat)) : Clean exPen kids := fun _ _ => ⟨fun _ _ _ => ⟨rfl, rfl⟩, fun _ _ _ _ => rfl⟩

theorem exX_lossless (ways rels : List (DElem Nat)) : Lossless exPen (exX ways rels) := by
  refine ⟨fun a => List.reverse_perm a, fun _ _ => rfl, fun _ _ => exPen_clean _, fun _ _ => exPen_clean _, fun _ _ => exPen_clean _, ?_⟩
  intro x hx k
  simp only [exX, List.mem_cons, List.not_mem_nil, or_false] at hx
  rcases hx with rfl | rfl | rfl | rfl | rfl | rfl | rfl
  all_goals try exact Nat.zero_le _
  · simp only [kidVals, List.filterMap_cons, List.filterMap_nil]
    by_cases h1 : kSt = k
    · have : ¬ kNm = k := by subst h1; decide
      simp [h1, this]
    · by_cases h2 : kNm = k <;> simp [h1, h2]
  · simp only [kidVals, List.filterMap_cons, List.filterMap_nil]
    by_cases h1 : kSt = k
    · have h2 : ¬ kPl = k := by subst h1; decide
      have h3 : ¬ [99] = k := by subst h1; decide
      simp [h1, h2, h3]
    · by_cases h2 : kPl = k
      · have h3 : ¬ [99] = k := by subst h2; decide
        simp [h1, h2, h3]
      · by_cases h3 : [99] = k <;> simp [h1, h2, h3]

/-- What is written. -/
def exSel (d : Doc Nat) : Out Nat := sel [exOther, exNOpts] id exNPar d

def exFile (w : Pen Nat) (d : Doc Nat) : List (Ev Nat) := extract w 0 [exOther, exNOpts] id exNPar.box exNPar.bbox d.tags

/-- What can be seen of a graph. -/
def exSee (file : List (Ev Nat)) : List (Nat × Nat × List Nat) × List (Option (Option Info)) × List Nat :=
  let g := build (filePar exNaming exNPar file) file
  (g.es.map fun e => (e.src, e.dst, e.lines), (List.range 4).map g.pl.getSI, (List.range 4).map g.pos)

theorem exXD_ways : (exSel exXD).ways.map (fun y => (y.id, y.nodes)) = [(10, [1, 3]), (20, [3, 4]), (30, [3, 5]), (40, [6, 7])] := by decide +kernel

theorem exXD_complete : Complete [exOther, exNOpts] exXD (exSel exXD) := by
  refine ⟨by decide +kernel, .inl ⟨exLast, by simp [exXD, exX], fun y hy e => ?_⟩⟩
  have : (y.id, y.nodes) ∈ (exSel exXD).ways.map (fun y => (y.id, y.nodes)) := List.mem_map.2 ⟨y, hy, rfl⟩
  rw [exXD_ways, e] at this
  simp [exLast] at this

theorem has_tag {kids : List (Ev Nat)} {k v : Str} (h : Attrs.Has kids k v) : ⟨3, .tag k v⟩ ∈ kids := kidVals_iff.1 (List.mem_of_getLast? h)

theorem exXD_intact : Intact exNPar exXD (exSel exXD) := by
  have way : ∀ i l, (i, l) ∈ [(10, [1, 3]), (20, [3, 4]), (30, [3, 5]), (40, [6, 7])] → ∃ y ∈ (exSel exXD).ways, y.id = i ∧ y.nodes = l := by
    intro i l h
    rw [← exXD_ways] at h
    obtain ⟨y, hy, e⟩ := List.mem_map.1 h
    simp only [Prod.mk.injEq] at e
    exact ⟨y, hy, e⟩
  intro x hx hr _
  simp only [exXD, exX, List.mem_cons, List.not_mem_nil, or_false] at hx
  have no : ∀ i a b, x = exLine i a b → False := by
    rintro i a b rfl
    have := has_tag hr.type
    simp [exLine] at this
    rcases this with ⟨h, _⟩ | ⟨h, _⟩ | ⟨h, _⟩ | ⟨h, _⟩ <;> revert h <;> decide
  rcases hx with rfl | rfl | rfl
  · exact (no _ _ _ rfl).elim
  · refine ⟨?_, ?_⟩
    · intro m hm _
      simp [kidMembers, exRel] at hm
      rcases hm with rfl | rfl
      · obtain ⟨y, hy, e, _⟩ := way 10 [1, 3] (by simp)
        exact ⟨y, hy, e⟩
      · obtain ⟨y, hy, e, _⟩ := way 30 [3, 5] (by simp)
        exact ⟨y, hy, e⟩
    · intro m hm _
      simp [kidMembers, exRel] at hm
      subst hm
      obtain ⟨y, hy, _, e⟩ := way 10 [1, 3] (by simp)
      exact .inl ⟨y, hy, by rw [e]; simp⟩
  · exact (no _ _ _ rfl).elim

/-- C81 is not vacuous: two configurations, a way of none of them, tags that are not written, a turn restriction, a station named by relations. -/
example : exXD.Ok ∧ Configs [exOther, exNOpts] id exNPar ∧ Exact exNPar ∧ Lossless exPen exXD ∧ Clear [exOther, exNOpts] exXD ∧
    Complete [exOther, exNOpts] exXD (exSel exXD) ∧ Intact exNPar exXD (exSel exXD) ∧ (exFile exPen exXD).length = 50 ∧ exXD.tags.length = 55 ∧
    exSee (exFile exPen exXD) = ([(0, 1, [0, 1]), (1, 2, []), (1, 3, []), (1, 0, [0, 1]), (2, 1, []), (3, 1, []), (2, 2, [])],
      [some none, some (some ⟨[65], [], [49]⟩), some (some ⟨[66], [], [52]⟩), some none], [1, 2, 3, 4]) ∧
    (build (filePar exNaming exNPar (exFile exPen exXD)) (exFile exPen exXD)).res.may (0, 1) (1, 3) 1 = false :=
  ⟨exXD_ok, exX_configs, exX_exact, exX_lossless _ _, exX_clear _, exXD_complete, exXD_intact, by decide +kernel, by decide +kernel,
    by decide +kernel, by decide +kernel⟩

/-! ### why the hypotheses are needed -/

/-- A pen with too few digits. -/
def exCoarse : Pen Nat := ⟨fun x => x / 2 * 2, id, id, id, id⟩

/-- Positions that are written with too few digits move the nodes. All other hypotheses hold: they are those of the example. -/
theorem C81_negation_digits :
    (exSee exXD.tags).2.2 = [1, 2, 3, 4] ∧ (exSee (exFile exCoarse exXD)).2.2 = [0, 2, 2, 4] ∧ (exSee (exFile exPen exXD)).2.2 = [1, 2, 3, 4] := by
  refine ⟨?_, ?_, ?_⟩ <;> decide +kernel

/-- As the example, without the last way. -/
def exFirst : Doc Nat := exX exXWays [exLine 1 [66] [55], exRel 2 10 30 vNo, exLine 3 [67] [56]]

theorem exFirst_ok : exFirst.Ok :=
  exX_ok _ _ ⟨by simp [exXWays], by simp [exXWays], by simp [exXWays]⟩ (by simp [exXWays, Plain, isNode, isWay, isRel])
    ⟨by simp [exLine, exRel], by simp [exLine, exRel], by simp [exLine, exRel]⟩ (by simp [Plain, exLine, exRel, isNode, isWay, isRel])

/-- If the last way of the file is written, the first relation is not: its line and its name are lost. -/
theorem C81_negation_first : exFirst.Ok ∧ Configs [exOther, exNOpts] id exNPar ∧ Exact exNPar ∧ Lossless exPen exFirst ∧ Clear [exOther, exNOpts] exFirst ∧
    (exSel exFirst).ways.map (·.id) = [10, 20, 30, 40] ∧ (exSel exFirst).rels.map (·.id) = [2, 3] ∧
    exSee exFirst.tags = ([(0, 1, [0, 1]), (1, 2, []), (1, 3, []), (1, 0, [0, 1]), (2, 1, []), (3, 1, []), (2, 2, [])],
      [some none, some (some ⟨[65], [], [49]⟩), some (some ⟨[66], [], [52]⟩), some none], [1, 2, 3, 4]) ∧
    exSee (exFile exPen exFirst) = ([(0, 1, [0]), (1, 2, []), (1, 3, []), (1, 0, [0]), (2, 1, []), (3, 1, []), (2, 2, [])],
      [some none, some (some ⟨[65], [], [49]⟩), some (some ⟨[67], [], [52]⟩), some none], [1, 2, 3, 4]) := by
  refine ⟨exFirst_ok, exX_configs, exX_exact, exX_lossless _ _, exX_clear _, ?_, ?_, ?_, ?_⟩ <;> decide +kernel

/-- A turn restriction with two ways to come from. The way 60 is not in the file, as in a file that was cut out of a larger one. -/
def exCut : DElem Nat :=
  ⟨2, [⟨3, .member .way 10 sFrom⟩, ⟨3, .member .way 60 sFrom⟩, ⟨3, .member .node 3 sVia⟩, ⟨3, .member .way 30 sTo⟩,
    ⟨3, .tag sType Turns.sRestriction⟩, ⟨3, .tag kTurn vNo⟩]⟩

def exFrom : Doc Nat := exX (exXWays ++ [exLast]) [exCut]

theorem exFrom_ok : exFrom.Ok :=
  exX_ok _ _ ⟨by simp [exXWays, exLast], by simp [exXWays, exLast], by simp [exXWays, exLast]⟩ (by simp [exXWays, exLast, Plain, isNode, isWay, isRel])
    ⟨by simp [exCut], by simp [exCut], by simp [exCut]⟩ (by simp [Plain, exCut, isNode, isWay, isRel])

theorem exFrom_ways : (exSel exFrom).ways.map (·.id) = [10, 20, 30, 40] := by decide +kernel

/-- A restriction with two ways to come from has no effect. The written file has only one of them: a turn that was allowed is forbidden. -/
theorem C81_negation_from : exFrom.Ok ∧ Configs [exOther, exNOpts] id exNPar ∧ Exact exNPar ∧ Lossless exPen exFrom ∧ Clear [exOther, exNOpts] exFrom ∧
    Complete [exOther, exNOpts] exFrom (exSel exFrom) ∧
    (build (filePar exNaming exNPar exFrom.tags) exFrom.tags).res.may (0, 1) (1, 3) 1 = true ∧
    (build (filePar exNaming exNPar (exFile exPen exFrom)) (exFile exPen exFrom)).res.may (0, 1) (1, 3) 1 = false := by
  refine ⟨exFrom_ok, exX_configs, exX_exact, exX_lossless _ _, exX_clear _, ⟨by decide +kernel, .inl ⟨exLast, by simp [exFrom, exX], fun y hy e => ?_⟩⟩,
    by decide +kernel, by decide +kernel⟩
  have : y.id ∈ (exSel exFrom).ways.map (·.id) := List.mem_map.2 ⟨y, hy, rfl⟩
  rw [exFrom_ways, e] at this
  simp [exLast] at this

/-- A configuration that wants relations of a certain line, without their members. -/
def exBare : Osm.Opts := { Turns.exRules with keep := [(kRef, [([55], 1 + REL_NO_DOWN)])] }

/-- A relation that one configuration wants with its members and the other without. -/
def exFlat : Doc Nat := exX (exXWays ++ [exLast, ⟨60, [⟨3, .nd 7⟩, ⟨3, .nd 8⟩]⟩]) [⟨1, [⟨3, .member .way 50 []⟩, ⟨3, .tag kHw vHw⟩, ⟨3, .tag kRef [55]⟩]⟩]

theorem exFlat_ok : exFlat.Ok :=
  exX_ok _ _ ⟨by simp [exXWays, exLast], by simp [exXWays, exLast], by simp [exXWays, exLast]⟩ (by simp [exXWays, exLast, Plain, isNode, isWay, isRel])
    ⟨by simp, by simp, by simp⟩ (by simp [Plain, isNode, isWay, isRel])

/-- If two configurations do not agree whether the members of a relation are to be kept, the written file may lack what the one needs. -/
theorem C81_negation_flat (file file' : List (Ev Nat)) (h : file = extract exPen 0 [exBare, exNOpts] id exNPar.box exNPar.bbox exFlat.tags)
    (h' : file' = extract exPen 0 [exNOpts] id exNPar.box exNPar.bbox exFlat.tags) : exFlat.Ok ∧ Exact exNPar ∧ Lossless exPen exFlat ∧
    (∀ k v f f', look exBare.keep k v = some f → look exNOpts.keep k v = some f' → f = f') ∧
    (exSee exFlat.tags).1 = [(0, 1, []), (1, 2, []), (1, 3, []), (4, 5, [0]), (1, 0, []), (2, 1, []), (3, 1, []), (5, 4, [0])] ∧
    (exSee file').1 = (exSee exFlat.tags).1 ∧
    (exSee file).1 = [(0, 1, []), (1, 2, []), (1, 3, []), (1, 0, []), (2, 1, []), (3, 1, [])] := by
  subst h h'
  refine ⟨exFlat_ok, exX_exact, exX_lossless _ _, ?_, by decide +kernel, by decide +kernel, by decide +kernel⟩
  intro k v f f' h h'
  unfold look at h h'
  rw [Option.bind_eq_some_iff] at h h'
  obtain ⟨vals, h1, h2⟩ := h
  obtain ⟨vals', h1', h2'⟩ := h'
  have h1 := FMap.mem_of_get h1
  have h1' := FMap.mem_of_get h1'
  simp [exBare] at h1
  simp [exNOpts, Turns.exKeep] at h1'
  rw [h1.1] at h1'
  revert h1'
  rintro (⟨h, _⟩ | ⟨h, _⟩) <;> exact absurd h (by decide)

end Verif.Extract
