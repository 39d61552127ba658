import Verif.Region.Lemmas
import Verif.Fetch.Props

/-!
# C93: a filtered file serves all that lies in its area

A file may be filtered (`-X`) for several feeds and modes, or without any feed for the area of its `bounds` tag, and then be read for one feed and mode,
in a smaller area. The graph is the one made from the whole file.
-/

namespace Verif.Region
open Verif.Names (Str)
open Verif.Osm Verif.Whole
open Verif.BBoxIdx (Pt Box InBox InHull treeHas IsHull)
open Verif.Extract (Pen extract Configs Exact Lossless Clear Complete Intact)
open Verif.Attrs (filePar Naming Info)

variable {D : Type}

theorem wider {os : List Osm.Opts} {ord : Osm.Attrs → Osm.Attrs} {p : Par Pt Info Str D} (hc : Configs os ord p) (hx : Exact p) (bbox : Pt → Bool)
    (h : ∀ q, p.bbox q = true → bbox q = true) : Extract.Wider os ord p { p with bbox := bbox } := by
  refine ⟨?_, ⟨hx.box, hx.hup⟩, h⟩
  obtain ⟨a1, a2, a3, a4, a5, a6, a7, a8, a9, a10, a11, a12⟩ := hc
  exact ⟨a1, a2, a3, a4, a5, a6, a7, a8, a9, a10, a11, a12⟩

/-- C93: the boxes may be others than those of the area that is read, if its nodes lie in their area. Conditions on the file as in C81; `o` is what is
written. -/
theorem C93_boxes_partial (n : Naming) (w : Pen Pt) (os : List Osm.Opts) (ord : Osm.Attrs → Osm.Attrs) (p : Par Pt Info Str D) (d : Doc Pt) (hd : d.Ok)
    (hc : Configs os ord p) (hx : Exact p) (hL : Lossless w d) (hR : Clear os d) (area : Box → Option Box → Int) (pad : Box → Box) (boxes : List Box)
    (hne : boxes ≠ []) (hsub : ∀ q, p.bbox q = true → treeHas q (BBoxIdx.build area boxes) = true) (hdr file : List XEv) (hf : IsFile d hdr file) (o : Out Pt)
    (ho : o = filterWrite p.p0 ⟨mergeAll os, [], ord⟩ (os.flatMap keptNode) (os.flatMap keptWay) (os.flatMap keptRel) p.box
      (fun q => treeHas q (BBoxIdx.build area boxes)) d.tags)
    (hl : Complete os d o) (hi : Intact p d o) :
    ∃ out, write w p.p0 os ord p.box area pad boxes file = .ok out ∧
      build (filePar n p (out.map XEv.seen)) (out.map XEv.seen) = build (filePar n p d.tags) d.tags := by
  have hr : region pad boxes file = .ok (boxes, file) := by
    unfold region
    rw [if_neg (fun h => hne (List.length_eq_zero_iff.1 h))]
  obtain ⟨out, h1, h2⟩ := write_seen w p.p0 os ord p.box area pad boxes boxes file file hr
  refine ⟨out, h1, ?_⟩
  rw [h2, file_seen hf]
  subst ho
  exact Extract.same_graph (q := { p with bbox := fun q => treeHas q (BBoxIdx.build area boxes) }) n hd hc hx (wider hc hx _ hsub) hL hR hl hi

/-- C93: without boxes the area is the padded box of the `bounds` tag. -/
theorem C93_bounds_partial (n : Naming) (w : Pen Pt) (os : List Osm.Opts) (ord : Osm.Attrs → Osm.Attrs) (p : Par Pt Info Str D) (d : Doc Pt) (hd : d.Ok)
    (hc : Configs os ord p) (hx : Exact p) (hL : Lossless w d) (hR : Clear os d) (area : Box → Option Box → Int) (pad : Box → Box)
    (hdr file : List XEv) (hf : IsFile d hdr file) (c : Box) (hb : HasBounds hdr c) (hsub : ∀ q, p.bbox q = true → InBox q (pad c))
    (bbox : Pt → Bool) (hbb : ∀ q, bbox q = true ↔ InBox q (pad c)) (o : Out Pt)
    (ho : o = filterWrite p.p0 ⟨mergeAll os, [], ord⟩ (os.flatMap keptNode) (os.flatMap keptWay) (os.flatMap keptRel) p.box bbox d.tags)
    (hl : Complete os d o) (hi : Intact p d o) :
    ∃ out, write w p.p0 os ord p.box area pad [] file = .ok out ∧
      build (filePar n p (out.map XEv.seen)) (out.map XEv.seen) = build (filePar n p d.tags) d.tags := by
  obtain ⟨h0, pre, l, post, hh, hp⟩ := hb
  obtain ⟨rest, hs, hskip⟩ := bounds_rest hd hf hh hp
  have hr : region pad [] file = .ok ([pad c], .bounds l ⟨some c.y1, some c.x1, some c.y2, some c.x2⟩ :: rest) := by
    unfold region
    rw [if_pos List.length_nil, hs]
    dsimp only
    rw [boundsBox_ok.2 rfl]
  obtain ⟨out, h1, h2⟩ := write_seen w p.p0 os ord p.box area pad [] _ file _ hr
  refine ⟨out, h1, ?_⟩
  have e : bbox = fun q => treeHas q (BBoxIdx.build area [pad c]) := by
    funext q
    rw [Bool.eq_iff_iff, hbb, area_one]
  rw [h2, extract_skip _ _ _ _ _ _ hskip]
  subst ho
  subst e
  exact Extract.same_graph (q := { p with bbox := fun q => treeHas q (BBoxIdx.build area [pad c]) }) n hd hc hx
    (wider hc hx _ fun q h => (area_one area (pad c) q).2 (hsub q h)) hL hR hl hi

/-- C93: when the area of some boxes lies in the area of others: these are added first, or have no area in common, or all lie in one of the others. -/
theorem C93_areas (area : Box → Option Box → Int) (boxes : List Box) (q : Pt) (h : treeHas q (BBoxIdx.build area boxes) = true) :
    (∀ more, treeHas q (BBoxIdx.build area (boxes ++ more)) = true) ∧
    (Apart area boxes → ∀ others, (∀ b ∈ boxes, b ∈ others) → treeHas q (BBoxIdx.build area others) = true) ∧
    (∀ others c, c ∈ others → Within boxes c → treeHas q (BBoxIdx.build area others) = true) ∧ ∀ c, Within boxes c → InBox q c := by
  refine ⟨fun more => area_grows area boxes more q h, fun ha others hs => ?_, fun others c hc hw => ?_, fun c hw => area_within hw h⟩
  · obtain ⟨b, hb, hin⟩ := (area_apart ha q).1 h
    exact BBoxIdx.C21_covers area others b (hs b hb) q hin
  · exact BBoxIdx.C21_covers area others c hc q (area_within hw h)

/-- C93: nothing is written if and only if there are no boxes and no complete `bounds` tag. -/
theorem C93_fails (w : Pen Pt) (p0 : Pt) (os : List Osm.Opts) (ord : Osm.Attrs → Osm.Attrs) (box : List BoxOp → Nat → Bool) (area : Box → Option Box → Int)
    (pad : Box → Box) (boxes : List Box) (file : List XEv) :
    (∃ e, write w p0 os ord box area pad boxes file = .error e) ↔ boxes = [] ∧ Unbounded file := by
  have key : (∃ e, write w p0 os ord box area pad boxes file = .error e) ↔ ∃ e, region pad boxes file = .error e := by
    unfold write
    cases region pad boxes file with
    | error e => simp
    | ok r => simp
  rw [key]
  unfold region
  by_cases hb : boxes = []
  · subst hb
    rw [if_pos List.length_nil]
    simp only [true_and]
    cases hs : skipBounds file with
    | nil =>
      simp only [Except.error.injEq, exists_eq', true_iff]
      intro h0 pre l b post hf hp
      rw [hf, skipBounds_eq h0 pre l b post hp] at hs
      cases hs
    | cons x post =>
      cases x with
      | ev e => exact (skipBounds_head hs).elim
      | bounds l b =>
        dsimp only
        obtain ⟨h0, pre, hf, hp⟩ := skipBounds_some hs
        have : (∃ e, (match boundsBox b with | .error e => Except.error e | .ok c => Except.ok ([pad c], XEv.bounds l b :: post)) =
            (.error e : Except Err (List Box × List XEv))) ↔ ∃ e, boundsBox b = .error e := by
          cases boundsBox b <;> simp
        refine this.trans (boundsBox_err.trans ?_)
        constructor
        · intro h h0' pre' l' b' post' hf' hp'
          have e := hs
          rw [hf', skipBounds_eq h0' pre' l' b' post' hp'] at e
          cases e
          exact h
        · intro h
          exact h h0 pre l b post hf hp
  · rw [if_neg (fun h => hb (List.length_eq_zero_iff.1 h))]
    simp [hb]

/-- C93: the `bounds` tag of the written file is the smallest box around the boxes, with corners as they are written; it is the first tag behind `osm`. -/
theorem C93_written (w : Pen Pt) (p0 : Pt) (os : List Osm.Opts) (ord : Osm.Attrs → Osm.Attrs) (box : List BoxOp → Nat → Bool) (area : Box → Option Box → Int)
    (pad : Box → Box) (boxes : List Box) (hne : boxes ≠ []) (file out : List XEv) (h : write w p0 os ord box area pad boxes file = .ok out) :
    ∃ c, IsHull c boxes ∧ ∃ x y rest, out = x :: y :: .bounds 2 ⟨some (w.pos ⟨c.x1, c.y1⟩).y, some (w.pos ⟨c.x1, c.y1⟩).x, some (w.pos ⟨c.x2, c.y2⟩).y,
      some (w.pos ⟨c.x2, c.y2⟩).x⟩ :: rest ∧ (∀ k b, x ≠ .bounds k b) ∧ (∀ k b, y ≠ .bounds k b) := by
  have hr : region pad boxes file = .ok (boxes, file) := by
    unfold region
    rw [if_neg (fun h => hne (List.length_eq_zero_iff.1 h))]
  unfold write at h
  rw [hr] at h
  dsimp only at h
  have hb := BBoxIdx.C21_full_box area boxes
  cases hbox : (BBoxIdx.build area boxes).box with
  | none => rw [hbox] at hb; exact absurd hb hne
  | some c =>
    rw [hbox] at hb h
    refine ⟨c, hb, ?_⟩
    cases h
    exact ⟨_, _, _, rfl, (by intro k b h; cases h), (by intro k b h; cases h)⟩

/-- C93: filtering a written file again, without boxes, does not make its area smaller: all that was in the area of the boxes is in the area of the
`bounds` tag. -/
theorem C93_again (w : Pen Pt) (hw : ∀ x, w.pos x = x) (p0 : Pt) (os : List Osm.Opts) (ord : Osm.Attrs → Osm.Attrs) (box : List BoxOp → Nat → Bool)
    (area : Box → Option Box → Int) (pad : Box → Box) (hpad : ∀ q b, InBox q b → InBox q (pad b)) (boxes : List Box) (hne : boxes ≠ []) (file out : List XEv)
    (h : write w p0 os ord box area pad boxes file = .ok out) :
    ∃ bs rest, region pad [] out = .ok (bs, rest) ∧ ∀ q, treeHas q (BBoxIdx.build area boxes) = true → treeHas q (BBoxIdx.build area bs) = true := by
  obtain ⟨c, hc, x, y, rest, rfl, hx, hy⟩ := C93_written w p0 os ord box area pad boxes hne file out h
  simp only [hw]
  have hs := skipBounds_eq x [y] 2 ⟨some c.y1, some c.x1, some c.y2, some c.x2⟩ rest (by
    intro e he k b
    rw [List.mem_singleton.1 he]
    exact hy k b)
  refine ⟨[pad c], .bounds 2 ⟨some c.y1, some c.x1, some c.y2, some c.x2⟩ :: rest, ?_, fun q hq => (area_one _ _ _).2 (hpad q c (area_within hc.1 hq))⟩
  unfold region
  rw [if_pos List.length_nil, show skipBounds (x :: y :: XEv.bounds 2 ⟨some c.y1, some c.x1, some c.y2, some c.x2⟩ :: rest) = _ from hs]
  dsimp only
  rw [boundsBox_ok.2 rfl]

/-! ### examples -/

open Verif.Fetch (exQ exQPar exQOpts exQ_flagged exQ_look exQ_exact exQ_wf exLook)
open Verif.Extract (exOther)

/-- As in C82, with a `bounds` tag and a last way that is not wanted. -/
def exR : Doc Pt :=
  { exQ with header := [⟨0, .other⟩, ⟨1, .other⟩, ⟨2, .other⟩], ways := exQ.ways ++ [⟨80, [⟨3, .nd 8⟩, ⟨3, .nd 9⟩]⟩] }

def exHdr : List XEv := [.ev ⟨0, .other⟩, .ev ⟨1, .other⟩, .bounds 2 ⟨some 0, some 0, some 4, some 20⟩]

def exRFile : List XEv := exHdr ++ (exR.tags.drop 3).map .ev

theorem exR_file : IsFile exR exHdr exRFile := ⟨rfl, _, rfl, rfl⟩

theorem exR_bounds : HasBounds exHdr ⟨0, 0, 20, 4⟩ := ⟨_, [.ev ⟨1, .other⟩], 2, [], rfl, (by intro e he k b h; rw [List.mem_singleton.1 he] at h; cases h)⟩

theorem exR_ok : exR.Ok := by
  refine ⟨⟨_, _, rfl, by simp [isNode]⟩, by simp [exR, exQ], ⟨by simp [exR, exQ], by simp [exR, exQ], by simp [exR, exQ]⟩,
    ⟨by simp [exR, exQ], by simp [exR, exQ], by simp [exR, exQ]⟩, ⟨by simp [exR, exQ], by simp [exR, exQ], by simp [exR, exQ]⟩, ?_, ?_⟩ <;>
    simp [exR, exQ, Plain, isNode, isWay, isRel]

def exOs : List Osm.Opts := [exOther, exQOpts 1]

theorem exR_one {o : Osm.Opts} (ho : o ∈ exOs) {k v : Str} {f : Nat} (h : look o.keep k v = some f) : f = 1 := Fetch.exQ_one ho h

theorem exR_configs (boxes : List Box) : Configs exOs id (exQPar (exQOpts 1) boxes) := by
  constructor
  case mem => simp [exOs, exQPar]
  case wf =>
    intro o ho
    simp only [exOs, List.mem_cons, List.not_mem_nil, or_false] at ho
    rcases ho with rfl | rfl <;> exact exQ_wf _ _ _
  case flagged =>
    intro o ho k vals h r hr
    simp only [exOs, List.mem_cons, List.not_mem_nil, or_false] at ho
    have h := FMap.mem_of_get h
    rcases ho with rfl | rfl
    · simp [exOther] at h
      rw [h.2] at hr
      simp at hr
      simp [hr]
    · simp [exQOpts] at h
      rw [h.2] at hr
      simp at hr
      simp [hr]
  case agree => intro o ho o' ho' k v f f' h h'; rw [exR_one ho h, exR_one ho' h']
  case own => exact exQ_flagged 1 rfl
  case keep => rfl
  case drop => rfl
  case keysN => rfl
  case keysW => rfl
  case keysR => rfl
  case order => exact fun _ _ => Iff.rfl
  case order' => exact fun _ _ => Iff.rfl

theorem exR_clear : Clear exOs exR := by
  intro x _ f f' h h'
  obtain ⟨o, ho, k, v, _, hl, _⟩ := h
  obtain ⟨o', ho', k', v', _, hl', _⟩ := h'
  rw [exR_one ho hl, exR_one ho' hl']

def exInk : Pen Pt := ⟨id, id, id, id, List.reverse⟩

theorem exR_lossless : Lossless exInk exR := by
  refine ⟨fun a => List.reverse_perm a, fun _ _ => rfl, fun _ _ _ _ => ⟨fun _ _ _ => ⟨rfl, rfl⟩, fun _ _ _ _ => rfl⟩,
    fun _ _ _ _ => ⟨fun _ _ _ => ⟨rfl, rfl⟩, fun _ _ _ _ => rfl⟩, fun _ _ _ _ => ⟨fun _ _ _ => ⟨rfl, rfl⟩, fun _ _ _ _ => rfl⟩, ?_⟩
  intro x hx k
  simp only [exR, exQ, List.mem_cons, List.not_mem_nil, or_false] at hx
  rcases hx with rfl | rfl | rfl | rfl | rfl | rfl | rfl | rfl | rfl
  all_goals try exact Nat.zero_le _
  · simp only [kidVals, List.filterMap_cons, List.filterMap_nil]
    by_cases h1 : kSt = k
    · have : ¬ Attrs.kNm = k := by subst h1; decide
      simp [h1, this]
    · by_cases h2 : Attrs.kNm = k <;> simp [h1, h2]
  · simp only [kidVals, List.filterMap_cons, List.filterMap_nil]
    by_cases h1 : kSt = k
    · have : ¬ [99] = k := by subst h1; decide
      simp [h1, this]
    · by_cases h2 : [99] = k <;> simp [h1, h2]
  · simp only [kidVals, List.filterMap_cons, List.filterMap_nil]
    by_cases h1 : kSt = k <;> simp [h1]

/-- What is written in an area. -/
def exROut (bbox : Pt → Bool) : Out Pt :=
  filterWrite ⟨0, 0⟩ ⟨mergeAll exOs, [], id⟩ (exOs.flatMap keptNode) (exOs.flatMap keptWay) (exOs.flatMap keptRel) Whole.exPar.box bbox exR.tags

theorem exR_complete (bbox : Pt → Bool) (h : (exROut bbox).ways.map (·.id) = [10, 20, 30, 40, 70]) : Complete exOs exR (exROut bbox) := by
  refine ⟨(fun e => by rw [e] at h; cases h), .inl ⟨⟨80, [⟨3, .nd 8⟩, ⟨3, .nd 9⟩]⟩, by simp [exR, exQ], fun y hy e => ?_⟩⟩
  have : y.id ∈ (exROut bbox).ways.map (·.id) := List.mem_map.2 ⟨y, hy, rfl⟩
  rw [h, e] at this
  simp at this

theorem exR_complete' (bbox : Pt → Bool) (h : (exROut bbox).ways.map (·.id) = [10, 20, 30, 70]) : Complete exOs exR (exROut bbox) := by
  refine ⟨(fun e => by rw [e] at h; cases h), .inl ⟨⟨80, [⟨3, .nd 8⟩, ⟨3, .nd 9⟩]⟩, by simp [exR, exQ], fun y hy e => ?_⟩⟩
  have : y.id ∈ (exROut bbox).ways.map (·.id) := List.mem_map.2 ⟨y, hy, rfl⟩
  rw [h, e] at this
  simp at this

theorem exR_intact (p : Par Pt Info Str Int) (o : Out Pt) : Intact p exR o := by
  intro x hx hr _
  exfalso
  have ht := Extract.kidVals_iff.1 (List.mem_of_getLast? hr.type)
  simp only [exR, exQ, List.mem_cons, List.not_mem_nil, or_false] at hx
  rcases hx with rfl | rfl | rfl <;> simp at ht
  · rcases ht with ⟨h, _⟩ | ⟨h, _⟩ | ⟨h, _⟩ <;> revert h <;> decide
  · rcases ht with ⟨h, _⟩ | ⟨h, _⟩ <;> revert h <;> decide
  · revert ht; decide

/-- The box of one trip, and of a second one far away. -/
def exBs : List Box := [⟨0, 0, 4, 4⟩]
def exMore : List Box := [⟨20, 0, 22, 2⟩]

def exPad (b : Box) : Box := ⟨b.x1 - 1, b.y1 - 1, b.x2 + 1, b.y2 + 1⟩

theorem exR_sub (q : Pt) (h : (exQPar (exQOpts 1) exBs).bbox q = true) : treeHas q (BBoxIdx.build BBoxIdx.exArea (exBs ++ exMore)) = true :=
  (C93_areas BBoxIdx.exArea exBs q h).1 exMore

/-- C93 for boxes is not vacuous: the file is filtered for two trips, and read for the first one. -/
example : (∃ out, write exInk ⟨0, 0⟩ exOs id Whole.exPar.box BBoxIdx.exArea exPad (exBs ++ exMore) exRFile = .ok out ∧
    build (filePar Attrs.exNaming (exQPar (exQOpts 1) exBs) (out.map XEv.seen)) (out.map XEv.seen) =
      build (filePar Attrs.exNaming (exQPar (exQOpts 1) exBs) exR.tags) exR.tags) ∧
    (write exInk ⟨0, 0⟩ exOs id Whole.exPar.box BBoxIdx.exArea exPad (exBs ++ exMore) exRFile).toOption.map (·.length) = some 44 ∧ exRFile.length = 62 := by
  refine ⟨?_, by decide +kernel, by decide +kernel⟩
  exact C93_boxes_partial Attrs.exNaming exInk exOs id (exQPar (exQOpts 1) exBs) exR exR_ok (exR_configs exBs) (exQ_exact _ _) exR_lossless exR_clear
    BBoxIdx.exArea exPad (exBs ++ exMore) (by decide) exR_sub exHdr exRFile exR_file _ rfl (exR_complete _ (by decide +kernel)) (exR_intact _ _)

/-- C93 for the `bounds` tag is not vacuous. -/
example : ∃ out, write exInk ⟨0, 0⟩ exOs id Whole.exPar.box BBoxIdx.exArea exPad [] exRFile = .ok out ∧
    build (filePar Attrs.exNaming (exQPar (exQOpts 1) exBs) (out.map XEv.seen)) (out.map XEv.seen) =
      build (filePar Attrs.exNaming (exQPar (exQOpts 1) exBs) exR.tags) exR.tags := by
  refine C93_bounds_partial Attrs.exNaming exInk exOs id (exQPar (exQOpts 1) exBs) exR exR_ok (exR_configs exBs) (exQ_exact _ _) exR_lossless exR_clear
    BBoxIdx.exArea exPad exHdr exRFile exR_file ⟨0, 0, 20, 4⟩ exR_bounds ?_
    (fun q => decide (-1 ≤ q.x ∧ q.x ≤ 21 ∧ -1 ≤ q.y ∧ q.y ≤ 5)) (fun q => by simp [InBox, exPad]) _ rfl (exR_complete _ (by decide +kernel)) (exR_intact _ _)
  intro q h
  exact (C93_areas BBoxIdx.exArea exBs q h).2.2.2 (exPad ⟨0, 0, 20, 4⟩) (by simp [Within, exBs, exPad])

/-- C93 for areas is not vacuous. -/
example : treeHas ⟨4, 4⟩ (BBoxIdx.build BBoxIdx.exArea exBs) = true ∧ Apart BBoxIdx.exArea (exBs ++ exMore) ∧ Within exBs ⟨0, 0, 9, 9⟩ :=
  ⟨by decide, by unfold Apart; decide, by simp [Within, exBs]⟩

/-- Files without a `bounds` tag, or with one that lacks a corner. -/
example : Unbounded [.ev ⟨0, .other⟩, .ev ⟨1, .other⟩] ∧ Unbounded [.ev ⟨0, .other⟩, .bounds 2 ⟨some 0, none, some 1, some 1⟩] ∧ ¬ Unbounded exRFile ∧
    write exInk ⟨0, 0⟩ exOs id Whole.exPar.box BBoxIdx.exArea exPad [] [.ev ⟨0, .other⟩, .bounds 2 ⟨some 0, none, some 1, some 1⟩] =
      .error (.noAttr "minlon") := by
  have key : ∀ file, (∃ e, write exInk ⟨0, 0⟩ exOs id Whole.exPar.box BBoxIdx.exArea exPad [] file = .error e) → Unbounded file :=
    fun file h => ((C93_fails exInk ⟨0, 0⟩ exOs id Whole.exPar.box BBoxIdx.exArea exPad [] file).1 h).2
  refine ⟨key _ ⟨.noBounds, rfl⟩, key _ ⟨.noAttr "minlon", rfl⟩, fun h => ?_, rfl⟩
  have := h (.ev ⟨0, .other⟩) [.ev ⟨1, .other⟩] 2 ⟨some 0, some 0, some 4, some 20⟩ _ rfl (by intro e he k b h; rw [List.mem_singleton.1 he] at h; cases h)
  simp at this

/-! ### what does not hold -/

/-- Boxes of two trips, and of a third one between them. -/
def exMid : List Box := [⟨0, 0, 4, 4⟩, ⟨3, 3, 10, 10⟩]
def exBig : List Box := [⟨0, 0, 4, 4⟩, ⟨4, 4, 10, 10⟩, ⟨3, 3, 10, 10⟩]

/-- What is written for the boxes. -/
def exWrite (boxes : List Box) : List (Ev Pt) :=
  ((write exInk ⟨0, 0⟩ exOs id Whole.exPar.box BBoxIdx.exArea exPad boxes exRFile).toOption.getD []).map XEv.seen

/-- Negation: more trips may make the area smaller, as each box is joined to only one other. The filtered file lacks a street that the same trips have
without filtering, although the file was filtered for all of them. The other conditions of C93 hold. -/
theorem C93_negation_more : exMid.Sublist exBig ∧ exR.Ok ∧ Configs exOs id (exQPar (exQOpts 1) exMid) ∧ Exact (exQPar (exQOpts 1) exMid) ∧
    Lossless exInk exR ∧ Clear exOs exR ∧
    Complete exOs exR (exROut fun q => treeHas q (BBoxIdx.build BBoxIdx.exArea exBig)) ∧
    Intact (exQPar (exQOpts 1) exMid) exR (exROut fun q => treeHas q (BBoxIdx.build BBoxIdx.exArea exBig)) ∧
    (exQPar (exQOpts 1) exMid).bbox ⟨0, 8⟩ = true ∧ treeHas ⟨0, 8⟩ (BBoxIdx.build BBoxIdx.exArea exBig) = false ∧
    ((0, 8), (1, 8), [], some none) ∈ exLook (exQPar (exQOpts 1) exMid) exR.tags ∧
    ((0, 8), (1, 8), [], some none) ∉ exLook (exQPar (exQOpts 1) exMid) (exWrite exBig) ∧
    ((0, 8), (1, 8), [], some none) ∈ exLook (exQPar (exQOpts 1) exMid) (exWrite exMid) := by
  refine ⟨by decide, exR_ok, exR_configs _, exQ_exact _ _, exR_lossless, exR_clear, exR_complete' _ (by decide +kernel), exR_intact _ _, by decide, by decide,
    by decide +kernel, by decide +kernel, by decide +kernel⟩

/-- Negation: filtering again without boxes is not the same as before: the box is padded again, the area grows. -/
theorem C93_negation_again : ∃ out bs rest, write exInk ⟨0, 0⟩ exOs id Whole.exPar.box BBoxIdx.exArea exPad exBs exRFile = .ok out ∧
    region exPad [] out = .ok (bs, rest) ∧ treeHas ⟨5, 5⟩ (BBoxIdx.build BBoxIdx.exArea bs) = true ∧
    treeHas ⟨5, 5⟩ (BBoxIdx.build BBoxIdx.exArea exBs) = false :=
  ⟨_, _, _, rfl, rfl, by decide, by decide⟩

end Verif.Region
