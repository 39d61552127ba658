import Verif.Fetch.Lemmas
import Verif.Extract.Props

/-!
# C82: queries for map data ask for all that is needed

The program can write a query for the Overpass API and rules for osmfilter, to get the part of a map that is needed for a feed. A graph that is built
from what the query or the rules deliver is the graph that is built from the whole map.
-/

set_option linter.unusedSectionVars false
set_option linter.unusedSimpArgs false
set_option synthInstance.maxSize 1024

namespace Verif.Fetch
open Verif.Names (Str)
open Verif.Osm Verif.Whole Verif.Extract
open Verif.Attrs (Has Met Wanted filePar Naming Info exNaming exNOpts kPl kNm kRef exN_flagged)
open Verif.BBoxIdx (Pt InBox Box treeHas leafs)

variable {P D : Type}

/-- C82: what is needed of a map. A part of a map with all ways that a rule or a relation may keep and that have a node in the area, their nodes, the
nodes in the area that a rule or a relation may keep, the relations of these nodes and ways, and the tags whose keys are kept, gives the graph of the
map. At least one way is needed: a file without ways loses its first relation (C31). -/
theorem C82_part (n : Naming) (p : Par P Info Str D) (d : Doc P) (hd : d.Ok) (hp : Reader p) (hx : Exact p) (header : List (Ev P))
    (hh : ∃ h0 hs, header = h0 :: hs ∧ ∀ e ∈ hs, isNode e.tag = false) (a : DNode P → Bool) (b c : DElem P → Bool) (s : Str → Bool)
    (he : Enough p d a b c s) (hn : ∃ x, NeedWay p d x) (file : List (Ev P)) (hf : file = (part d header a b c s).tags) :
    build (filePar n p file) file = build (filePar n p d.tags) d.tags := by
  obtain ⟨x, hn⟩ := hn
  subst hf
  exact part_graph n hd hp hx he hh hn

/-- C82 for Overpass: what the server delivers for the query gives the graph of the map, if the area that is read is within the area of the query
(PfaedleMain.cpp:218-224 takes all trips), no rule has a list of values, the configurations do not contradict each other, and writing the boxes with few
digits loses no node. -/
theorem C82_overpass_partial (n : Naming) (dig : Int → Int) (area : Box → Option Box → Int) (boxes : List Box) (os : List Osm.Opts) (p : Par Pt Info Str D)
    (d : Doc Pt) (hd : d.Ok) (hc : Chosen os p) (hp : Reader p) (hx : Exact p) (hl : NoLists os) (ha : Agree os) (hb : ∀ q, p.bbox q = true → treeHas q (BBoxIdx.build area boxes) = true)
    (hr : Rounds dig (leafs (BBoxIdx.build area boxes)) d) (header : List (Ev Pt))
    (hh : ∃ h0 hs, header = h0 :: hs ∧ ∀ e ∈ hs, isNode e.tag = false) (a : DNode Pt → Bool) (b c : DElem Pt → Bool)
    (hg : Delivers (Got (overpass dig os (BBoxIdx.build area boxes)) d) d a b c) (hn : ∃ x, NeedWay p d x) (file : List (Ev Pt))
    (hf : file = (part d header a b c fun _ => true).tags) :
    build (filePar n p file) file = build (filePar n p d.tags) d.tags :=
  C82_part n p d hd hp hx header hh a b c _ (got_enough hc hp hl ha hb hr hg) hn file hf

/-- C82 for osmfilter: what is kept by the rules gives the graph of the map, whatever area is read, if no rule has a list of values. -/
theorem C82_osmfilter_partial (n : Naming) (os : List Osm.Opts) (p : Par P Info Str D) (d : Doc P) (hd : d.Ok) (hc : Chosen os p) (hp : Reader p) (hx : Exact p)
    (hl : NoLists os) (header : List (Ev P)) (hh : ∃ h0 hs, header = h0 :: hs ∧ ∀ e ∈ hs, isNode e.tag = false) (a : DNode P → Bool) (b c : DElem P → Bool)
    (hg : Delivers (Left (osmfilter os).keep d) d a b c) (hn : ∃ x, NeedWay p d x) (file : List (Ev P))
    (hf : file = (part d header a b c fun k => decide (k ∈ (osmfilter os).tags)).tags) :
    build (filePar n p file) file = build (filePar n p d.tags) d.tags :=
  C82_part n p d hd hp hx header hh a b c _ (left_enough hc hp hl hg) hn file hf

/-! ### examples -/

def tagB (kids : List (Ev P)) (k : Str) (v : Option Str) : Bool :=
  match (kidVals k kids).getLast? with
  | none => false
  | some t => v.all (t == ·)

def atB (d : Doc Pt) (b : Box) (i : Nat) : Bool :=
  d.nodes.any fun x => x.id == i && decide (b.x1 ≤ x.pos.x ∧ x.pos.x ≤ b.x2 ∧ b.y1 ≤ x.pos.y ∧ x.pos.y ≤ b.y2)

def touchB (d : Doc Pt) (b : Box) (i : Nat) : Bool := d.ways.any fun x => x.id == i && (kidRefs x.kids).any (atB d b)

def memB (A B : Nat → Bool) (y : DElem P) : Bool := ((kidMembers .node y.kids).all fun m => A m.1) && (kidMembers .way y.kids).all fun m => B m.1

/-- The sets contain all that is delivered. -/
def closedB (qs : List Query) (d : Doc Pt) (A B C : Nat → Bool) : Bool :=
  qs.all (fun q =>
    (match q.kind with
    | .node => d.nodes.all fun x => !(tagB x.kids q.key q.val && atB d q.box x.id) || A x.id
    | .way => d.ways.all fun x => !(tagB x.kids q.key q.val && touchB d q.box x.id) || B x.id
    | .relation => d.rels.all fun y => !(tagB y.kids q.key q.val && ((kidMembers .node y.kids).any (fun m => atB d q.box m.1) ||
        (kidMembers .way y.kids).any (fun m => touchB d q.box m.1))) || C y.id)) &&
  (d.ways.all fun x => !B x.id || (kidRefs x.kids).all A) && d.rels.all fun y => !C y.id || memB A B y

def leftB (keep : List (Str × Option Str)) (d : Doc P) (A B C : Nat → Bool) : Bool :=
  keep.all (fun kv => (d.nodes.all fun x => !tagB x.kids kv.1 kv.2 || A x.id) && (d.ways.all fun x => !tagB x.kids kv.1 kv.2 || B x.id) &&
    d.rels.all fun y => !tagB y.kids kv.1 kv.2 || C y.id) &&
  (d.ways.all fun x => !B x.id || (kidRefs x.kids).all A) && d.rels.all fun y => !C y.id || memB A B y

def selB (A B C : Nat → Bool) : Kind → Nat → Bool
  | .node => A
  | .way => B
  | .relation => C

theorem tagB_of {kids : List (Ev P)} {k : Str} {v : Option Str} (h : Tagged kids k v) : tagB kids k v = true := by
  obtain ⟨t, ht, hv⟩ := h
  unfold tagB
  rw [show (kidVals k kids).getLast? = some t from ht]
  cases v with
  | none => rfl
  | some u => simp [hv u rfl]

theorem atB_of {d : Doc Pt} {b : Box} {i : Nat} (h : At d b i) : atB d b i = true := by
  obtain ⟨x, hx, e, hin⟩ := h
  exact List.any_eq_true.2 ⟨x, hx, by simpa [e, InBox] using hin⟩

theorem touchB_of {d : Doc Pt} {b : Box} {i : Nat} (h : Touches d b i) : touchB d b i = true := by
  obtain ⟨x, hx, e, j, hj, ha⟩ := h
  exact List.any_eq_true.2 ⟨x, hx, by simp only [e, beq_self_eq_true, Bool.true_and]; exact List.any_eq_true.2 ⟨j, hj, atB_of ha⟩⟩

theorem got_closed {qs : List Query} {d : Doc Pt} {A B C : Nat → Bool} (h : closedB qs d A B C = true) {k : Kind} {i : Nat} (hg : Got qs d k i) :
    selB A B C k i = true := by
  unfold closedB at h
  simp only [Bool.and_eq_true] at h
  obtain ⟨⟨h1, h2⟩, h3⟩ := h
  have imp : ∀ {x y : Bool}, (!x || y) = true → x = true → y = true := by decide
  induction hg with
  | @node q x hq hk hx ht ha =>
    have := List.all_eq_true.1 h1 q hq
    rw [hk] at this
    exact imp (List.all_eq_true.1 this x hx) (by rw [tagB_of ht, atB_of ha]; rfl)
  | @way q x hq hk hx ht ha =>
    have := List.all_eq_true.1 h1 q hq
    rw [hk] at this
    exact imp (List.all_eq_true.1 this x hx) (by rw [tagB_of ht, touchB_of ha]; rfl)
  | @rel q y hq hk hy ht ha =>
    have := List.all_eq_true.1 h1 q hq
    rw [hk] at this
    refine imp (List.all_eq_true.1 this y hy) ?_
    rw [tagB_of ht, Bool.true_and, Bool.or_eq_true]
    rcases ha with ⟨i, ⟨r, hr⟩, ha⟩ | ⟨i, ⟨r, hr⟩, ha⟩
    · exact .inl (List.any_eq_true.2 ⟨_, hr, atB_of ha⟩)
    · exact .inr (List.any_eq_true.2 ⟨_, hr, touchB_of ha⟩)
  | @wayNode x i hx _ hi ih => exact List.all_eq_true.1 (imp (List.all_eq_true.1 h2 x hx) ih) i hi
  | @relNode y i hy _ hi ih =>
    obtain ⟨r, hr⟩ := hi
    have := imp (List.all_eq_true.1 h3 y hy) ih
    unfold memB at this
    rw [Bool.and_eq_true] at this
    exact List.all_eq_true.1 this.1 _ hr
  | @relWay y i hy _ hi ih =>
    obtain ⟨r, hr⟩ := hi
    have := imp (List.all_eq_true.1 h3 y hy) ih
    unfold memB at this
    rw [Bool.and_eq_true] at this
    exact List.all_eq_true.1 this.2 _ hr

theorem left_closed {keep : List (Str × Option Str)} {d : Doc P} {A B C : Nat → Bool} (h : leftB keep d A B C = true) {k : Kind} {i : Nat}
    (hg : Left keep d k i) : selB A B C k i = true := by
  unfold leftB at h
  simp only [Bool.and_eq_true] at h
  obtain ⟨⟨h1, h2⟩, h3⟩ := h
  have imp : ∀ {x y : Bool}, (!x || y) = true → x = true → y = true := by decide
  induction hg with
  | @node kv x hq hx ht =>
    have := List.all_eq_true.1 h1 kv hq
    simp only [Bool.and_eq_true] at this
    exact imp (List.all_eq_true.1 this.1.1 x hx) (tagB_of ht)
  | @way kv x hq hx ht =>
    have := List.all_eq_true.1 h1 kv hq
    simp only [Bool.and_eq_true] at this
    exact imp (List.all_eq_true.1 this.1.2 x hx) (tagB_of ht)
  | @rel kv y hq hy ht =>
    have := List.all_eq_true.1 h1 kv hq
    simp only [Bool.and_eq_true] at this
    exact imp (List.all_eq_true.1 this.2 y hy) (tagB_of ht)
  | @wayNode x i hx _ hi ih => exact List.all_eq_true.1 (imp (List.all_eq_true.1 h2 x hx) ih) i hi
  | @relNode y i hy _ hi ih =>
    obtain ⟨r, hr⟩ := hi
    have := imp (List.all_eq_true.1 h3 y hy) ih
    unfold memB at this
    rw [Bool.and_eq_true] at this
    exact List.all_eq_true.1 this.1 _ hr
  | @relWay y i hy _ hi ih =>
    obtain ⟨r, hr⟩ := hi
    have := imp (List.all_eq_true.1 h3 y hy) ih
    unfold memB at this
    rw [Bool.and_eq_true] at this
    exact List.all_eq_true.1 this.2 _ hr

theorem delivers_of {G : Kind → Nat → Prop} (d : Doc P) {A B C : Nat → Bool} (h : ∀ k i, G k i → selB A B C k i = true) :
    Delivers G d (fun x => A x.id) (fun x => B x.id) (fun y => C y.id) :=
  ⟨fun _ _ hg => h _ _ hg, fun _ _ hg => h _ _ hg, fun _ _ hg => h _ _ hg⟩

def exQSnap : Snap.Env Pt Info Nat Int where
  inRange := fun _ _ _ _ => true
  order := fun _ l => l
  proj := fun _ p _ => p
  eqS := fun _ _ _ _ _ => none
  blocked := fun _ _ _ _ => false
  half := fun a b => a == b
  five := fun _ _ => false
  cost := fun a b _ => (a.x + b.x).toNat
  maxLvl := 7
  noTrack := Info.bare
  copyTrack := fun a _ => a

/-- Reading with a configuration, in the area of the boxes. -/
def exQPar (o : Osm.Opts) (boxes : List Box) : Par Pt Info Str Int where
  o := o
  f := ⟨o.keep, o.drop, id⟩
  keysN := keptNode o
  keysW := keptWay o
  keysR := keptRel o
  box := Whole.exPar.box
  hup := Whole.exPar.hup
  bbox := fun q => treeHas q (BBoxIdx.build BBoxIdx.exArea boxes)
  p0 := ⟨0, 0⟩
  info := fun _ => none
  lines := fun _ => []
  track := fun _ => none
  noTrack := Info.bare
  setTrack := Info.setTrack
  trackOrder := id
  grid := fun _ _ => List.range 9
  near := fun a b => a == b
  orphOrder := id
  cfg := ⟨exQSnap, [10], [], List.range, fun e => (e.src + e.dst : Nat), id, fun e => e.a.cost + 1⟩

/-- A configuration that keeps ways, nodes and relations with one tag, for which the flags are given. -/
def exQOpts (flags : Nat) : Osm.Opts := { exNOpts with keep := [(kHw, [(vHw, flags)])] }

/-- The nodes 1 to 5 are in the box from (0,0) to (4,4), 2 and 5 at its side. The value of the way 60 is a list. The ways 40 and 50 are outside, the
relation 9 is not wanted. -/
def exQ : Doc Pt where
  header := [⟨0, .other⟩, ⟨1, .other⟩]
  nodes := [⟨1, ⟨1, 1⟩, []⟩, ⟨2, ⟨4, 3⟩, []⟩, ⟨3, ⟨2, 1⟩, [⟨3, .tag kSt vYes⟩, ⟨3, .tag kNm [65]⟩]⟩, ⟨4, ⟨3, 1⟩, [⟨3, .tag kSt vYes⟩, ⟨3, .tag [99] [98]⟩]⟩,
    ⟨5, ⟨4, 4⟩, []⟩, ⟨6, ⟨20, 1⟩, [⟨3, .tag kSt vYes⟩]⟩, ⟨7, ⟨21, 1⟩, []⟩, ⟨8, ⟨0, 8⟩, []⟩, ⟨9, ⟨1, 8⟩, []⟩]
  ways := [⟨10, [⟨3, .nd 1⟩, ⟨3, .nd 3⟩, ⟨3, .tag kHw vHw⟩, ⟨3, .tag [99] [98]⟩]⟩, ⟨20, [⟨3, .nd 3⟩, ⟨3, .nd 4⟩, ⟨3, .tag kHw vHw⟩]⟩,
    ⟨30, [⟨3, .nd 4⟩, ⟨3, .nd 6⟩, ⟨3, .tag kHw vHw⟩]⟩, ⟨40, [⟨3, .nd 6⟩, ⟨3, .nd 7⟩, ⟨3, .tag kHw vHw⟩]⟩,
    ⟨50, [⟨3, .nd 8⟩, ⟨3, .nd 9⟩, ⟨3, .tag kHw vHw⟩]⟩, ⟨60, [⟨3, .nd 4⟩, ⟨3, .nd 5⟩, ⟨3, .tag kHw (vHw ++ [59, 65])⟩]⟩,
    ⟨70, [⟨3, .nd 5⟩, ⟨3, .nd 2⟩, ⟨3, .tag kHw vHw⟩]⟩]
  rels := [⟨1, [⟨3, .member .node 4 []⟩, ⟨3, .member .way 30 []⟩, ⟨3, .tag kHw vHw⟩, ⟨3, .tag kSt vYes⟩, ⟨3, .tag kNm [66]⟩]⟩,
    ⟨2, [⟨3, .member .way 10 []⟩, ⟨3, .tag kHw vHw⟩, ⟨3, .tag kRef [55]⟩]⟩, ⟨9, [⟨3, .member .way 40 []⟩, ⟨3, .tag kRef [56]⟩]⟩]

theorem exQ_ok : exQ.Ok := by
  refine ⟨⟨_, _, rfl, by simp [isNode]⟩, by simp [exQ], ⟨by simp [exQ], by simp [exQ], by simp [exQ]⟩, ⟨by simp [exQ], by simp [exQ], by simp [exQ]⟩,
    ⟨by simp [exQ], by simp [exQ], by simp [exQ]⟩, ?_, ?_⟩ <;> simp [exQ, Plain, isNode, isWay, isRel]

/-- The part with certain elements. -/
def exPart (N W R : List Nat) (s : Str → Bool) : List (Ev Pt) :=
  (part exQ [⟨0, .other⟩, ⟨1, .other⟩] (fun x => N.contains x.id) (fun x => W.contains x.id) (fun y => R.contains y.id) s).tags

/-- Edges: the positions of their nodes, the lines and the name of the station at their end. -/
def exLook (p : Par Pt Info Str Int) (file : List (Ev Pt)) : List ((Int × Int) × (Int × Int) × List Nat × Option (Option Str)) :=
  let g := build (filePar exNaming p file) file
  g.es.map fun e => (((g.pos e.src).x, (g.pos e.src).y), ((g.pos e.dst).x, (g.pos e.dst).y), e.lines, (g.pl.getSI e.dst).map (Option.map (·.name)))

def exA : Box := ⟨0, 0, 4, 4⟩

theorem exQ_wf (k v : Str) (f : Nat) : WFR [(k, [(v, f)])] := by
  refine ⟨by unfold FMap.WF FMap.keys; simp, fun k vals h => ?_⟩
  have := FMap.mem_of_get h
  simp at this
  rw [this.2]
  unfold FMap.WF FMap.keys
  simp

theorem exQ_look {k v k' v' : Str} {f f' : Nat} (h : look [(k, [(v, f)])] k' v' = some f') : k' = k ∧ v' = v ∧ f' = f := by
  unfold look at h
  rw [Option.bind_eq_some_iff] at h
  obtain ⟨vals, h1, h2⟩ := h
  have h1 := FMap.mem_of_get h1
  have h2 := FMap.mem_of_get h2
  simp at h1
  rw [h1.2] at h2
  simp at h2
  exact ⟨h1.1, h2.1, h2.2⟩

theorem exQ_chosen (o : Osm.Opts) (k v : Str) (f f' : Nat) (h : o.keep = [(k, [(v, f)])]) (boxes : List Box) : Chosen [o, exQOpts f'] (exQPar (exQOpts f') boxes) := by
  refine ⟨by simp [exQPar], fun o' ho => ?_⟩
  simp only [List.mem_cons, List.not_mem_nil, or_false] at ho
  rcases ho with rfl | rfl
  · rw [h]; exact exQ_wf _ _ _
  · exact exQ_wf _ _ _

theorem exQ_flagged (f : Nat) (hf : f % 2 = 1) : FlaggedOpts (exQOpts f) := by
  obtain ⟨a1, a2, a3, a4, a5, a6, a7, a8, a9, a10, a11⟩ := exN_flagged
  constructor
  case keep =>
    intro k vals h r hr
    have := FMap.mem_of_get h
    simp [exQOpts] at this
    rw [this.2] at hr
    simp at hr
    simp [hr, hf]
  all_goals assumption

theorem exQ_reader (f : Nat) (hf : f % 2 = 1) (boxes : List Box) : Reader (exQPar (exQOpts f) boxes) :=
  ⟨exQ_flagged f hf, rfl, rfl, rfl, rfl, rfl, fun _ _ => Iff.rfl⟩

theorem exQ_exact (o : Osm.Opts) (boxes : List Box) : Exact (exQPar o boxes) := ⟨fun _ _ => List.contains_iff_mem, fun _ _ => List.contains_iff_mem⟩

theorem exQ_one {o : Osm.Opts} (ho : o ∈ [exOther, exQOpts 1]) {k v : Str} {f : Nat} (h : look o.keep k v = some f) : f = 1 := by
  simp only [List.mem_cons, List.not_mem_nil, or_false] at ho
  rcases ho with rfl | rfl <;> exact (exQ_look h).2.2

theorem exQ_noLists : NoLists [exOther, exQOpts 1] := by
  intro o ho k v f h
  rw [exQ_one ho h]
  rfl

theorem exQ_agree : Agree [exOther, exQOpts 1] := by
  intro o ho o' ho' k v f f' h h'
  rw [exQ_one ho h, exQ_one ho' h']

theorem exQ_rounds (boxes : List (Option Box)) : Rounds id boxes exQ := fun _ _ _ _ h => h

/-- The way 10 is needed. -/
theorem exQ_need (f : Nat) (hf : f &&& WAY = 0) : NeedWay (exQPar (exQOpts f) [exA]) exQ ⟨10, [⟨3, .nd 1⟩, ⟨3, .nd 3⟩, ⟨3, .tag kHw vHw⟩, ⟨3, .tag [99] [98]⟩]⟩ := by
  refine ⟨by simp [exQ], by decide, ⟨1, by decide, ⟨1, ⟨1, 1⟩, []⟩, by simp [exQ], rfl, by rfl⟩, .inl ⟨kHw, vHw, by unfold Has; decide, [(vHw, f)], ?_, (vHw, f), by simp, hf, .inr (.inl rfl)⟩⟩
  show FMap.get [(kHw, [(vHw, f)])] kHw = _
  rw [FMap.get_cons, if_pos rfl]

/-- What the query delivers. -/
def exOver (os : List Osm.Opts) (dig : Int → Int) (boxes : List Box) (N W R : List Nat) : Prop :=
  Delivers (Got (overpass dig os (BBoxIdx.build BBoxIdx.exArea boxes)) exQ) exQ (fun x => N.contains x.id) (fun x => W.contains x.id) (fun y => R.contains y.id)

theorem exOver_of {os : List Osm.Opts} {dig : Int → Int} {boxes : List Box} {N W R : List Nat}
    (h : closedB (overpass dig os (BBoxIdx.build BBoxIdx.exArea boxes)) exQ N.contains W.contains R.contains = true) : exOver os dig boxes N W R :=
  delivers_of exQ fun _ _ hg => got_closed h hg

/-- What the rules keep. -/
def exRule (os : List Osm.Opts) (N W R : List Nat) : Prop :=
  Delivers (Left (osmfilter os).keep exQ) exQ (fun x => N.contains x.id) (fun x => W.contains x.id) (fun y => R.contains y.id)

theorem exRule_of {os : List Osm.Opts} {N W R : List Nat} (h : leftB (osmfilter os).keep exQ N.contains W.contains R.contains = true) : exRule os N W R :=
  delivers_of exQ fun _ _ hg => left_closed h hg

/-- C82 is not vacuous for Overpass: three of the seven ways and a relation are not delivered, the station is named by a relation, the line is read. -/
example : exQ.Ok ∧ Chosen [exOther, exQOpts 1] (exQPar (exQOpts 1) [exA]) ∧ Reader (exQPar (exQOpts 1) [exA]) ∧ Exact (exQPar (exQOpts 1) [exA]) ∧
    NoLists [exOther, exQOpts 1] ∧ Agree [exOther, exQOpts 1] ∧ Rounds id (leafs (BBoxIdx.build BBoxIdx.exArea [exA])) exQ ∧
    (∃ x, NeedWay (exQPar (exQOpts 1) [exA]) exQ x) ∧ exOver [exOther, exQOpts 1] id [exA] [1, 2, 3, 4, 5, 6] [10, 20, 30, 70] [1, 2] ∧
    exLook (exQPar (exQOpts 1) [exA]) (exPart [1, 2, 3, 4, 5, 6] [10, 20, 30, 70] [1, 2] fun _ => true) =
      [((1, 1), (2, 1), [0], some (some [65])), ((2, 1), (3, 1), [], some (some [66])), ((4, 4), (4, 3), [], some none), ((2, 1), (1, 1), [0], some none),
        ((3, 1), (2, 1), [], some (some [65])), ((4, 3), (4, 4), [], some none), ((3, 1), (3, 1), [], some (some [66]))] :=
  ⟨exQ_ok, exQ_chosen _ _ _ _ _ rfl _, exQ_reader _ (by decide) _, exQ_exact _ _, exQ_noLists, exQ_agree, exQ_rounds _, ⟨_, exQ_need 1 rfl⟩,
    exOver_of (by decide +kernel), by decide +kernel⟩

/-- C82 is not vacuous for osmfilter: a way, a relation and the tags with the key 99 are not kept. -/
example : exQ.Ok ∧ Chosen [exOther, exQOpts 1] (exQPar (exQOpts 1) [exA]) ∧ Reader (exQPar (exQOpts 1) [exA]) ∧ Exact (exQPar (exQOpts 1) [exA]) ∧
    NoLists [exOther, exQOpts 1] ∧ (∃ x, NeedWay (exQPar (exQOpts 1) [exA]) exQ x) ∧ [99] ∉ (osmfilter [exOther, exQOpts 1]).tags ∧
    exRule [exOther, exQOpts 1] [1, 2, 3, 4, 5, 6, 7, 8, 9] [10, 20, 30, 40, 50, 70] [1, 2] ∧
    exLook (exQPar (exQOpts 1) [exA]) (exPart [1, 2, 3, 4, 5, 6, 7, 8, 9] [10, 20, 30, 40, 50, 70] [1, 2] fun k => decide (k ∈ (osmfilter [exOther, exQOpts 1]).tags)) =
      [((1, 1), (2, 1), [0], some (some [65])), ((2, 1), (3, 1), [], some (some [66])), ((4, 4), (4, 3), [], some none), ((2, 1), (1, 1), [0], some none),
        ((3, 1), (2, 1), [], some (some [65])), ((4, 3), (4, 4), [], some none), ((3, 1), (3, 1), [], some (some [66]))] :=
  ⟨exQ_ok, exQ_chosen _ _ _ _ _ rfl _, exQ_reader _ (by decide) _, exQ_exact _ _, exQ_noLists, ⟨_, exQ_need 1 rfl⟩, by decide +kernel,
    exRule_of (by decide +kernel), by decide +kernel⟩

/-! ### why the hypotheses are needed -/

/-- Rules that look for a value in lists (`mult_val_match`) are written as rules for the value: the way 60 is kept when the map is read, but neither
delivered by a server nor kept by osmfilter. -/
theorem C82_negation_lists (rule : Fetch.Rule) (h : rule = osmfilter [exOther, exQOpts 33]) :
    exQ.Ok ∧ Chosen [exOther, exQOpts 33] (exQPar (exQOpts 33) [exA]) ∧ Reader (exQPar (exQOpts 33) [exA]) ∧ Exact (exQPar (exQOpts 33) [exA]) ∧
    Agree [exOther, exQOpts 33] ∧ exRule [exOther, exQOpts 33] [1, 2, 3, 4, 5, 6, 7, 8, 9] [10, 20, 30, 40, 50, 70] [1, 2] ∧
    exOver [exOther, exQOpts 33] id [exA] [1, 2, 3, 4, 5, 6] [10, 20, 30, 70] [1, 2] ∧ (exLook (exQPar (exQOpts 33) [exA]) exQ.tags).length = 8 ∧
    (exLook (exQPar (exQOpts 33) [exA])
      (exPart [1, 2, 3, 4, 5, 6, 7, 8, 9] [10, 20, 30, 40, 50, 70] [1, 2] fun k => decide (k ∈ rule.tags))).length = 7 ∧
    (exLook (exQPar (exQOpts 33) [exA]) (exPart [1, 2, 3, 4, 5, 6] [10, 20, 30, 70] [1, 2] fun _ => true)).length = 7 := by
  subst h
  refine ⟨exQ_ok, exQ_chosen _ _ _ _ _ rfl _, exQ_reader _ (by decide) _, exQ_exact _ _, ?_, exRule_of (by decide +kernel), exOver_of (by decide +kernel),
    by decide +kernel, by decide +kernel, by decide +kernel⟩
  have key : kRail ≠ kHw := by decide
  intro o ho o' ho' k v f f' h h'
  simp only [List.mem_cons, List.not_mem_nil, or_false] at ho ho'
  rcases ho with rfl | rfl <;> rcases ho' with rfl | rfl
  · exact (exQ_look h).2.2.trans (exQ_look h').2.2.symm
  · exact absurd ((exQ_look h).1.symm.trans (exQ_look h').1) key
  · exact absurd ((exQ_look h').1.symm.trans (exQ_look h).1) key
  · exact (exQ_look h).2.2.trans (exQ_look h').2.2.symm

/-- The boxes are written with few digits. If a side of a box moves inwards, what is there is not delivered. -/
theorem C82_negation_digits : exQ.Ok ∧ Chosen [exOther, exQOpts 1] (exQPar (exQOpts 1) [exA]) ∧ Reader (exQPar (exQOpts 1) [exA]) ∧
    Exact (exQPar (exQOpts 1) [exA]) ∧ NoLists [exOther, exQOpts 1] ∧ Agree [exOther, exQOpts 1] ∧
    exOver [exOther, exQOpts 1] (fun x => x / 3 * 3) [exA] [1, 3, 4, 6] [10, 20, 30] [1, 2] ∧ (exLook (exQPar (exQOpts 1) [exA]) exQ.tags).length = 7 ∧
    (exLook (exQPar (exQOpts 1) [exA]) (exPart [1, 3, 4, 6] [10, 20, 30] [1, 2] fun _ => true)).length = 5 :=
  ⟨exQ_ok, exQ_chosen _ _ _ _ _ rfl _, exQ_reader _ (by decide) _, exQ_exact _ _, exQ_noLists, exQ_agree, exOver_of (by decide +kernel), by decide +kernel,
    by decide +kernel⟩

/-- If another configuration has the same rule, but not for ways, there is no query for ways. -/
theorem C82_negation_flags : exQ.Ok ∧ Chosen [exQOpts 9, exQOpts 1] (exQPar (exQOpts 1) [exA]) ∧ Reader (exQPar (exQOpts 1) [exA]) ∧
    Exact (exQPar (exQOpts 1) [exA]) ∧ NoLists [exQOpts 9, exQOpts 1] ∧ Rounds id (leafs (BBoxIdx.build BBoxIdx.exArea [exA])) exQ ∧
    exOver [exQOpts 9, exQOpts 1] id [exA] [1, 3, 4, 6] [10, 30] [1, 2] ∧ (exLook (exQPar (exQOpts 1) [exA]) exQ.tags).length = 7 ∧
    (exLook (exQPar (exQOpts 1) [exA]) (exPart [1, 3, 4, 6] [10, 30] [1, 2] fun _ => true)).length = 3 := by
  refine ⟨exQ_ok, exQ_chosen _ _ _ _ _ rfl _, exQ_reader _ (by decide) _, exQ_exact _ _, ?_, exQ_rounds _, exOver_of (by decide +kernel), by decide +kernel,
    by decide +kernel⟩
  intro o ho k v f h
  simp only [List.mem_cons, List.not_mem_nil, or_false] at ho
  rcases ho with rfl | rfl <;> rw [(exQ_look h).2.2] <;> rfl

/-- The query is written for the boxes of all trips, the map is read for those of some means of transport. The two boxes of the reader are joined to one,
but the third box, which is not for the reader, keeps them apart in the query: the way 50 is read from the map but not asked for. -/
theorem C82_negation_boxes (read all : List Box) (h1 : read = [exA, ⟨3, 3, 8, 8⟩]) (h2 : all = [exA, ⟨5, 5, 9, 9⟩, ⟨3, 3, 8, 8⟩]) :
    (∀ b ∈ read, b ∈ all) ∧ exQ.Ok ∧ Chosen [exOther, exQOpts 1] (exQPar (exQOpts 1) read) ∧ Reader (exQPar (exQOpts 1) read) ∧
    Exact (exQPar (exQOpts 1) read) ∧ NoLists [exOther, exQOpts 1] ∧ Agree [exOther, exQOpts 1] ∧
    Rounds id (leafs (BBoxIdx.build BBoxIdx.exArea all)) exQ ∧ exOver [exOther, exQOpts 1] id all [1, 2, 3, 4, 5, 6] [10, 20, 30, 70] [1, 2] ∧
    (exLook (exQPar (exQOpts 1) read) exQ.tags).length = 9 ∧
    (exLook (exQPar (exQOpts 1) read) (exPart [1, 2, 3, 4, 5, 6] [10, 20, 30, 70] [1, 2] fun _ => true)).length = 7 := by
  subst h1 h2
  exact ⟨by simp, exQ_ok, exQ_chosen _ _ _ _ _ rfl _, exQ_reader _ (by decide) _, exQ_exact _ _, exQ_noLists, exQ_agree, exQ_rounds _,
    exOver_of (by decide +kernel), by decide +kernel, by decide +kernel⟩

end Verif.Fetch
