import Verif.Osm.FilterWriteLemmas

/-!
# Writing a filtered file (properties)

C31: what `filterWrite` writes for a document.
-/

set_option linter.unusedSectionVars false

namespace Verif.Osm
open Verif.Names (Str)

variable {P : Type}

/-- A document as OSM files are: something before the nodes, at least one node, elements with
proper and different ids per kind, nothing but tags, references and members inside them. -/
structure Doc.Ok (d : Doc P) : Prop where
  head : ∃ h0 hs, d.header = h0 :: hs ∧ ∀ e ∈ hs, isNode e.tag = false
  some : d.nodes ≠ []
  nodes : Proper (d.nodes.map (·.id)) (d.nodes.map (·.kids))
  ways : Proper (d.ways.map (·.id)) (d.ways.map (·.kids))
  rels : Proper (d.rels.map (·.id)) (d.rels.map (·.kids))
  plainWays : ∀ w ∈ d.ways, Plain w.kids
  plainRels : ∀ r ∈ d.rels, Plain r.kids

/-- What the first pass reports: for each node whether it is in the box. -/
def boxReport (bbox : P → Bool) (nodes : List (DNode P)) : List BoxOp :=
  nodes.map fun n => if bbox n.pos then .add n.id else .nadd n.id

theorem boxOps_none (bbox : P → Bool) (x : DNode P) :
    boxOps bbox (fun _ _ => false) x = [if bbox x.pos then BoxOp.add x.id else .nadd x.id] := by
  unfold boxOps
  congr 1
  rw [List.filterMap_eq_nil_iff]
  intro e _
  split <;> simp

theorem boxReport_eq (bbox : P → Bool) (nodes : List (DNode P)) :
    nodes.flatMap (boxOps bbox (fun _ _ => false)) = boxReport bbox nodes := by
  induction nodes with
  | nil => rfl
  | cons x nodes ih => rw [List.flatMap_cons, boxOps_none, ih]; rfl

/-- The relations that are seen when the current tag is the first behind `ways`. -/
def seenRels (ways rels : List (DElem P)) : List (DElem P) := if ways = [] then rels.drop 1 else rels

theorem stops_ways_rels (rels : List (DElem P)) : Stops isWay (flat (rels.map DElem.rel)) := by
  cases rels with
  | nil => trivial
  | cons r rels => exact ⟨Or.inl rfl, rfl⟩

theorem stops_rel_nil : Stops isRel ([] : List (Ev P)) := trivial

theorem rest_level (ways rels : List (DElem P)) :
    ∀ e ∈ (flat (ways.map DElem.way) ++ flat (rels.map DElem.rel)).head?, e.level = 2 ∧ isNode e.tag = false := by
  intro e he
  cases ways with
  | nil =>
    cases rels with
    | nil => cases he
    | cons r rels => cases he; exact ⟨rfl, rfl⟩
  | cons w ways => cases he; exact ⟨rfl, rfl⟩

theorem stops_rest (ways rels : List (DElem P)) : Stops isNode (flat (ways.map DElem.way) ++ flat (rels.map DElem.rel)) := by
  have := rest_level ways rels
  cases h : flat (ways.map DElem.way) ++ flat (rels.map DElem.rel) with
  | nil => trivial
  | cons e r =>
    rw [h] at this
    have := this e (by simp)
    exact ⟨Or.inl this.1, this.2⟩

theorem proper_drop {l : List (DElem P)} (h : Proper (l.map (·.id)) (l.map (·.kids))) (n : Nat) :
    Proper ((l.drop n).map (·.id)) ((l.drop n).map (·.kids)) := by
  refine ⟨fun i hi => h.nz i ?_, ?_, fun k hk => h.nested k ?_⟩
  · rw [List.map_drop] at hi; exact List.mem_of_mem_drop hi
  · rw [List.map_drop]; exact (List.drop_sublist _ _).nodup h.nodup
  · rw [List.map_drop] at hk; exact List.mem_of_mem_drop hk

theorem proper_seen (ways : List (DElem P)) {l : List (DElem P)} (h : Proper (l.map (·.id)) (l.map (·.kids))) :
    Proper ((seenRels ways l).map (·.id)) ((seenRels ways l).map (·.kids)) := by
  unfold seenRels
  split
  · exact proper_drop h 1
  · exact h

theorem read_rels (f : Flt) (keys : List Str) (rels : List (DElem P)) (hp : Proper (rels.map (·.id)) (rels.map (·.kids))) :
    (readAll (nextRel keys f) (flat (rels.map DElem.rel))).1 = rels.filterMap (fun x => keepRel f (readRel keys x)) := by
  have := rels_section keys f rels hp [] stops_rel_nil
  rw [List.append_nil] at this
  rw [this]

/-- The state after reading the relations. -/
def relState (f : Flt) (keys : List Str) (rels : List (DElem P)) : RelSt :=
  (rels.filterMap (fun x => keepRel f (readRel keys x))).foldl addRel ⟨[], [], [], []⟩

theorem relState_inv (f : Flt) (keys : List Str) (rels : List (DElem P)) :
    RInv (rels.filterMap (fun x => keepRel f (readRel keys x))) (relState f keys rels) := by
  have := rinv_init.foldl (rels.filterMap (fun x => keepRel f (readRel keys x)))
  simpa [relState] using this

/-- What is written, in terms of the document. -/
theorem filterWrite_eq (p0 : P) (f : Flt) (keysN keysW keysR : List Str) (box : List BoxOp → Nat → Bool)
    (bbox : P → Bool) (d : Doc P) (hd : d.Ok) :
    let inBox := box (boxReport bbox d.nodes)
    let st := relState f keysR (seenRels d.ways d.rels)
    let q := fun x => keepWay f st.wayRels st.flat inBox (readWay keysW x)
    let used := (d.ways.filter q).flatMap fun x => kidRefs x.kids
    let qn := fun x => keepNode f (fun i => used.contains i) (fun _ => false) st.nodeRels st.flat inBox (readNod keysN x)
    ∃ post : List (DElem P),
      (d.ways.any q = false → post = d.ways) ∧
      (d.ways.any q = true → ∃ pre x, d.ways = pre ++ x :: post ∧ q x = true ∧ ∀ y ∈ post, q y = false) ∧
      filterWrite p0 f keysN keysW keysR box bbox d.tags =
        { nodes := (d.nodes.filter qn).map (readNod keysN)
          ways := (d.ways.filter q).map (readWay keysW)
          rels := ((seenRels post d.rels).filterMap fun x => keepRel f (readRel keysR x)).filterMap
            (writeRel ((d.ways.filter q).map (·.id)) (used ++ (d.nodes.filter qn).map (·.id))) } := by
  intro inBox st q used qn
  obtain ⟨h0, hs, hh, hh'⟩ := hd.head
  have e1 : skipUntil .node d.tags =
      flat (d.nodes.map DNode.el) ++ (flat (d.ways.map DElem.way) ++ flat (d.rels.map DElem.rel)) := by
    rw [Doc.tags, hh]
    exact skip_node h0 hs hh' d.nodes hd.some _
  have e2 := bboxGo_first bbox (fun _ _ => false) d.nodes hd.some
    (fun x hx => hd.nodes.nz _ (List.mem_map.2 ⟨x, hx, rfl⟩))
    (fun x hx => hd.nodes.nested _ (List.mem_map.2 ⟨x, hx, rfl⟩)) _ (rest_level d.ways d.rels)
  rw [boxReport_eq] at e2
  have e3 : readRels keysR f (skipUntil .relation (flat (d.ways.map DElem.way) ++ flat (d.rels.map DElem.rel))) = st := by
    rw [skip_rel d.ways d.rels hd.plainWays hd.plainRels, readRels]
    rw [show (if d.ways = [] then d.rels.drop 1 else d.rels) = seenRels d.ways d.rels from rfl,
      read_rels f keysR _ (proper_seen d.ways hd.rels)]
    rfl
  have e4 : (readAll (nextWay keysW (keepWay f st.wayRels st.flat inBox))
      (flat (d.ways.map DElem.way) ++ flat (d.rels.map DElem.rel))).1 = (d.ways.filter q).map (readWay keysW) := by
    rw [ways_section keysW _ (by intro w hw; simp [keepWay] at hw; exact hw.1.1.1.1) d.ways hd.ways _ (stops_ways_rels d.rels),
      List.filter_map]
    rfl
  have e5 : ((d.ways.filter q).map (readWay keysW)).map (·.id) = (d.ways.filter q).map (·.id) := by
    rw [List.map_map]; rfl
  have e6 : ((d.ways.filter q).map (readWay keysW)).flatMap (·.nodes) = used := by
    rw [List.flatMap_map]; rfl
  have e7 := writeNds_flat f p0 keysN st.nodeRels st.flat inBox _ (stops_rest d.ways d.rels)
    ((flat (d.nodes.map DNode.el) ++ (flat (d.ways.map DElem.way) ++ flat (d.rels.map DElem.rel))).length + 1) d.nodes
    hd.nodes (by
      have := flat_length (d.nodes.map DNode.el)
      simp only [List.length_append, List.length_map] at this ⊢
      omega) used
  have e8 : (d.nodes.map (readNod keysN)).filter (keepNode f (fun i => used.contains i) (fun _ => false) st.nodeRels st.flat inBox) =
      (d.nodes.filter qn).map (readNod keysN) := by
    rw [List.filter_map]; rfl
  have e9 : ((d.nodes.filter qn).map (readNod keysN)).map (·.id) = (d.nodes.filter qn).map (·.id) := by
    rw [List.map_map]; rfl
  rw [e8, e9] at e7
  obtain ⟨post, w1, ⟨pre, w2⟩, w3, w4⟩ := writeWays_flat keysW q _ (stops_ways_rels d.rels) d.ways.length d.ways (Nat.le_refl _)
    (fun x hx => hd.ways.nz _ (List.mem_map.2 ⟨x, hx, rfl⟩)) hd.ways.nodup
    (fun x hx => hd.ways.nested _ (List.mem_map.2 ⟨x, hx, rfl⟩))
  refine ⟨post, w3, w4, ?_⟩
  have e10 : (readAll (nextRel keysR f) (skipUntil .relation
      (flat (post.map DElem.way) ++ flat (d.rels.map DElem.rel)))).1 =
      (seenRels post d.rels).filterMap fun x => keepRel f (readRel keysR x) := by
    rw [skip_rel post d.rels (fun w hw => hd.plainWays w (by rw [w2]; exact List.mem_append_right _ hw)) hd.plainRels]
    exact read_rels f keysR _ (proper_seen post hd.rels)
  unfold filterWrite
  simp only [e1, e2, e3]
  rw [show box (boxReport bbox d.nodes) = inBox from rfl, e4, e5, e6]
  simp only [e7, w1, e10]

/-! ### C31 -/

/-- A relation of the list gives its way `i` (its node `i`) a reason to be kept. -/
def LiftsWay (f : Flt) (br : DElem P → Rel) (rels : List (DElem P)) (i : Nat) : Prop :=
  ∃ x ∈ rels, RelWanted f (br x) ∧ contained f.keep REL (f.ord (br x).attrs) &&& REL_NO_DOWN = 0 ∧
    ∃ role, (i, role) ∈ kidMembers .way x.kids
def LiftsNode (f : Flt) (br : DElem P → Rel) (rels : List (DElem P)) (i : Nat) : Prop :=
  ∃ x ∈ rels, RelWanted f (br x) ∧ contained f.keep REL (f.ord (br x).attrs) &&& REL_NO_DOWN = 0 ∧
    ∃ role, (i, role) ∈ kidMembers .node x.kids

/-- A way is to be written. -/
structure WayWritten (f : Flt) (br : DElem P → Rel) (rels : List (DElem P)) (inBox : Nat → Bool) (w : Way) : Prop where
  two : 2 ≤ w.nodes.length
  why : LiftsWay f br rels w.id ∨ Hits f.keep WAY w.attrs
  nodrop : ¬ Hits f.drop WAY w.attrs
  inbox : ∃ n ∈ w.nodes, inBox n = true

/-- A node is to be written: it is used by a written way, or it is wanted for itself and in the box. -/
def NodeWritten (f : Flt) (br : DElem P → Rel) (rels : List (DElem P)) (inBox : Nat → Bool) (ways : List Way)
    (n : Nod P) : Prop :=
  (∃ w ∈ ways, n.id ∈ w.nodes) ∨
    ((LiftsNode f br rels n.id ∨ Hits f.keep NODE n.attrs) ∧ inBox n.id = true ∧ ¬ Hits f.drop NODE n.attrs)

theorem lifts_aux {f : Flt} (hf : f.Ok) (keys : List Str) (rels : List (DElem P)) (hz : ∀ x ∈ rels, x.id ≠ 0)
    (sel : Rel → List (Nat × Str)) (hsel : ∀ (r : Rel) fl, sel { r with keepFlags := fl } = sel r) (i : Nat) :
    (∃ r ∈ rels.filterMap (fun x => keepRel f (readRel keys x)), r.keepFlags &&& REL_NO_DOWN = 0 ∧
      i ∈ (sel r).map (·.1)) ↔
    ∃ x ∈ rels, RelWanted f (readRel keys x) ∧ contained f.keep REL (f.ord (readRel keys x).attrs) &&& REL_NO_DOWN = 0 ∧
      ∃ role, (i, role) ∈ sel (readRel keys x) := by
  constructor
  · rintro ⟨r, hr, h1, h2⟩
    obtain ⟨x, hx, hxr⟩ := List.mem_filterMap.1 hr
    obtain ⟨_, hw, rfl⟩ := (keepRel_iff hf _ _).1 hxr
    rw [hsel] at h2
    obtain ⟨⟨i', role⟩, h3, rfl⟩ := List.mem_map.1 h2
    exact ⟨x, hx, hw, h1, role, h3⟩
  · rintro ⟨x, hx, hw, h1, role, h3⟩
    refine ⟨_, List.mem_filterMap.2 ⟨x, hx, (keepRel_iff hf _ _).2 ⟨hz x hx, hw, rfl⟩⟩, h1, ?_⟩
    rw [hsel]
    exact List.mem_map.2 ⟨_, h3, rfl⟩

theorem seen_sub (ways rels : List (DElem P)) : ∀ x ∈ seenRels ways rels, x ∈ rels := by
  intro x hx
  unfold seenRels at hx
  split at hx
  · exact List.mem_of_mem_drop hx
  · exact hx

/-- What a written relation is: the relation read, its members restricted to what is there. -/
structure RelWritten (keys : List Str) (ways nodes : Nat → Prop) (x : DElem P) (r : Rel) : Prop where
  id : r.id = x.id
  ways : ∃ c : Nat → Bool, (∀ i, c i = true ↔ ways i) ∧ r.ways = (kidMembers .way x.kids).filter fun m => c m.1
  nodes : ∃ c : Nat → Bool, (∀ i, c i = true ↔ nodes i) ∧ r.nodes = (kidMembers .node x.kids).filter fun m => c m.1
  wf : FMap.WF r.attrs
  attrs : ∀ k, FMap.get r.attrs k = kidVal keys x.kids k

/-- The output `o` for the document `d`, if the relations `r1` are looked at for reasons to keep
their members and the relations `r2` are considered for writing; `br` is what is read for a
relation. -/
structure Filtered (f : Flt) (keysN keysW keysR : List Str) (inBox : Nat → Bool) (d : Doc P) (br : DElem P → Rel)
    (r1 r2 : List (DElem P)) (o : Out P) : Prop where
  /-- exactly the ways to be written, in order -/
  ways : ∃ (q : DElem P → Bool) (b : DElem P → Way), (∀ x, ReadsWay keysW x (b x)) ∧
    (∀ x ∈ d.ways, q x = true ↔ WayWritten f br r1 inBox (b x)) ∧ o.ways = (d.ways.filter q).map b
  /-- exactly the nodes to be written, in order -/
  nodes : ∃ (q : DNode P → Bool) (b : DNode P → Nod P), (∀ x, ReadsNode keysN x (b x)) ∧
    (∀ x ∈ d.nodes, q x = true ↔ NodeWritten f br r1 inBox o.ways (b x)) ∧ o.nodes = (d.nodes.filter q).map b
  /-- exactly the wanted relations with a member that is there, in order -/
  rels : ∃ g : DElem P → Option Rel, o.rels = r2.filterMap g ∧
    (∀ x ∈ r2, ∀ r, g x = some r → RelWanted f (br x) ∧
      RelWritten keysR (fun i => ∃ w ∈ o.ways, w.id = i)
        (fun i => (∃ n ∈ o.nodes, n.id = i) ∨ ∃ w ∈ o.ways, i ∈ w.nodes) x r ∧ (r.ways ≠ [] ∨ r.nodes ≠ [])) ∧
    (∀ x ∈ r2, g x = none → RelWanted f (br x) →
      (∀ m ∈ kidMembers .way x.kids, ¬ ∃ w ∈ o.ways, w.id = m.1) ∧
      ∀ m ∈ kidMembers .node x.kids, ¬ ((∃ n ∈ o.nodes, n.id = m.1) ∨ ∃ w ∈ o.ways, m.1 ∈ w.nodes))

theorem inj_of_nodup_map {A B : Type} (g : A → B) {l : List A} (h : (l.map g).Nodup) {x y : A} (hx : x ∈ l) (hy : y ∈ l)
    (e : g x = g y) : x = y := by
  induction l with
  | nil => cases hx
  | cons a l ih =>
    rw [List.map_cons, List.nodup_cons] at h
    rcases List.mem_cons.1 hx with h1 | h1 <;> rcases List.mem_cons.1 hy with h2 | h2
    · rw [h1, h2]
    · exact absurd (List.mem_map.2 ⟨y, h2, by rw [← e, h1]⟩) h.1
    · exact absurd (List.mem_map.2 ⟨x, h1, by rw [e, h2]⟩) h.1
    · exact ih h.2 h1 h2

theorem any_last {A : Type} (q : A → Bool) (l post : List A) (h1 : l.any q = false → post = l)
    (h2 : l.any q = true → ∃ pre x, l = pre ++ x :: post ∧ q x = true ∧ ∀ y ∈ post, q y = false) :
    post = [] ↔ l = [] ∨ ∃ x, l.getLast? = some x ∧ q x = true := by
  cases ha : l.any q with
  | false =>
    rw [h1 ha]
    constructor
    · exact Or.inl
    · rintro (h | ⟨x, hx, hq⟩)
      · exact h
      · have := List.any_eq_false.1 ha x (List.mem_of_getLast? hx)
        exact absurd hq this
  | true =>
    obtain ⟨pre, x, rfl, hx, hp⟩ := h2 ha
    constructor
    · rintro rfl
      exact Or.inr ⟨x, by simp, hx⟩
    · rintro (h | ⟨y, hy, hq⟩)
      · simp at h
      · cases hpost : post with
        | nil => rfl
        | cons z zs =>
          exfalso
          have hmem : y ∈ post := by
            rw [show pre ++ x :: post = (pre ++ [x]) ++ post by simp, List.getLast?_append] at hy
            cases hl : post.getLast? with
            | none => rw [List.getLast?_eq_none_iff] at hl; rw [hl] at hpost; cases hpost
            | some w =>
              rw [hl] at hy
              simp only [Option.some_or, Option.some.injEq] at hy
              rw [← hy]
              exact List.mem_of_getLast? hl
          rw [hp y hmem] at hq
          cases hq

/-- C31. What is written for a document. The first relation of the document is lost if the last way
of the document is written or there is no way (`C31_negation`); it is the first relation that is not
looked at for its members if there is no way. Otherwise all relations are considered. -/
theorem C31_written_partial {f : Flt} (hf : f.Ok) (p0 : P) (keysN keysW keysR : List Str) (box : List BoxOp → Nat → Bool)
    (bbox : P → Bool) (d : Doc P) (hd : d.Ok) :
    ∃ (br : DElem P → Rel) (lost : Bool), (∀ x, ReadsRel keysR x (br x)) ∧
      (lost = true ↔ d.ways = [] ∨ ∃ (x : DElem P) (w : Way), d.ways.getLast? = some x ∧
        w ∈ (filterWrite p0 f keysN keysW keysR box bbox d.tags).ways ∧ w.id = x.id) ∧
      Filtered f keysN keysW keysR (box (boxReport bbox d.nodes)) d br
        (if d.ways = [] then d.rels.drop 1 else d.rels) (if lost = true then d.rels.drop 1 else d.rels)
        (filterWrite p0 f keysN keysW keysR box bbox d.tags) := by
  obtain ⟨post, h1, h2, h3⟩ := filterWrite_eq p0 f keysN keysW keysR box bbox d hd
  rw [h3]
  clear h3
  have hinv := relState_inv f keysR (seenRels d.ways d.rels)
  generalize hst : relState f keysR (seenRels d.ways d.rels) = st at *
  generalize hbx : box (boxReport bbox d.nodes) = inBox at *
  generalize hq : (fun x => keepWay f st.wayRels st.flat inBox (readWay keysW x)) = q at *
  have hz1 : ∀ x ∈ seenRels d.ways d.rels, x.id ≠ 0 :=
    fun x hx => hd.rels.nz _ (List.mem_map.2 ⟨x, seen_sub _ _ x hx, rfl⟩)
  have mw : ∀ i, Member st.wayRels st.flat i ↔ LiftsWay f (readRel keysR) (seenRels d.ways d.rels) i := fun i =>
    (member_aux (sel := fun r => r.ways.map (·.1)) hinv.flat hinv.ways i).trans
      (lifts_aux hf keysR _ hz1 (fun r => r.ways) (fun _ _ => rfl) i)
  have mn : ∀ i, Member st.nodeRels st.flat i ↔ LiftsNode f (readRel keysR) (seenRels d.ways d.rels) i := fun i =>
    (member_aux (sel := fun r => r.nodes.map (·.1)) hinv.flat hinv.nodes i).trans
      (lifts_aux hf keysR _ hz1 (fun r => r.nodes) (fun _ _ => rfl) i)
  have hlast := any_last q d.ways post h1 h2
  generalize hu : ((d.ways.filter q).flatMap fun x => kidRefs x.kids) = used
  have hused : ∀ i, used.contains i = true ↔ ∃ w ∈ (d.ways.filter q).map (readWay keysW), i ∈ w.nodes := by
    intro i
    rw [← hu, List.contains_iff_mem, List.mem_flatMap]
    constructor
    · rintro ⟨x, hx, hi⟩
      exact ⟨readWay keysW x, List.mem_map.2 ⟨x, hx, rfl⟩, hi⟩
    · rintro ⟨w, hw, hi⟩
      obtain ⟨x, hx, rfl⟩ := List.mem_map.1 hw
      exact ⟨x, hx, hi⟩
  generalize hqn : (fun x : DNode P => keepNode f (fun i => used.contains i) (fun _ => false) st.nodeRels st.flat inBox
    (readNod keysN x)) = qn
  have hways : ∀ i, ((d.ways.filter q).map (·.id)).contains i = true ↔ ∃ w ∈ (d.ways.filter q).map (readWay keysW), w.id = i := by
    intro i
    rw [List.contains_iff_mem, List.mem_map]
    constructor
    · rintro ⟨x, hx, hi⟩
      exact ⟨readWay keysW x, List.mem_map.2 ⟨x, hx, rfl⟩, hi⟩
    · rintro ⟨w, hw, hi⟩
      obtain ⟨x, hx, rfl⟩ := List.mem_map.1 hw
      exact ⟨x, hx, hi⟩
  have hnodes : ∀ i, (used ++ (d.nodes.filter qn).map (·.id)).contains i = true ↔
      (∃ n ∈ (d.nodes.filter qn).map (readNod keysN), n.id = i) ∨ ∃ w ∈ (d.ways.filter q).map (readWay keysW), i ∈ w.nodes := by
    intro i
    rw [← hused, List.contains_iff_mem, List.contains_iff_mem, List.mem_append, or_comm]
    apply or_congr _ Iff.rfl
    rw [List.mem_map]
    constructor
    · rintro ⟨x, hx, hi⟩
      exact ⟨readNod keysN x, List.mem_map.2 ⟨x, hx, rfl⟩, hi⟩
    · rintro ⟨w, hw, hi⟩
      obtain ⟨x, hx, rfl⟩ := List.mem_map.1 hw
      exact ⟨x, hx, hi⟩
  refine ⟨readRel keysR, decide (post = []), readRel_spec keysR, ?_, ?_, ?_, ?_⟩
  · rw [decide_eq_true_eq, hlast]
    apply or_congr Iff.rfl
    constructor
    · rintro ⟨x, hx, hqx⟩
      exact ⟨x, readWay keysW x, hx, List.mem_map.2 ⟨x, List.mem_filter.2 ⟨List.mem_of_getLast? hx, hqx⟩, rfl⟩, rfl⟩
    · rintro ⟨x, w, hx, hw, hid⟩
      obtain ⟨y, hy, rfl⟩ := List.mem_map.1 hw
      obtain ⟨hy1, hy2⟩ := List.mem_filter.1 hy
      have hinj : y = x := by
        have hxm := List.mem_of_getLast? hx
        exact inj_of_nodup_map (·.id) hd.ways.nodup hy1 hxm hid
      exact ⟨x, hx, hinj ▸ hy2⟩
  · refine ⟨q, readWay keysW, readWay_spec keysW, ?_, rfl⟩
    intro x hx
    rw [← hq]
    simp only
    rw [keepWay_iff hf]
    have hz := hd.ways.nz _ (List.mem_map.2 ⟨x, hx, rfl⟩)
    constructor
    · rintro ⟨_, h⟩
      exact ⟨h.two, h.why.imp (mw _).1 id, h.nodrop, h.inbox⟩
    · intro h
      exact ⟨hz, h.two, h.why.imp (mw _).2 id, h.nodrop, h.inbox⟩
  · refine ⟨qn, readNod keysN, readNod_spec keysN, ?_, rfl⟩
    intro x hx
    rw [← hqn]
    simp only
    rw [keepNode_iff hf]
    have hz := hd.nodes.nz _ (List.mem_map.2 ⟨x, hx, rfl⟩)
    have hu' := hused x.id
    constructor
    · rintro ⟨_, h⟩
      by_cases hc : used.contains x.id = true
      · exact Or.inl (hu'.1 hc)
      · refine Or.inr ⟨?_, ?_, ?_⟩
        · rcases h.why with h | h | h | h
          · exact absurd h hc
          · cases h
          · exact Or.inl ((mn _).1 h)
          · exact Or.inr h
        · exact h.inbox.resolve_left hc
        · rcases h.nodrop with h | h | h
          · exact absurd h hc
          · cases h
          · exact h
    · rintro (h | ⟨h1, h2, h3⟩)
      · have := hu'.2 h
        exact ⟨hz, Or.inl this, Or.inl this, Or.inl this⟩
      · refine ⟨hz, ?_, Or.inr h2, Or.inr (Or.inr h3)⟩
        rcases h1 with h | h
        · exact Or.inr (Or.inr (Or.inl ((mn _).2 h)))
        · exact Or.inr (Or.inr (Or.inr h))
  · refine ⟨fun x => (keepRel f (readRel keysR x)).bind
      (writeRel ((d.ways.filter q).map (·.id)) (used ++ (d.nodes.filter qn).map (·.id))), ?_, ?_, ?_⟩
    · simp only [decide_eq_true_eq]
      rw [← List.filterMap_filterMap]
      rfl
    · intro x hx r hr
      obtain ⟨r', hr', hw⟩ := Option.bind_eq_some_iff.1 hr
      obtain ⟨_, hwant, rfl⟩ := (keepRel_iff hf _ _).1 hr'
      refine ⟨hwant, ?_⟩
      unfold writeRel at hw
      simp only at hw
      split at hw
      · rename_i hne
        cases hw
        have hs := readRel_spec keysR x
        exact ⟨⟨rfl, ⟨_, hways, rfl⟩, ⟨_, hnodes, rfl⟩, hs.wf, hs.attrs⟩, hne.symm⟩
      · cases hw
    · intro x hx hg hwant
      have hz : (readRel keysR x).id ≠ 0 := by
        apply hd.rels.nz
        refine List.mem_map.2 ⟨x, ?_, rfl⟩
        split at hx
        · exact List.mem_of_mem_drop hx
        · exact hx
      simp only [(keepRel_iff hf _ _).2 ⟨hz, hwant, rfl⟩, Option.bind_some] at hg
      unfold writeRel at hg
      simp only at hg
      split at hg
      · cases hg
      · rename_i hne
        simp only [not_or, ne_eq, Classical.not_not] at hne
        obtain ⟨hn, hw⟩ := hne
        constructor
        · intro m hm hex
          have := List.filter_eq_nil_iff.1 hw m hm
          exact this ((hways m.1).2 hex)
        · intro m hm hex
          have := List.filter_eq_nil_iff.1 hn m hm
          exact this ((hnodes m.1).2 hex)

/-- C31. Nothing that a written way refers to is missing: the nodes of a written way that the
document has are written. The members of a written relation are written ways, and nodes that are
written or that the document does not have. -/
theorem C31_closed {f : Flt} (hf : f.Ok) (p0 : P) (keysN keysW keysR : List Str) (box : List BoxOp → Nat → Bool)
    (bbox : P → Bool) (d : Doc P) (hd : d.Ok) (o : Out P) (ho : o = filterWrite p0 f keysN keysW keysR box bbox d.tags) :
    (∀ w ∈ o.ways, ∀ i ∈ w.nodes, (∃ x ∈ d.nodes, x.id = i) → ∃ n ∈ o.nodes, n.id = i) ∧
    (∀ r ∈ o.rels, ∀ m ∈ r.ways, ∃ w ∈ o.ways, w.id = m.1) ∧
    (∀ r ∈ o.rels, ∀ m ∈ r.nodes, (∃ x ∈ d.nodes, x.id = m.1) → ∃ n ∈ o.nodes, n.id = m.1) := by
  obtain ⟨br, lost, _, _, hF⟩ := C31_written_partial hf p0 keysN keysW keysR box bbox d hd
  rw [← ho] at hF
  have h1 : ∀ w ∈ o.ways, ∀ i ∈ w.nodes, (∃ x ∈ d.nodes, x.id = i) → ∃ n ∈ o.nodes, n.id = i := by
    rintro w hw i hi ⟨x, hx, rfl⟩
    obtain ⟨q, b, hb, hq, hn⟩ := hF.nodes
    have hid := (hb x).id
    refine ⟨b x, ?_, hid⟩
    rw [hn]
    refine List.mem_map.2 ⟨x, List.mem_filter.2 ⟨hx, (hq x hx).2 (Or.inl ⟨w, hw, ?_⟩)⟩, rfl⟩
    rw [hid]; exact hi
  obtain ⟨g, hg, hsome, _⟩ := hF.rels
  have h2 : ∀ r ∈ o.rels, ∃ x : DElem P, RelWritten keysR (fun i => ∃ w ∈ o.ways, w.id = i)
      (fun i => (∃ n ∈ o.nodes, n.id = i) ∨ ∃ w ∈ o.ways, i ∈ w.nodes) x r := by
    intro r hr
    rw [hg] at hr
    obtain ⟨x, hx, hxr⟩ := List.mem_filterMap.1 hr
    exact ⟨x, (hsome x hx r hxr).2.1⟩
  refine ⟨h1, ?_, ?_⟩
  · intro r hr m hm
    obtain ⟨x, hx⟩ := h2 r hr
    obtain ⟨c, hc, he⟩ := hx.ways
    rw [he] at hm
    exact (hc m.1).1 (List.mem_filter.1 hm).2
  · intro r hr m hm hex
    obtain ⟨x, hx⟩ := h2 r hr
    obtain ⟨c, hc, he⟩ := hx.nodes
    rw [he] at hm
    rcases (hc m.1).1 (List.mem_filter.1 hm).2 with h | ⟨w, hw, hi⟩
    · exact h
    · exact h1 w hw _ hi hex

/-- C31. Ways, nodes and relations are written in the order of the document, each at most once. -/
theorem C31_order {f : Flt} (hf : f.Ok) (p0 : P) (keysN keysW keysR : List Str) (box : List BoxOp → Nat → Bool)
    (bbox : P → Bool) (d : Doc P) (hd : d.Ok) (o : Out P) (ho : o = filterWrite p0 f keysN keysW keysR box bbox d.tags) :
    (o.nodes.map (·.id)).Sublist (d.nodes.map (·.id)) ∧ (o.ways.map (·.id)).Sublist (d.ways.map (·.id)) ∧
      (o.rels.map (·.id)).Sublist (d.rels.map (·.id)) := by
  obtain ⟨br, lost, _, _, hF⟩ := C31_written_partial hf p0 keysN keysW keysR box bbox d hd
  rw [← ho] at hF
  refine ⟨?_, ?_, ?_⟩
  · obtain ⟨q, b, hb, _, hn⟩ := hF.nodes
    rw [hn, List.map_map, show ((fun x : Nod P => x.id) ∘ b) = fun x => x.id from funext fun x => (hb x).id]
    exact (List.filter_sublist).map _
  · obtain ⟨q, b, hb, _, hn⟩ := hF.ways
    rw [hn, List.map_map, show ((fun x : Way => x.id) ∘ b) = fun x => x.id from funext fun x => (hb x).id]
    exact (List.filter_sublist).map _
  · obtain ⟨g, hg, hsome, hnone⟩ := hF.rels
    clear hF hnone
    rw [hg]
    have hsub : (if lost = true then d.rels.drop 1 else d.rels).Sublist d.rels := by
      split
      · exact List.drop_sublist _ _
      · exact List.Sublist.refl _
    refine List.Sublist.trans ?_ (hsub.map _)
    generalize (if lost = true then d.rels.drop 1 else d.rels) = l at *
    clear hsub hg
    induction l with
    | nil => simp
    | cons x l ih =>
      have hi := ih (fun y hy => hsome y (by simp [hy]))
      rw [List.filterMap_cons]
      cases hgx : g x with
      | none => exact hi.cons _
      | some r =>
        simp only [List.map_cons]
        have := (hsome x (by simp) r hgx).2.1.id
        rw [this]
        exact hi.cons_cons _

/-! ### a document -/

def kHw : Str := [1]
def vHw : Str := [2]
def kType : Str := [3]
def vRoute : Str := [4]
def exFlt : Flt := ⟨[(kHw, [(vHw, 1)]), (kType, [(vRoute, 1)])], [], id⟩
def exBox (ops : List BoxOp) (i : Nat) : Bool := ops.contains (.add i)
def exIn (p : Nat) : Bool := decide (p < 10)

/-- Three nodes (the third outside the box), a way over 1, 3 and the missing node 9, a way that is
not wanted, two relations. -/
def exDoc (second : List (DElem Nat)) : Doc Nat where
  header := [⟨0, .other⟩, ⟨1, .other⟩, ⟨2, .other⟩]
  nodes := [⟨1, 5, []⟩, ⟨2, 6, [⟨3, .tag kHw kHw⟩]⟩, ⟨3, 50, []⟩]
  ways := [⟨1, [⟨3, .nd 1⟩, ⟨3, .nd 3⟩, ⟨3, .nd 9⟩, ⟨3, .tag kHw vHw⟩, ⟨3, .tag kType kType⟩]⟩] ++ second
  rels := [⟨1, [⟨3, .member .way 1 []⟩, ⟨3, .member .way 2 []⟩, ⟨3, .member .node 9 []⟩, ⟨3, .tag kType vRoute⟩]⟩,
    ⟨2, [⟨3, .member .way 1 []⟩, ⟨3, .tag kType vRoute⟩]⟩]

def exWay2 : List (DElem Nat) := [⟨2, [⟨3, .nd 1⟩, ⟨3, .tag kHw vHw⟩]⟩]

def exOut (second : List (DElem Nat)) : Out Nat :=
  filterWrite 0 exFlt [kHw] [kHw] [kType] exBox exIn (exDoc second).tags

theorem exFlt_ok : exFlt.Ok := by
  refine ⟨?_, ?_, fun a x => Iff.rfl⟩
  · intro k vals h r hr
    have := FMap.mem_of_get h
    simp [exFlt] at this
    rcases this with ⟨_, rfl⟩ | ⟨_, rfl⟩ <;> simp at hr <;> simp [hr]
  · intro k vals h
    cases h

theorem exDoc_ok (second : List (DElem Nat)) (h : second = [] ∨ second = exWay2) : (exDoc second).Ok := by
  refine ⟨⟨_, _, rfl, by simp [isNode]⟩, by simp [exDoc], ?_, ?_, ?_, ?_, ?_⟩
  · exact ⟨by simp [exDoc], by simp [exDoc], by simp [exDoc]⟩
  · rcases h with rfl | rfl <;> exact ⟨by simp [exDoc, exWay2], by simp [exDoc, exWay2], by simp [exDoc, exWay2]⟩
  · exact ⟨by simp [exDoc], by simp [exDoc], by simp [exDoc]⟩
  · rcases h with rfl | rfl <;> simp [exDoc, exWay2, Plain, isNode, isWay, isRel]
  · simp [exDoc, Plain, isNode, isWay, isRel]

/-- The hypotheses of `C31_written_partial`, `C31_closed`, `C31_order` hold for the document, and something is written:
node 3 although it is outside the box, node 2 not, the way without its attribute `type`; both relations if another way
follows that is not written. -/
example : exFlt.Ok ∧ (exDoc exWay2).Ok ∧ ((exOut exWay2).nodes.map fun n => (n.id, n.pos)) = [(1, 5), (3, 50)] ∧
    (exOut exWay2).ways = [⟨1, [1, 3, 9], [(kHw, vHw)]⟩] ∧
    (exOut exWay2).rels = [⟨1, [(9, [])], [(1, [])], [(kType, vRoute)], 1⟩, ⟨2, [], [(1, [])], [(kType, vRoute)], 1⟩] :=
  ⟨exFlt_ok, exDoc_ok _ (Or.inr rfl), by decide +kernel, by decide +kernel, by decide +kernel⟩

/-- The hypotheses of `C32_ways`, `C32_nodes`, `C32_rels` hold for the sections of the document, and some
elements are read, some are not. -/
example : Proper ((exDoc exWay2).ways.map (·.id)) ((exDoc exWay2).ways.map (·.kids)) ∧
    Stops isWay (flat ((exDoc exWay2).rels.map DElem.rel)) ∧
    (readAll (nextWay [kHw] (keepWay exFlt [] [] fun i => i == 3))
      (flat ((exDoc exWay2).ways.map DElem.way) ++ flat ((exDoc exWay2).rels.map DElem.rel))).1 =
      [⟨1, [1, 3, 9], [(kHw, vHw)]⟩] ∧
    Proper ((exDoc exWay2).nodes.map (·.id)) ((exDoc exWay2).nodes.map (·.kids)) ∧
    Stops isNode (flat ((exDoc exWay2).ways.map DElem.way)) ∧
    ((readAll (nextNode 0 [kHw] (keepNode exFlt (fun i => i == 2) (fun _ => false) [] [] fun _ => true))
      (flat ((exDoc exWay2).nodes.map DNode.el) ++ flat ((exDoc exWay2).ways.map DElem.way))).1.map
        fun n => (n.id, n.pos, n.attrs)) = [(2, 6, [(kHw, kHw)])] ∧
    Proper ((exDoc exWay2).rels.map (·.id)) ((exDoc exWay2).rels.map (·.kids)) ∧
    (readAll (nextRel [kType] exFlt) (flat ((exDoc exWay2).rels.map DElem.rel) ++ [])).1 =
      [⟨1, [(9, [])], [(1, []), (2, [])], [(kType, vRoute)], 1⟩, ⟨2, [], [(1, [])], [(kType, vRoute)], 1⟩] :=
  ⟨(exDoc_ok _ (Or.inr rfl)).ways, ⟨Or.inl rfl, rfl⟩, by decide +kernel, (exDoc_ok _ (Or.inr rfl)).nodes,
    ⟨Or.inl rfl, rfl⟩, by decide +kernel, (exDoc_ok _ (Or.inr rfl)).rels, by decide +kernel⟩

/-- C31, negation. If the last way of the file is written, the first relation is lost: the relation
with id 1 is wanted and its member, way 1, is written, but the relation is not. -/
theorem C31_negation : (exDoc []).Ok ∧ exFlt.Ok ∧ (∃ w ∈ (exOut []).ways, w.id = 1) ∧
    (∃ x ∈ (exDoc []).rels, x.id = 1 ∧ (1, []) ∈ kidMembers .way x.kids ∧ ∃ r, ReadsRel [kType] x r ∧ RelWanted exFlt r) ∧
    ¬ ∃ r ∈ (exOut []).rels, r.id = 1 := by
  refine ⟨exDoc_ok _ (Or.inl rfl), exFlt_ok, ?_, ?_, ?_⟩
  · rw [show (exOut []).ways = [⟨1, [1, 3, 9], [(kHw, vHw)]⟩] by decide +kernel]
    exact ⟨_, List.mem_cons_self, rfl⟩
  · refine ⟨_, List.mem_cons_self, rfl, by decide +kernel, _, readRel_spec _ _, ?_, ?_⟩
    · exact (contained_iff exFlt_ok.keep _ _).1 (by decide +kernel)
    · rintro ⟨kv, _, vals, hv, _⟩
      cases hv
  · rw [show (exOut []).rels = [⟨2, [], [(1, [])], [(kType, vRoute)], 1⟩] by decide +kernel]
    simp

end Verif.Osm
