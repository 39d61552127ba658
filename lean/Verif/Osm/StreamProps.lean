import Verif.Osm.StreamLemmas
import Verif.Osm.FilterProps

/-!
# Streaming OSM readers (properties)

C32: reading nodes, ways and relations yields exactly the elements of the section that satisfy the
filter. C31: the file written by the filter.
-/

set_option linter.unusedSectionVars false

namespace Verif.Osm
open Verif.Names (Str)

variable {P : Type}

/-- The section ends here: end of the file, or another kind of element. -/
def Stops (ok : Tag P → Bool) : List (Ev P) → Prop
  | [] => True
  | e :: _ => (e.level = 2 ∨ e.level = 0) ∧ ok e.tag = false

def isNode : Tag P → Bool
  | .node _ _ => true
  | _ => false
def isWay : Tag P → Bool
  | .way _ => true
  | _ => false
def isRel : Tag P → Bool
  | .rel _ => true
  | _ => false

/-- A way (node) belongs to a relation that is not flat. -/
def Member (rels : FMap Nat (List Nat)) (flat : List Nat) (id : Nat) : Prop :=
  ∃ l, rels.get id = some l ∧ ∃ r ∈ l, r ∉ flat

theorem relKeep_iff (rels : FMap Nat (List Nat)) (flat : List Nat) (id : Nat) :
    relKeep id rels flat = true ↔ Member rels flat id := by
  unfold relKeep Member
  cases rels.get id with
  | none => simp
  | some l => simp

/-- The conditions for a way. -/
structure WayWanted (f : Flt) (wayRels : FMap Nat (List Nat)) (flat : List Nat) (box : Nat → Bool) (w : Way) : Prop where
  two : 2 ≤ w.nodes.length
  why : Member wayRels flat w.id ∨ Hits f.keep WAY w.attrs
  nodrop : ¬ Hits f.drop WAY w.attrs
  inbox : ∃ n ∈ w.nodes, box n = true

/-- The conditions for a node; `known` are the ids that are used. -/
structure NodeWanted (f : Flt) (known mult : Nat → Bool) (nodeRels : FMap Nat (List Nat)) (flat : List Nat)
    (box : Nat → Bool) (n : Nod P) : Prop where
  why : known n.id = true ∨ mult n.id = true ∨ Member nodeRels flat n.id ∨ Hits f.keep NODE n.attrs
  inbox : known n.id = true ∨ box n.id = true
  nodrop : known n.id = true ∨ mult n.id = true ∨ ¬ Hits f.drop NODE n.attrs

/-- The conditions for a relation. -/
structure RelWanted (f : Flt) (r : Rel) : Prop where
  keep : Hits f.keep REL r.attrs
  nodrop : ¬ Hits f.drop REL r.attrs

/-- Rules as the configuration reader makes them; running through the attributes meets exactly them. -/
structure Flt.Ok (f : Flt) : Prop where
  keep : Flagged f.keep
  drop : Flagged f.drop
  ord : ∀ a x, x ∈ f.ord a ↔ x ∈ a

theorem keepWay_iff {f : Flt} (hf : f.Ok) (wayRels : FMap Nat (List Nat)) (flat : List Nat) (box : Nat → Bool) (w : Way) :
    keepWay f wayRels flat box w = true ↔ w.id ≠ 0 ∧ WayWanted f wayRels flat box w := by
  simp only [keepWay, Bool.and_eq_true, Bool.or_eq_true, bne_iff_ne, decide_eq_true_eq, Bool.not_eq_true',
    List.any_eq_true, relKeep_iff]
  rw [show (contained f.drop WAY w.attrs != 0) = false ↔ ¬ contained f.drop WAY w.attrs ≠ 0 from by simp,
    contained_iff hf.drop, contained_iff hf.keep]
  constructor
  · rintro ⟨⟨⟨⟨h1, h2⟩, h3⟩, h4⟩, h5⟩
    exact ⟨h1, by omega, h3, h4, h5⟩
  · rintro ⟨h1, h2, h3, h4, h5⟩
    exact ⟨⟨⟨⟨h1, by omega⟩, h3⟩, h4⟩, h5⟩

theorem keepNode_iff {f : Flt} (hf : f.Ok) (known mult : Nat → Bool) (nodeRels : FMap Nat (List Nat)) (flat : List Nat)
    (box : Nat → Bool) (n : Nod P) :
    keepNode f known mult nodeRels flat box n = true ↔ n.id ≠ 0 ∧ NodeWanted f known mult nodeRels flat box n := by
  simp only [keepNode, Bool.and_eq_true, Bool.or_eq_true, bne_iff_ne, Bool.not_eq_true', relKeep_iff]
  rw [show (contained f.drop NODE n.attrs != 0) = false ↔ ¬ contained f.drop NODE n.attrs ≠ 0 from by simp,
    contained_iff hf.drop, contained_iff hf.keep]
  constructor
  · rintro ⟨⟨⟨h1, h2⟩, h3⟩, h4⟩
    exact ⟨h1, by simpa [or_assoc] using h2, h3, by simpa [or_assoc] using h4⟩
  · rintro ⟨h1, h2, h3, h4⟩
    exact ⟨⟨⟨h1, by simpa [or_assoc] using h2⟩, h3⟩, by simpa [or_assoc] using h4⟩

theorem keepRel_iff {f : Flt} (hf : f.Ok) (r r' : Rel) :
    keepRel f r = some r' ↔ r.id ≠ 0 ∧ RelWanted f r ∧ r' = { r with keepFlags := contained f.keep REL (f.ord r.attrs) } := by
  unfold keepRel
  have hd := contained_iff hf.drop REL r.attrs
  have hkp := contained_iff hf.keep REL r.attrs
  have hne : Hits f.keep REL r.attrs → r.attrs ≠ [] := by
    rintro ⟨kv, hkv, _⟩ h
    rw [h] at hkv; cases hkv
  constructor
  · intro h
    split at h
    · rename_i hc
      cases h
      exact ⟨hc.1, ⟨hkp.1 hc.2.2.1, fun h => hc.2.2.2 (hd.2 h)⟩, rfl⟩
    · cases h
  · rintro ⟨h1, ⟨h2, h3⟩, rfl⟩
    rw [if_pos ⟨h1, hne h2, hkp.2 h2, fun h => h3 (hd.1 h)⟩]

/-! ### what is read -/

def readWay (keys : List Str) (x : DElem P) : Way := ⟨x.id, kidRefs x.kids, attrsOf keys x.kids []⟩
def readNod (keys : List Str) (x : DNode P) : Nod P := ⟨x.id, x.pos, attrsOf keys x.kids []⟩
def readRel (keys : List Str) (x : DElem P) : Rel :=
  ⟨x.id, kidMembers .node x.kids, kidMembers .way x.kids, attrsOf keys x.kids [], 0⟩

theorem get_attrsOf_nil (keys : List Str) (kids : List (Ev P)) (k : Str) :
    FMap.get (attrsOf keys kids []) k = kidVal keys kids k := by
  rw [get_attrsOf]
  simp [kidVal, FMap.get_nil]

theorem readWay_spec (keys : List Str) (x : DElem P) : ReadsWay keys x (readWay keys x) :=
  ⟨rfl, rfl, attrsOf_wf _ _ _ FMap.WF.nil, get_attrsOf_nil _ _⟩
theorem readNod_spec (keys : List Str) (x : DNode P) : ReadsNode keys x (readNod keys x) :=
  ⟨rfl, rfl, attrsOf_wf _ _ _ FMap.WF.nil, get_attrsOf_nil _ _⟩
theorem readRel_spec (keys : List Str) (x : DElem P) : ReadsRel keys x (readRel keys x) :=
  ⟨rfl, rfl, rfl, attrsOf_wf _ _ _ FMap.WF.nil, get_attrsOf_nil _ _⟩

theorem build_way (keys : List Str) (x : DElem P) (h : x.id ≠ 0) :
    buildWith wayStart (wayChild keys) way0 x.way = readWay keys x := by
  have := foldl_way keys x.kids ⟨x.id, [], []⟩ h
  simpa [buildWith, DElem.way, wayStart, readWay] using this
theorem build_nod (p0 : P) (keys : List Str) (x : DNode P) (h : x.id ≠ 0) :
    buildWith nodStart (nodChild keys) (nod0 p0) x.el = readNod keys x := by
  have := foldl_nod keys x.kids ⟨x.id, x.pos, []⟩ h
  simpa [buildWith, DNode.el, nodStart, readNod] using this
theorem build_rel (keys : List Str) (x : DElem P) (h : x.id ≠ 0) :
    buildWith relStart (relChild keys) rel0 x.rel = readRel keys x := by
  have := foldl_rel keys x.kids ⟨x.id, [], [], [], 0⟩ h
  simpa [buildWith, DElem.rel, relStart, readRel] using this

theorem stops_way {rest : List (Ev P)} (h : Stops isWay rest) : EndsAt wayStart rest := by
  cases rest with
  | nil => trivial
  | cons e r =>
    obtain ⟨lv, t⟩ := e
    refine ⟨h.1, ?_⟩
    have := h.2
    cases t <;> simp_all [isWay, wayStart]
theorem stops_node {rest : List (Ev P)} (h : Stops isNode rest) : EndsAt nodStart rest := by
  cases rest with
  | nil => trivial
  | cons e r =>
    obtain ⟨lv, t⟩ := e
    refine ⟨h.1, ?_⟩
    have := h.2
    cases t <;> simp_all [isNode, nodStart]
theorem stops_rel {rest : List (Ev P)} (h : Stops isRel rest) : EndsAt relStart rest := by
  cases rest with
  | nil => trivial
  | cons e r =>
    obtain ⟨lv, t⟩ := e
    refine ⟨h.1, ?_⟩
    have := h.2
    cases t <;> simp_all [isRel, relStart]

theorem filterMap_map_congr {A B C : Type} (l : List A) (g : A → B) (F : B → Option C) (G : A → Option C)
    (h : ∀ x ∈ l, F (g x) = G x) : (l.map g).filterMap F = l.filterMap G := by
  induction l with
  | nil => rfl
  | cons x l ih =>
    simp only [List.map_cons, List.filterMap_cons, h x (by simp), ih (fun y hy => h y (by simp [hy]))]

theorem guard'_filter {A W : Type} (l : List A) (g : A → W) (b : W → Bool) :
    l.filterMap (fun x => guard' b (g x)) = (l.map g).filter b := by
  induction l with
  | nil => rfl
  | cons x l ih =>
    simp only [List.filterMap_cons, List.map_cons, List.filter_cons, guard', ih.symm]
    cases b (g x) <;> simp

theorem ways_section (keys : List Str) (keep : Way → Bool) (hk : ∀ w, keep w = true → w.id ≠ 0) (ways : List (DElem P))
    (hp : Proper (ways.map (·.id)) (ways.map (·.kids))) (rest : List (Ev P)) (hr : Stops isWay rest) :
    readAll (nextWay keys keep) (flat (ways.map DElem.way) ++ rest) = ((ways.map (readWay keys)).filter keep, rest) := by
  have h0 : guard' keep way0 = none := by
    simp only [guard']
    cases h : keep way0 with
    | false => rfl
    | true => exact absurd rfl (hk way0 h)
  have := readAll_flat (P := P) wayStart (wayChild keys) (guard' keep) way0 h0 rest (stops_way hr) (ways.map DElem.way)
    (by intro x hx; obtain ⟨y, hy, rfl⟩ := List.mem_map.1 hx
        exact hp.nested y.kids (List.mem_map.2 ⟨y, hy, rfl⟩))
    (by intro x hx; obtain ⟨y, hy, rfl⟩ := List.mem_map.1 hx; rfl)
  rw [show nextWay (P := P) keys keep = (fun l => nextGo wayStart (wayChild keys) (guard' keep) l way0) from rfl, this,
    filterMap_map_congr _ _ _ (fun x => guard' keep (readWay keys x)), guard'_filter]
  intro x hx
  rw [build_way keys x (hp.nz _ (List.mem_map.2 ⟨x, hx, rfl⟩))]

theorem nodes_section (p0 : P) (keys : List Str) (keep : Nod P → Bool) (hk : ∀ w, keep w = true → w.id ≠ 0)
    (nodes : List (DNode P)) (hp : Proper (nodes.map (·.id)) (nodes.map (·.kids))) (rest : List (Ev P))
    (hr : Stops isNode rest) :
    readAll (nextNode p0 keys keep) (flat (nodes.map DNode.el) ++ rest) = ((nodes.map (readNod keys)).filter keep, rest) := by
  have h0 : guard' keep (nod0 p0) = none := by
    simp only [guard']
    cases h : keep (nod0 p0) with
    | false => rfl
    | true => exact absurd rfl (hk (nod0 p0) h)
  have := readAll_flat (P := P) nodStart (nodChild keys) (guard' keep) (nod0 p0) h0 rest (stops_node hr) (nodes.map DNode.el)
    (by intro x hx; obtain ⟨y, hy, rfl⟩ := List.mem_map.1 hx
        exact hp.nested y.kids (List.mem_map.2 ⟨y, hy, rfl⟩))
    (by intro x hx; obtain ⟨y, hy, rfl⟩ := List.mem_map.1 hx; rfl)
  rw [show nextNode (P := P) p0 keys keep = (fun l => nextGo nodStart (nodChild keys) (guard' keep) l (nod0 p0)) from rfl,
    this, filterMap_map_congr _ _ _ (fun x => guard' keep (readNod keys x)), guard'_filter]
  intro x hx
  rw [build_nod p0 keys x (hp.nz _ (List.mem_map.2 ⟨x, hx, rfl⟩))]

theorem rels_section (keys : List Str) (f : Flt) (rels : List (DElem P))
    (hp : Proper (rels.map (·.id)) (rels.map (·.kids))) (rest : List (Ev P)) (hr : Stops isRel rest) :
    readAll (nextRel keys f) (flat (rels.map DElem.rel) ++ rest) = (rels.filterMap (fun x => keepRel f (readRel keys x)), rest) := by
  have h0 : keepRel f rel0 = none := by simp [keepRel, rel0]
  have := readAll_flat (P := P) relStart (relChild keys) (keepRel f) rel0 h0 rest (stops_rel hr) (rels.map DElem.rel)
    (by intro x hx; obtain ⟨y, hy, rfl⟩ := List.mem_map.1 hx
        exact hp.nested y.kids (List.mem_map.2 ⟨y, hy, rfl⟩))
    (by intro x hx; obtain ⟨y, hy, rfl⟩ := List.mem_map.1 hx; rfl)
  rw [show nextRel (P := P) keys f = (fun l => nextGo relStart (relChild keys) (keepRel f) l rel0) from rfl,
    this, filterMap_map_congr _ _ _ (fun x => keepRel f (readRel keys x))]
  intro x hx
  rw [build_rel keys x (hp.nz _ (List.mem_map.2 ⟨x, hx, rfl⟩))]

/-! ### C32 -/

/-- C32, ways. There is one way per element of the section, with exactly the element's own nodes
and attributes, and reading yields those that are wanted, in order, and stops at the end of the
section. -/
theorem C32_ways {f : Flt} (hf : f.Ok) (keys : List Str) (wayRels : FMap Nat (List Nat)) (fl : List Nat) (box : Nat → Bool)
    (ways : List (DElem P)) (hp : Proper (ways.map (·.id)) (ways.map (·.kids))) (rest : List (Ev P)) (hr : Stops isWay rest) :
    ∃ (b : DElem P → Way) (q : Way → Bool), (∀ x, ReadsWay keys x (b x)) ∧
      (∀ x ∈ ways, q (b x) = true ↔ WayWanted f wayRels fl box (b x)) ∧
      readAll (nextWay keys (keepWay f wayRels fl box)) (flat (ways.map DElem.way) ++ rest) = ((ways.map b).filter q, rest) := by
  refine ⟨readWay keys, keepWay f wayRels fl box, readWay_spec keys, ?_,
    ways_section keys _ (fun w h => ((keepWay_iff hf _ _ _ w).1 h).1) ways hp rest hr⟩
  intro x hx
  rw [keepWay_iff hf]
  exact ⟨fun h => h.2, fun h => ⟨hp.nz _ (List.mem_map.2 ⟨x, hx, rfl⟩), h⟩⟩

/-- C32, nodes. -/
theorem C32_nodes {f : Flt} (hf : f.Ok) (p0 : P) (keys : List Str) (known mult : Nat → Bool)
    (nodeRels : FMap Nat (List Nat)) (fl : List Nat) (box : Nat → Bool) (nodes : List (DNode P))
    (hp : Proper (nodes.map (·.id)) (nodes.map (·.kids))) (rest : List (Ev P)) (hr : Stops isNode rest) :
    ∃ (b : DNode P → Nod P) (q : Nod P → Bool), (∀ x, ReadsNode keys x (b x)) ∧
      (∀ x ∈ nodes, q (b x) = true ↔ NodeWanted f known mult nodeRels fl box (b x)) ∧
      readAll (nextNode p0 keys (keepNode f known mult nodeRels fl box)) (flat (nodes.map DNode.el) ++ rest) =
        ((nodes.map b).filter q, rest) := by
  refine ⟨readNod keys, keepNode f known mult nodeRels fl box, readNod_spec keys, ?_,
    nodes_section p0 keys _ (fun w h => ((keepNode_iff hf _ _ _ _ _ w).1 h).1) nodes hp rest hr⟩
  intro x hx
  rw [keepNode_iff hf]
  exact ⟨fun h => h.2, fun h => ⟨hp.nz _ (List.mem_map.2 ⟨x, hx, rfl⟩), h⟩⟩

/-- C32, relations; `keepFlags` is the flag of the rules that are met. -/
theorem C32_rels {f : Flt} (hf : f.Ok) (keys : List Str) (rels : List (DElem P))
    (hp : Proper (rels.map (·.id)) (rels.map (·.kids))) (rest : List (Ev P)) (hr : Stops isRel rest) :
    ∃ (b : DElem P → Rel) (q : Rel → Bool), (∀ x, ReadsRel keys x (b x) ∧ (b x).keepFlags = contained f.keep REL (f.ord (b x).attrs)) ∧
      (∀ x ∈ rels, q (b x) = true ↔ RelWanted f (b x)) ∧
      readAll (nextRel keys f) (flat (rels.map DElem.rel) ++ rest) = ((rels.map b).filter q, rest) := by
  refine ⟨fun x => { readRel keys x with keepFlags := contained f.keep REL (f.ord (readRel keys x).attrs) },
    fun r => (keepRel f r).isSome, ?_, ?_, ?_⟩
  · intro x
    have := readRel_spec keys x
    exact ⟨⟨this.id, this.nodes, this.ways, this.wf, this.attrs⟩, rfl⟩
  · intro x hx
    rw [Option.isSome_iff_exists]
    constructor
    · rintro ⟨r', h⟩
      exact ((keepRel_iff hf _ _).1 h).2.1
    · intro h
      exact ⟨_, (keepRel_iff hf _ _).2 ⟨hp.nz _ (List.mem_map.2 ⟨x, hx, rfl⟩), h, rfl⟩⟩
  · rw [rels_section keys f rels hp rest hr]
    congr 1
    clear hp
    induction rels with
    | nil => rfl
    | cons x rels ih =>
      simp only [List.filterMap_cons, List.map_cons, List.filter_cons, ih]
      by_cases hc : (readRel keys x).id ≠ 0 ∧ (readRel keys x).attrs ≠ [] ∧
          contained f.keep REL (readRel keys x).attrs ≠ 0 ∧ ¬ contained f.drop REL (readRel keys x).attrs ≠ 0
      · have h1 : keepRel f (readRel keys x) =
            some { readRel keys x with keepFlags := contained f.keep REL (f.ord (readRel keys x).attrs) } := if_pos hc
        have h2 : (keepRel f { readRel keys x with keepFlags := contained f.keep REL (f.ord (readRel keys x).attrs) }).isSome = true := by
          rw [keepRel, if_pos hc]; rfl
        rw [h1, if_pos h2]
      · have h1 : keepRel f (readRel keys x) = none := if_neg hc
        have h2 : ¬ (keepRel f { readRel keys x with keepFlags := contained f.keep REL (f.ord (readRel keys x).attrs) }).isSome = true := by
          rw [keepRel, if_neg hc]; simp
        rw [h1, if_neg h2]

end Verif.Osm
