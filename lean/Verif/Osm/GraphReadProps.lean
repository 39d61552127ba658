import Verif.Osm.GraphRead
import Verif.Osm.FilterWriteProps

/-!
# Reading the graph from OSM data (properties)

C33: positions of graph nodes. C59: edges of the graph.
-/

set_option linter.unusedSectionVars false

namespace Verif.Osm
open Verif.Names (Str)

variable {P : Type}

/-- `own` lists for which OSM node the graph nodes have been created. -/
structure GInv (nohup box : Nat → Bool) (own : List Nat) (s : GSt P) : Prop where
  len : own.length = s.next
  nd : ∀ i g, s.nodes.get i = some g → own[g]? = some i ∧ nohup i = false ∧ box i = true
  mu : ∀ i l, s.multi.get i = some l → nohup i = true ∧ ∀ g ∈ l, own[g]? = some i
  all : ∀ (g : Nat) (i : Nat), own[g]? = some i → s.nodes.get i = some g ∨ ∃ l, s.multi.get i = some l ∧ g ∈ l

theorem ginv_init (nohup box : Nat → Bool) : GInv nohup box [] (GSt.init : GSt P) :=
  ⟨rfl, (fun _ _ h => by cases h), (fun _ _ h => by cases h), (fun _ _ h => by simp at h)⟩

theorem own_snoc {own : List Nat} {g i j : Nat} (h : own[g]? = some i) : (own ++ [j])[g]? = some i := by
  rw [List.getElem?_append_left]
  · exact h
  · exact (List.getElem?_eq_some_iff.1 h).1

theorem own_snoc_inv {own : List Nat} {g i j : Nat} (h : (own ++ [j])[g]? = some i) :
    own[g]? = some i ∨ (g = own.length ∧ i = j) := by
  rcases Nat.lt_trichotomy g own.length with hl | hl | hl
  · rw [List.getElem?_append_left hl] at h
    exact Or.inl h
  · subst hl
    simp at h
    exact Or.inr ⟨rfl, h.symm⟩
  · rw [List.getElem?_eq_none (by simp; omega)] at h
    cases h

/-- One reference: either it is skipped, or there is a graph node for it. -/
theorem ndFor_spec {nohup box : Nat → Bool} {own : List Nat} {s : GSt P} (h : GInv nohup box own s) (nid : Nat) :
    ∃ own', GInv nohup box own' (ndFor nohup box s nid).2 ∧ (∃ e, own' = own ++ e) ∧
      (ndFor nohup box s nid).2.edges = s.edges ∧ (ndFor nohup box s nid).2.geom = s.geom ∧
      (((nohup nid || box nid) = false ∧ (ndFor nohup box s nid).1 = none) ∨
        ((nohup nid || box nid) = true ∧ ∃ g, (ndFor nohup box s nid).1 = some g ∧ own'[g]? = some nid)) := by
  unfold ndFor
  by_cases hu : nohup nid = true
  · rw [if_pos hu]
    refine ⟨own ++ [nid], ⟨by simp [h.len], ?_, ?_, ?_⟩, ⟨_, rfl⟩, rfl, rfl, Or.inr ⟨by simp [hu], s.next, rfl, by simp [← h.len]⟩⟩
    · intro i g hg
      obtain ⟨h1, h2⟩ := h.nd i g hg
      exact ⟨own_snoc h1, h2⟩
    · intro i l hl
      simp only [pushTo, FMap.get_put] at hl
      split at hl
      · rename_i hi
        subst hi
        refine ⟨hu, ?_⟩
        cases hl
        intro g hg
        rcases List.mem_append.1 hg with hg | hg
        · cases hm : s.multi.get i with
          | none => rw [hm] at hg; cases hg
          | some l' => rw [hm] at hg; exact own_snoc ((h.mu i l' hm).2 g hg)
        · rw [List.mem_singleton] at hg
          subst hg
          simp [← h.len]
      · obtain ⟨h1, h2⟩ := h.mu i l hl
        exact ⟨h1, fun g hg => own_snoc (h2 g hg)⟩
    · intro g i hg
      simp only [pushTo, FMap.get_put]
      rcases own_snoc_inv hg with hg | ⟨rfl, rfl⟩
      · rcases h.all g i hg with h1 | ⟨l, h1, h2⟩
        · exact Or.inl h1
        · by_cases hi : i = nid
          · subst hi
            exact Or.inr ⟨_, by rw [if_pos rfl], by rw [h1]; simp [h2]⟩
          · exact Or.inr ⟨l, by rw [if_neg hi]; exact h1, h2⟩
      · exact Or.inr ⟨_, by rw [if_pos rfl], by simp [h.len]⟩
  · rw [if_neg hu]
    have hu' : nohup nid = false := by simpa using hu
    cases hn : s.nodes.get nid with
    | some n =>
      obtain ⟨h1, h2, h3⟩ := h.nd nid n hn
      exact ⟨own, h, ⟨[], by simp⟩, rfl, rfl, Or.inr ⟨by simp [h3], n, rfl, h1⟩⟩
    | none =>
      simp only
      by_cases hb : box nid = true
      · rw [if_pos hb]
        refine ⟨own ++ [nid], ⟨by simp [h.len], ?_, ?_, ?_⟩, ⟨_, rfl⟩, rfl, rfl, Or.inr ⟨by simp [hb], s.next, rfl, by simp [← h.len]⟩⟩
        · intro i g hg
          simp only [FMap.get_put] at hg
          split at hg
          · rename_i hi
            subst hi
            cases hg
            exact ⟨by simp [← h.len], hu', hb⟩
          · obtain ⟨h1, h2⟩ := h.nd i g hg
            exact ⟨own_snoc h1, h2⟩
        · intro i l hl
          obtain ⟨h1, h2⟩ := h.mu i l hl
          exact ⟨h1, fun g hg => own_snoc (h2 g hg)⟩
        · intro g i hg
          simp only [FMap.get_put]
          rcases own_snoc_inv hg with hg | ⟨rfl, rfl⟩
          · rcases h.all g i hg with h1 | h1
            · by_cases hi : i = nid
              · subst hi; rw [hn] at h1; cases h1
              · exact Or.inl (by rw [if_neg hi]; exact h1)
            · exact Or.inr h1
          · exact Or.inl (by rw [if_pos rfl, h.len])
      · rw [if_neg hb]
        exact ⟨own, h, ⟨[], by simp⟩, rfl, rfl, Or.inl ⟨by simp [hu', hb], rfl⟩⟩

/-- Neighbours in a list. -/
def consec : List Nat → List (Nat × Nat)
  | a :: b :: l => (a, b) :: consec (b :: l)
  | _ => []

/-- The edge `e` of the graph joins the OSM nodes `p` for the way `w`. -/
def Joins (own : List Nat) (e : GEdge) (x : (Nat × Nat) × Way) : Prop :=
  own[e.src]? = some x.1.1 ∧ own[e.dst]? = some x.1.2 ∧ e.way = x.2

/-- Two lists correspond entry by entry. -/
inductive Match {A B : Type} (R : A → B → Prop) : List A → List B → Prop
  | nil : Match R [] []
  | cons {a b l m} : R a b → Match R l m → Match R (a :: l) (b :: m)

theorem Match.append {A B : Type} {R : A → B → Prop} {l l' : List A} {m m' : List B} (h : Match R l m) (h' : Match R l' m') :
    Match R (l ++ l') (m ++ m') := by
  induction h with
  | nil => exact h'
  | cons h1 _ ih => exact .cons h1 ih

theorem Match.mono {A B : Type} {R S : A → B → Prop} (hm : ∀ a b, R a b → S a b) {l : List A} {m : List B} (h : Match R l m) :
    Match S l m := by
  induction h with
  | nil => exact .nil
  | cons h1 _ ih => exact .cons (hm _ _ h1) ih

theorem Joins.append {own : List Nat} {e : GEdge} {x : (Nat × Nat) × Way} (h : Joins own e x) (ext : List Nat) :
    Joins (own ++ ext) e x := by
  refine ⟨?_, ?_, h.2.2⟩
  · rw [List.getElem?_append_left (List.getElem?_eq_some_iff.1 h.1).1]; exact h.1
  · rw [List.getElem?_append_left (List.getElem?_eq_some_iff.1 h.2.1).1]; exact h.2.1

theorem edgesGo_spec {nohup box : Nat → Bool} (w : Way) (nids : List Nat) (own : List Nat) (s : GSt P)
    (h : GInv nohup box own s) (last : Option Nat) (li : Option Nat)
    (hl : ∀ g, last = some g → ∃ i, li = some i ∧ own[g]? = some i) (hl' : last = none → li = none)
    (done : List ((Nat × Nat) × Way)) (hd : Match (Joins own) s.edges done) :
    ∃ own', GInv nohup box own' (edgesGo nohup box w nids s last) ∧ (∃ e, own' = own ++ e) ∧
      (edgesGo nohup box w nids s last).geom = s.geom ∧
      Match (Joins own') (edgesGo nohup box w nids s last).edges
        (done ++ (consec (li.toList ++ nids.filter fun i => nohup i || box i)).map fun p => (p, w)) := by
  induction nids generalizing own s last li done with
  | nil =>
    refine ⟨own, h, ⟨[], by simp⟩, rfl, ?_⟩
    have : consec (li.toList ++ [].filter fun i => nohup i || box i) = [] := by cases li <;> rfl
    rw [this, List.map_nil, List.append_nil]
    exact hd
  | cons nid nids ih =>
    obtain ⟨own1, h1, ⟨e1, he1⟩, h2, h3, h4⟩ := ndFor_spec h nid
    have hd1 : Match (Joins own1) s.edges done := by
      rw [he1]; exact hd.mono fun a b hab => hab.append e1
    have hown : ∀ (g : Nat) (i : Nat), own[g]? = some i → own1[g]? = some i := by
      intro g i hg
      rw [he1, List.getElem?_append_left (List.getElem?_eq_some_iff.1 hg).1]; exact hg
    rw [edgesGo]
    cases hnd : ndFor nohup box s nid with
    | mk r s' =>
      rw [hnd] at h1 h2 h3 h4
      simp only at h1 h2 h3 h4 ⊢
      rcases h4 with ⟨hp, hr⟩ | ⟨hp, g, hr, hg⟩
      · subst hr
        simp only
        obtain ⟨own2, g1, ⟨e2, he2⟩, g2, g3⟩ := ih own1 s' h1 last li
          (fun g hg => by obtain ⟨i, hi, ho⟩ := hl g hg; exact ⟨i, hi, hown _ _ ho⟩) hl' done (by rw [h2]; exact hd1)
        refine ⟨own2, g1, ⟨e1 ++ e2, by rw [he2, he1]; simp⟩, by rw [g2, h3], ?_⟩
        rw [List.filter_cons, if_neg (by simp [hp])]
        exact g3
      · subst hr
        simp only
        rw [List.filter_cons, if_pos hp]
        cases last with
        | none =>
          simp only
          obtain ⟨own2, g1, ⟨e2, he2⟩, g2, g3⟩ := ih own1 s' h1 (some g) (some nid)
            (fun g' hg' => by cases hg'; exact ⟨nid, rfl, hg⟩) (by simp) done (by rw [h2]; exact hd1)
          refine ⟨own2, g1, ⟨e1 ++ e2, by rw [he2, he1]; simp⟩, by rw [g2, h3], ?_⟩
          rw [hl' rfl]
          exact g3
        | some l =>
          simp only
          obtain ⟨i0, hi0, ho0⟩ := hl l rfl
          obtain ⟨own2, g1, ⟨e2, he2⟩, g2, g3⟩ := ih own1 { s' with edges := s'.edges ++ [⟨l, g, w⟩] }
            ⟨h1.len, h1.nd, h1.mu, h1.all⟩ (some g) (some nid)
            (fun g' hg' => by cases hg'; exact ⟨nid, rfl, hg⟩) (by simp) (done ++ [((i0, nid), w)])
            (by
              rw [h2]
              exact hd1.append (.cons ⟨hown _ _ ho0, hg, rfl⟩ .nil))
          refine ⟨own2, g1, ⟨e1 ++ e2, by rw [he2, he1]; simp⟩, by rw [g2, h3], ?_⟩
          rw [hi0]
          simpa [consec] using g3

theorem addWays_spec {nohup box : Nat → Bool} (ws : List Way) (own : List Nat) (s : GSt P) (h : GInv nohup box own s)
    (done : List ((Nat × Nat) × Way)) (hd : Match (Joins own) s.edges done) :
    ∃ own', GInv nohup box own' (ws.foldl (addWay nohup box) s) ∧ (ws.foldl (addWay nohup box) s).geom = s.geom ∧
      Match (Joins own') (ws.foldl (addWay nohup box) s).edges
        (done ++ ws.flatMap fun w => (consec (w.nodes.filter fun i => nohup i || box i)).map fun p => (p, w)) := by
  induction ws generalizing own s done with
  | nil => exact ⟨own, h, rfl, by simpa using hd⟩
  | cons w ws ih =>
    obtain ⟨own1, h1, _, h2, h3⟩ := edgesGo_spec w w.nodes own s h none none (by simp) (by simp) done hd
    obtain ⟨own2, g1, g2, g3⟩ := ih own1 (addWay nohup box s w) h1 _ h3
    refine ⟨own2, g1, by rw [List.foldl_cons, g2]; exact h2, ?_⟩
    rw [List.foldl_cons]
    simpa [List.append_assoc] using g3

/-! ### positions -/

theorem addNode_keeps (isSt stat : Nod P → Bool) (s : GSt P) (nd : Nod P) :
    (addNode isSt stat s nd).nodes = s.nodes ∧ (addNode isSt stat s nd).multi = s.multi ∧
      (addNode isSt stat s nd).edges = s.edges ∧ s.next ≤ (addNode isSt stat s nd).next := by
  unfold addNode
  split
  · exact ⟨rfl, rfl, rfl, Nat.le_refl _⟩
  · split
    · exact ⟨rfl, rfl, rfl, Nat.le_refl _⟩
    · split
      · exact ⟨rfl, rfl, rfl, Nat.le_succ _⟩
      · exact ⟨rfl, rfl, rfl, Nat.le_refl _⟩

theorem addNodes_keeps (isSt stat : Nod P → Bool) (nds : List (Nod P)) (s : GSt P) :
    (nds.foldl (addNode isSt stat) s).nodes = s.nodes ∧ (nds.foldl (addNode isSt stat) s).multi = s.multi ∧
      (nds.foldl (addNode isSt stat) s).edges = s.edges := by
  induction nds generalizing s with
  | nil => exact ⟨rfl, rfl, rfl⟩
  | cons nd nds ih =>
    obtain ⟨h1, h2, h3, _⟩ := addNode_keeps isSt stat s nd
    obtain ⟨g1, g2, g3⟩ := ih (addNode isSt stat s nd)
    exact ⟨g1.trans h1, g2.trans h2, g3.trans h3⟩

theorem get_putAll (ns : List Nat) (p : P) (m : FMap Nat P) (g : Nat) :
    (ns.foldl (fun m n => FMap.put m n p) m).get g = if g ∈ ns then some p else m.get g := by
  induction ns generalizing m with
  | nil => simp
  | cons n ns ih =>
    rw [List.foldl_cons, ih, FMap.get_put]
    by_cases h1 : g ∈ ns
    · simp [h1]
    · by_cases h2 : g = n
      · simp [h2]
      · simp [h1, h2]

/-- The graph nodes of an OSM node. -/
def NodeOf (s : GSt P) (i g : Nat) : Prop := s.nodes.get i = some g ∨ ∃ l, s.multi.get i = some l ∧ g ∈ l

theorem addNode_hit (isSt stat : Nod P → Bool) {nohup box : Nat → Bool} {own : List Nat} {s0 s : GSt P}
    (h : GInv nohup box own s0) (hn : s.nodes = s0.nodes) (hm : s.multi = s0.multi) (nd : Nod P) (g : Nat)
    (hg : NodeOf s0 nd.id g) : (addNode isSt stat s nd).geom.get g = some nd.pos := by
  unfold addNode
  rw [hn, hm]
  rcases hg with hg | ⟨l, hl, hg⟩
  · rw [hg]
    simp [FMap.get_put]
  · have : s0.nodes.get nd.id = none := by
      cases hc : s0.nodes.get nd.id with
      | none => rfl
      | some g' =>
        have h1 := (h.nd _ _ hc).2.1
        rw [(h.mu _ _ hl).1] at h1
        cases h1
    rw [this, hl]
    simp only
    rw [get_putAll, if_pos hg]

theorem addNode_miss (isSt stat : Nod P → Bool) {nohup box : Nat → Bool} {own : List Nat} {s0 s : GSt P}
    (h : GInv nohup box own s0) (hn : s.nodes = s0.nodes) (hm : s.multi = s0.multi) (hx : s0.next ≤ s.next) (nd : Nod P)
    (g i : Nat) (hg : own[g]? = some i) (hne : nd.id ≠ i) : (addNode isSt stat s nd).geom.get g = s.geom.get g := by
  have hlt : g < s.next := by
    have := (List.getElem?_eq_some_iff.1 hg).1
    rw [h.len] at this
    omega
  unfold addNode
  rw [hn, hm]
  cases hc : s0.nodes.get nd.id with
  | some n =>
    simp only [FMap.get_put]
    rw [if_neg]
    rintro rfl
    rw [(h.nd _ _ hc).1] at hg
    exact hne (by simpa using hg)
  | none =>
    cases hl : s0.multi.get nd.id with
    | some l =>
      simp only
      rw [get_putAll, if_neg]
      intro hgl
      rw [(h.mu _ _ hl).2 g hgl] at hg
      exact hne (by simpa using hg)
    | none =>
      simp only
      split
      · simp only [FMap.get_put]
        rw [if_neg (by omega)]
      · rfl

theorem addNodes_miss (isSt stat : Nod P → Bool) {nohup box : Nat → Bool} {own : List Nat} {s0 : GSt P}
    (h : GInv nohup box own s0) (nds : List (Nod P)) (s : GSt P) (hn : s.nodes = s0.nodes) (hm : s.multi = s0.multi)
    (hx : s0.next ≤ s.next) (g i : Nat) (hg : own[g]? = some i) (hne : ∀ nd ∈ nds, nd.id ≠ i) :
    (nds.foldl (addNode isSt stat) s).geom.get g = s.geom.get g := by
  induction nds generalizing s with
  | nil => rfl
  | cons nd nds ih =>
    obtain ⟨h1, h2, _, h4⟩ := addNode_keeps isSt stat s nd
    rw [List.foldl_cons, ih _ (h1.trans hn) (h2.trans hm) (Nat.le_trans hx h4) (fun y hy => hne y (by simp [hy]))]
    exact addNode_miss isSt stat h hn hm hx nd g i hg (hne nd (by simp))

theorem addNodes_hit (isSt stat : Nod P → Bool) {nohup box : Nat → Bool} {own : List Nat} {s0 : GSt P}
    (h : GInv nohup box own s0) (nds : List (Nod P)) (hd : (nds.map (·.id)).Nodup) (s : GSt P) (hn : s.nodes = s0.nodes)
    (hm : s.multi = s0.multi) (hx : s0.next ≤ s.next) (nd : Nod P) (hnd : nd ∈ nds) (g : Nat) (hg : NodeOf s0 nd.id g) :
    (nds.foldl (addNode isSt stat) s).geom.get g = some nd.pos := by
  have hown : own[g]? = some nd.id := by
    rcases hg with hg | ⟨l, hl, hg⟩
    · exact (h.nd _ _ hg).1
    · exact (h.mu _ _ hl).2 g hg
  induction nds generalizing s with
  | nil => cases hnd
  | cons y nds ih =>
    obtain ⟨h1, h2, _, h4⟩ := addNode_keeps isSt stat s y
    rw [List.map_cons, List.nodup_cons] at hd
    rw [List.foldl_cons]
    rcases List.mem_cons.1 hnd with rfl | hmem
    · rw [addNodes_miss isSt stat h nds _ (h1.trans hn) (h2.trans hm) (Nat.le_trans hx h4) g nd.id hown]
      · exact addNode_hit isSt stat h hn hm nd g hg
      · intro z hz he
        exact hd.1 (List.mem_map.2 ⟨z, hz, he⟩)
    · exact ih hd.2 _ (h1.trans hn) (h2.trans hm) (Nat.le_trans hx h4) hmem

/-! ### the whole -/

/-- What the first pass reports: for each node whether it is in the box, and its no-turn tags. -/
def passReport (bbox : P → Bool) (nohup : Str → Str → Bool) (nodes : List (DNode P)) : List BoxOp :=
  nodes.flatMap fun n => (if bbox n.pos then BoxOp.add n.id else .nadd n.id) ::
    n.kids.filterMap fun e => match e.level, e.tag with
      | 3, .tag k v => if nohup k v then some (.nohup n.id) else none
      | _, _ => none

theorem readGraph_eq (p0 : P) (f : Flt) (keysN keysW keysR : List Str) (box hup : List BoxOp → Nat → Bool) (bbox : P → Bool)
    (nohup : Str → Str → Bool) (isSt stat : Nod P → Bool) (d : Doc P) (hd : d.Ok) :
    let ops := passReport bbox nohup d.nodes
    let st := relState f keysR (seenRels d.ways d.rels)
    let s := ((d.ways.map (readWay keysW)).filter (keepWay f st.wayRels st.flat (box ops))).foldl
      (addWay (hup ops) (box ops)) GSt.init
    readGraph p0 f keysN keysW keysR box hup bbox nohup isSt stat d.tags =
      ((d.nodes.map (readNod keysN)).filter (keepNode f (fun i => (s.nodes.get i).isSome) (fun i => (s.multi.get i).isSome)
        st.nodeRels st.flat (box ops))).foldl (addNode isSt stat) s := by
  intro ops st s
  obtain ⟨h0, hs, hh, hh'⟩ := hd.head
  have e1 : skipUntil .node d.tags =
      flat (d.nodes.map DNode.el) ++ (flat (d.ways.map DElem.way) ++ flat (d.rels.map DElem.rel)) := by
    rw [Doc.tags, hh]
    exact skip_node h0 hs hh' d.nodes hd.some _
  have e2 : bboxGo bbox nohup (flat (d.nodes.map DNode.el) ++ (flat (d.ways.map DElem.way) ++ flat (d.rels.map DElem.rel)))
      false 0 = (ops, flat (d.ways.map DElem.way) ++ flat (d.rels.map DElem.rel)) :=
    bboxGo_first bbox nohup d.nodes hd.some
    (fun x hx => hd.nodes.nz _ (List.mem_map.2 ⟨x, hx, rfl⟩))
    (fun x hx => hd.nodes.nested _ (List.mem_map.2 ⟨x, hx, rfl⟩)) _ (rest_level d.ways d.rels)
  have e3 : readRels keysR f (skipUntil .relation (flat (d.ways.map DElem.way) ++ flat (d.rels.map DElem.rel))) = st := by
    rw [skip_rel d.ways d.rels hd.plainWays hd.plainRels, readRels]
    rw [show (if d.ways = [] then d.rels.drop 1 else d.rels) = seenRels d.ways d.rels from rfl,
      read_rels f keysR _ (proper_seen d.ways hd.rels)]
    rfl
  have e4 := ways_section keysW (keepWay f st.wayRels st.flat (box ops)) (by intro w hw; simp [keepWay] at hw; exact hw.1.1.1.1)
    d.ways hd.ways _ (stops_ways_rels d.rels)
  have e5 := nodes_section p0 keysN (keepNode f (fun i => (s.nodes.get i).isSome) (fun i => (s.multi.get i).isSome)
        st.nodeRels st.flat (box ops)) (by intro w hw; simp [keepNode] at hw; exact hw.1.1.1) d.nodes hd.nodes _
        (stops_rest d.ways d.rels)
  unfold readGraph
  simp only [e1, e2, e3, e4]
  rw [show (((d.ways.map (readWay keysW)).filter (keepWay f st.wayRels st.flat (box ops))).foldl
      (addWay (hup ops) (box ops)) GSt.init) = s from rfl, e5]

/-- C33. After reading, a graph node created for an OSM node of the node section has the position
given there, unless the OSM node is one of those at which no turns are possible and lies outside the
box (`C33_negation`). -/
theorem C33_positions_partial {f : Flt} (hf : f.Ok) (p0 : P) (keysN keysW keysR : List Str) (box hup : List BoxOp → Nat → Bool)
    (bbox : P → Bool) (nohup : Str → Str → Bool) (isSt stat : Nod P → Bool) (d : Doc P) (hd : d.Ok) (s : GSt P)
    (hs : s = readGraph p0 f keysN keysW keysR box hup bbox nohup isSt stat d.tags) :
    ∀ x ∈ d.nodes, ∀ g, (s.nodes.get x.id = some g ∨ ∃ l, s.multi.get x.id = some l ∧ g ∈ l) →
      (hup (passReport bbox nohup d.nodes) x.id = false ∨ box (passReport bbox nohup d.nodes) x.id = true) →
      s.geom.get g = some x.pos := by
  intro x hx g hg hcond
  rw [readGraph_eq p0 f keysN keysW keysR box hup bbox nohup isSt stat d hd] at hs
  generalize hops : passReport bbox nohup d.nodes = ops at *
  generalize hst : relState f keysR (seenRels d.ways d.rels) = st at *
  obtain ⟨own, h1, _, _⟩ := addWays_spec (nohup := hup ops) (box := box ops)
    ((d.ways.map (readWay keysW)).filter (keepWay f st.wayRels st.flat (box ops))) [] GSt.init (ginv_init _ _) [] .nil
  generalize hs0 : (((d.ways.map (readWay keysW)).filter (keepWay f st.wayRels st.flat (box ops))).foldl
      (addWay (hup ops) (box ops)) GSt.init : GSt P) = s0 at *
  have hkeep := addNodes_keeps isSt stat ((d.nodes.map (readNod keysN)).filter (keepNode f (fun i => (s0.nodes.get i).isSome)
    (fun i => (s0.multi.get i).isSome) st.nodeRels st.flat (box ops))) s0
  rw [← hs] at hkeep
  rw [hkeep.1, hkeep.2.1] at hg
  rw [hs]
  apply addNodes_hit isSt stat h1 _ _ s0 rfl rfl (Nat.le_refl _) (readNod keysN x) _ g hg
  · have : (d.nodes.map (readNod keysN)).map (·.id) = d.nodes.map (·.id) := by rw [List.map_map]; rfl
    refine (List.filter_sublist.map _).nodup ?_
    rw [this]
    exact hd.nodes.nodup
  · refine List.mem_filter.2 ⟨List.mem_map.2 ⟨x, hx, rfl⟩, ?_⟩
    rw [keepNode_iff hf]
    refine ⟨hd.nodes.nz _ (List.mem_map.2 ⟨x, hx, rfl⟩), ?_⟩
    rcases hg with hg | ⟨l, hl, hg⟩
    · have : (s0.nodes.get x.id).isSome = true := by rw [hg]; rfl
      exact ⟨Or.inl this, Or.inl this, Or.inl this⟩
    · have : (s0.multi.get x.id).isSome = true := by rw [hl]; rfl
      refine ⟨Or.inr (Or.inl this), Or.inr ?_, Or.inr (Or.inl this)⟩
      rcases hcond with hc | hc
      · rw [(h1.mu _ _ hl).1] at hc
        cases hc
      · exact hc

/-- C59. The edges read are, in order, those between neighbours in the list of the nodes of a way
without the nodes that are outside the area: neighbours of this list need not be neighbours in the way
(`C59_negation`). `own` tells for which OSM node a graph node has been created: each is listed for exactly this node. -/
theorem C59_edges_partial {f : Flt} (hf : f.Ok) (p0 : P) (keysN keysW keysR : List Str) (box hup : List BoxOp → Nat → Bool)
    (bbox : P → Bool) (nohup : Str → Str → Bool) (isSt stat : Nod P → Bool) (d : Doc P) (hd : d.Ok) (s : GSt P)
    (hs : s = readGraph p0 f keysN keysW keysR box hup bbox nohup isSt stat d.tags) :
    ∃ (own : List Nat) (br : DElem P → Rel) (bw : DElem P → Way) (q : DElem P → Bool), (∀ x, ReadsRel keysR x (br x)) ∧
      (∀ x, ReadsWay keysW x (bw x)) ∧
      (∀ x ∈ d.ways, q x = true ↔ WayWritten f br (if d.ways = [] then d.rels.drop 1 else d.rels)
        (box (passReport bbox nohup d.nodes)) (bw x)) ∧
      (∀ (g i : Nat), own[g]? = some i ↔ s.nodes.get i = some g ∨ ∃ l, s.multi.get i = some l ∧ g ∈ l) ∧
      Match (Joins own) s.edges ((d.ways.filter q).flatMap fun x =>
        (consec ((kidRefs x.kids).filter fun i =>
          hup (passReport bbox nohup d.nodes) i || box (passReport bbox nohup d.nodes) i)).map fun p => (p, bw x)) := by
  rw [readGraph_eq p0 f keysN keysW keysR box hup bbox nohup isSt stat d hd] at hs
  have hinv := relState_inv f keysR (seenRels d.ways d.rels)
  generalize hops : passReport bbox nohup d.nodes = ops at *
  generalize hst : relState f keysR (seenRels d.ways d.rels) = st at *
  obtain ⟨own, h1, _, h3⟩ := addWays_spec (nohup := hup ops) (box := box ops)
    ((d.ways.map (readWay keysW)).filter (keepWay f st.wayRels st.flat (box ops))) [] GSt.init (ginv_init _ _) [] .nil
  generalize hs0 : (((d.ways.map (readWay keysW)).filter (keepWay f st.wayRels st.flat (box ops))).foldl
      (addWay (hup ops) (box ops)) GSt.init : GSt P) = s0 at *
  have hkeep := addNodes_keeps isSt stat ((d.nodes.map (readNod keysN)).filter (keepNode f (fun i => (s0.nodes.get i).isSome)
    (fun i => (s0.multi.get i).isSome) st.nodeRels st.flat (box ops))) s0
  rw [← hs] at hkeep
  have hz1 : ∀ x ∈ seenRels d.ways d.rels, x.id ≠ 0 :=
    fun x hx => hd.rels.nz _ (List.mem_map.2 ⟨x, seen_sub _ _ x hx, rfl⟩)
  have mw : ∀ i, Member st.wayRels st.flat i ↔ LiftsWay f (readRel keysR) (seenRels d.ways d.rels) i := fun i =>
    (member_aux (sel := fun r => r.ways.map (·.1)) hinv.flat hinv.ways i).trans
      (lifts_aux hf keysR _ hz1 (fun r => r.ways) (fun _ _ => rfl) i)
  refine ⟨own, readRel keysR, readWay keysW, fun x => keepWay f st.wayRels st.flat (box ops) (readWay keysW x),
    readRel_spec keysR, readWay_spec keysW, ?_, ?_, ?_⟩
  · intro x hx
    simp only
    rw [keepWay_iff hf]
    have hz := hd.ways.nz _ (List.mem_map.2 ⟨x, hx, rfl⟩)
    constructor
    · rintro ⟨_, h⟩
      exact ⟨h.two, h.why.imp (mw _).1 id, h.nodrop, h.inbox⟩
    · intro h
      exact ⟨hz, h.two, h.why.imp (mw _).2 id, h.nodrop, h.inbox⟩
  · intro g i
    rw [hkeep.1, hkeep.2.1]
    constructor
    · exact h1.all g i
    · rintro (h | ⟨l, hl, hg⟩)
      · exact (h1.nd _ _ h).1
      · exact (h1.mu _ _ hl).2 g hg
  · rw [hkeep.2.2]
    rw [List.nil_append, List.filter_map, List.flatMap_map] at h3
    exact h3

/-! ### an example -/

def kNo : Str := [7]

/-- A way over the nodes 1, 2, 3, 4; 2 is outside the box, 3 a no-turn node, 4 one outside the box. -/
def exGDoc : Doc Nat where
  header := [⟨0, .other⟩, ⟨1, .other⟩]
  nodes := [⟨1, 1, []⟩, ⟨2, 20, []⟩, ⟨3, 3, [⟨3, .tag kNo kNo⟩]⟩, ⟨4, 40, [⟨3, .tag kNo kNo⟩]⟩]
  ways := [⟨1, [⟨3, .nd 1⟩, ⟨3, .nd 2⟩, ⟨3, .nd 3⟩, ⟨3, .nd 4⟩, ⟨3, .tag kHw vHw⟩]⟩]
  rels := []

def exHup (ops : List BoxOp) (i : Nat) : Bool := ops.contains (.nohup i)

def exGraph : GSt Nat :=
  readGraph 0 exFlt [] [kHw] [] exBox exHup exIn (fun k _ => k == kNo) (fun _ => false) (fun _ => false) exGDoc.tags

theorem exGDoc_ok : exGDoc.Ok := by
  refine ⟨⟨_, _, rfl, by simp [isNode]⟩, by simp [exGDoc], ?_, ?_, ?_, ?_, ?_⟩
  · exact ⟨by simp [exGDoc], by simp [exGDoc], by simp [exGDoc]⟩
  · exact ⟨by simp [exGDoc], by simp [exGDoc], by simp [exGDoc]⟩
  · exact ⟨by simp [exGDoc], by simp [exGDoc], by simp [exGDoc]⟩
  · simp [exGDoc, Plain, isNode, isWay, isRel]
  · simp [exGDoc]

theorem exGraph_eq : exGraph.nodes = [(1, 0)] ∧ exGraph.multi = [(4, [2]), (3, [1])] ∧ exGraph.geom = [(1, 3), (0, 1)] ∧
    (exGraph.edges.map fun e => (e.src, e.dst)) = [(0, 1), (1, 2)] := by decide +kernel

/-- The hypotheses of `C33_positions_partial` and `C59_edges_partial` hold for the example, and there are graph nodes of both
kinds that get their position. -/
example : exFlt.Ok ∧ exGDoc.Ok ∧ exGraph.nodes.get 1 = some 0 ∧ exGraph.geom.get 0 = some 1 ∧
    exGraph.multi.get 3 = some [1] ∧ exGraph.geom.get 1 = some 3 := by
  refine ⟨exFlt_ok, exGDoc_ok, ?_⟩
  rw [exGraph_eq.1, exGraph_eq.2.1, exGraph_eq.2.2.1]
  decide +kernel

/-- C33, negation. The graph node of node 4 (no turns possible, outside the box) has no position,
although the node section gives one, and it is the end of an edge. -/
theorem C33_negation : exFlt.Ok ∧ exGDoc.Ok ∧ (∃ x ∈ exGDoc.nodes, x.id = 4 ∧ x.pos = 40) ∧
    exGraph.multi.get 4 = some [2] ∧ exGraph.geom.get 2 = none ∧ ∃ e ∈ exGraph.edges, e.dst = 2 := by
  refine ⟨exFlt_ok, exGDoc_ok, ⟨⟨4, 40, [⟨3, .tag kNo kNo⟩]⟩, by simp [exGDoc], rfl, rfl⟩, ?_, ?_, ?_⟩
  · rw [exGraph_eq.2.1]; decide +kernel
  · rw [exGraph_eq.2.2.1]; decide +kernel
  · have : (1, 2) ∈ exGraph.edges.map fun e => (e.src, e.dst) := by rw [exGraph_eq.2.2.2]; simp
    obtain ⟨e, he, h⟩ := List.mem_map.1 this
    exact ⟨e, he, (Prod.mk.inj h).2⟩

/-- C59, negation. Between the nodes 1 and 3 of the way lies node 2, outside the box: an edge joins 1 and 3 directly. -/
theorem C59_negation : exFlt.Ok ∧ exGDoc.Ok ∧ (1, 3) ∉ consec [1, 2, 3, 4] ∧ exGDoc.ways.map (fun w => kidRefs w.kids) = [[1, 2, 3, 4]] ∧
    ∃ e ∈ exGraph.edges, exGraph.nodes.get 1 = some e.src ∧ exGraph.multi.get 3 = some [e.dst] := by
  refine ⟨exFlt_ok, exGDoc_ok, by decide, rfl, ?_⟩
  have : (0, 1) ∈ exGraph.edges.map fun e => (e.src, e.dst) := by rw [exGraph_eq.2.2.2]; simp
  obtain ⟨e, he, h⟩ := List.mem_map.1 this
  refine ⟨e, he, ?_, ?_⟩
  · rw [exGraph_eq.1, (Prod.mk.inj h).1]; decide +kernel
  · rw [exGraph_eq.2.1, (Prod.mk.inj h).2]; decide +kernel

end Verif.Osm
