import Verif.Extract.Rels
import Verif.Attrs.Lemmas
import Verif.Intern.Props

/-!
# Infos, tracks and lines do not depend on the numbers of relations (lemmas)
-/

set_option linter.unusedSectionVars false
set_option linter.unusedSimpArgs false

namespace Verif.Extract
open Verif.Names (Str)
open Verif.Osm Verif.Whole
open Verif.Attrs

/-! ### the relations of an element -/

/-- How often the element is a member. -/
def times (i : Nat) (l : List (Nat × Str)) : Nat := l.countP fun m => m.1 = i

/-- Numbers of its relations. -/
def idx (sel : Rel → List (Nat × Str)) (i : Nat) : List Rel → Nat → List Nat
  | [], _ => []
  | r :: rs, k => List.replicate (times i (sel r)) k ++ idx sel i rs (k + 1)

/-- Attributes of its relations. -/
def rows (sel : Rel → List (Nat × Str)) (i : Nat) (rs : List Rel) : List Attrs :=
  rs.flatMap fun r => List.replicate (times i (sel r)) r.attrs

theorem get_pushAll (ids : List (Nat × Str)) (k i : Nat) : ∀ m : FMap Nat (List Nat),
    (((ids.map (·.1)).foldl (fun m id => pushTo m id k) m).get i).getD [] = (m.get i).getD [] ++ List.replicate (times i ids) k ∧
    ((((ids.map (·.1)).foldl (fun m id => pushTo m id k) m).get i) = some [] → m.get i = some []) := by
  induction ids with
  | nil => intro m; simp [times]
  | cons a ids ih =>
    intro m
    rw [List.map_cons, List.foldl_cons]
    obtain ⟨h1, h2⟩ := ih (pushTo m a.1 k)
    rw [h1]
    unfold pushTo at h2 ⊢
    rw [FMap.get_put] at h2 ⊢
    unfold times
    rw [List.countP_cons]
    by_cases h : i = a.1
    · subst h
      simp only [if_true, decide_true] at h2 ⊢
      refine ⟨?_, fun e => ?_⟩
      · simp only [Option.getD_some, List.append_assoc]
        rw [List.replicate_succ]
        rfl
      · have := h2 e
        simp at this
    · simp only [if_neg h, if_neg (fun e : a.1 = i => h e.symm), decide_eq_true_eq] at h2 ⊢
      exact ⟨by rfl, h2⟩

theorem addRels (rs : List Rel) : ∀ (s : RelSt),
    (rs.foldl addRel s).rels = s.rels ++ rs.map (·.attrs) ∧
    (∀ i, (((rs.foldl addRel s).wayRels.get i).getD [] = (s.wayRels.get i).getD [] ++ idx (·.ways) i rs s.rels.length) ∧
      ((rs.foldl addRel s).wayRels.get i = some [] → s.wayRels.get i = some [])) ∧
    (∀ i, (((rs.foldl addRel s).nodeRels.get i).getD [] = (s.nodeRels.get i).getD [] ++ idx (·.nodes) i rs s.rels.length) ∧
      ((rs.foldl addRel s).nodeRels.get i = some [] → s.nodeRels.get i = some [])) := by
  induction rs with
  | nil => intro s; simp [idx]
  | cons r rs ih =>
    intro s
    obtain ⟨h1, h2, h3⟩ := ih (addRel s r)
    rw [List.foldl_cons]
    have hl : (addRel s r).rels.length = s.rels.length + 1 := by simp [addRel]
    refine ⟨?_, fun i => ?_, fun i => ?_⟩
    · rw [h1]; simp [addRel]
    · obtain ⟨a, b⟩ := h2 i
      obtain ⟨c, d⟩ := get_pushAll r.ways s.rels.length i s.wayRels
      refine ⟨?_, fun e => d (b e)⟩
      rw [a, hl, idx, ← List.append_assoc, ← c]
      rfl
    · obtain ⟨a, b⟩ := h3 i
      obtain ⟨c, d⟩ := get_pushAll r.nodes s.rels.length i s.nodeRels
      refine ⟨?_, fun e => d (b e)⟩
      rw [a, hl, idx, ← List.append_assoc, ← c]
      rfl

theorem idx_rows (sel : Rel → List (Nat × Str)) (i : Nat) (rs : List Rel) : ∀ (pre : List Attrs),
    (idx sel i rs pre.length).map (fun k => (pre ++ rs.map (·.attrs))[k]?) = (rows sel i rs).map some := by
  induction rs with
  | nil => intro pre; rfl
  | cons r rs ih =>
    intro pre
    have := ih (pre ++ [r.attrs])
    rw [List.length_append] at this
    simp only [List.length_singleton, List.append_assoc, List.singleton_append] at this
    rw [idx, List.map_append, List.map_cons, this, show rows sel i (r :: rs) = List.replicate (times i (sel r)) r.attrs ++ rows sel i rs from rfl, List.map_append, List.map_replicate, List.map_replicate]
    congr 1
    rw [List.getElem?_append_right (Nat.le_refl _), Nat.sub_self]
    rfl

/-- `l` holds the numbers of relations with these attributes. -/
def Lists (rels : List Attrs) (m : FMap Nat (List Nat)) (i : Nat) (as : List Attrs) : Prop :=
  ((m.get i).getD []).map (fun k => rels[k]?) = as.map some ∧ m.get i ≠ some []

theorem way_lists (rs : List Rel) (i : Nat) :
    Lists (rs.foldl addRel ⟨[], [], [], []⟩).rels (rs.foldl addRel ⟨[], [], [], []⟩).wayRels i (rows (·.ways) i rs) := by
  obtain ⟨h1, h2, _⟩ := addRels rs ⟨[], [], [], []⟩
  refine ⟨?_, fun e => ?_⟩
  · rw [h1, (h2 i).1]
    exact idx_rows (·.ways) i rs []
  · have := (h2 i).2 e
    simp [FMap.get_nil] at this

theorem node_lists (rs : List Rel) (i : Nat) :
    Lists (rs.foldl addRel ⟨[], [], [], []⟩).rels (rs.foldl addRel ⟨[], [], [], []⟩).nodeRels i (rows (·.nodes) i rs) := by
  obtain ⟨h1, _, h3⟩ := addRels rs ⟨[], [], [], []⟩
  refine ⟨?_, fun e => ?_⟩
  · rw [h1, (h3 i).1]
    exact idx_rows (·.nodes) i rs []
  · have := (h3 i).2 e
    simp [FMap.get_nil] at this

theorem times_filter {i : Nat} (W : Nat → Bool) (h : W i = true) (l : List (Nat × Str)) : times i (l.filter fun m => W m.1) = times i l := by
  unfold times
  rw [List.countP_filter]
  apply List.countP_congr
  intro m _
  simp only [Bool.and_eq_true, decide_eq_true_eq, and_iff_left_iff_imp]
  rintro rfl
  exact h

theorem times_zero {i : Nat} (W : Nat → Bool) (h : W i = true) {l : List (Nat × Str)} (hl : ∀ m ∈ l, W m.1 = false) : times i l = 0 := by
  unfold times
  rw [List.countP_eq_zero]
  intro m hm
  simp only [decide_eq_true_eq]
  rintro rfl
  rw [hl m hm] at h
  cases h

theorem match_replicate {A B : Type} {R : A → B → Prop} {a : A} {b : B} (h : R a b) (n : Nat) : Match R (List.replicate n a) (List.replicate n b) := by
  induction n with
  | zero => exact .nil
  | succ n ih => rw [List.replicate_succ, List.replicate_succ]; exact .cons h ih

theorem cut_rows {W N : Nat → Bool} {rs rs' : List Rel} (h : Cut W N rs rs') :
    (∀ i, W i = true → Match Same (rows (·.ways) i rs) (rows (·.ways) i rs')) ∧
    (∀ i, N i = true → Match Same (rows (·.nodes) i rs) (rows (·.nodes) i rs')) := by
  induction h with
  | nil => exact ⟨fun _ _ => .nil, fun _ _ => .nil⟩
  | drop h1 h2 _ ih =>
    refine ⟨fun i hi => ?_, fun i hi => ?_⟩
    · rw [rows, List.flatMap_cons, times_zero W hi h1]
      exact ih.1 i hi
    · rw [rows, List.flatMap_cons, times_zero N hi h2]
      exact ih.2 i hi
  | keep hr _ ih =>
    refine ⟨fun i hi => ?_, fun i hi => ?_⟩
    · rw [rows, rows, List.flatMap_cons, List.flatMap_cons, hr.ways, times_filter W hi]
      exact (match_replicate hr.attrs _).append (ih.1 i hi)
    · rw [rows, rows, List.flatMap_cons, List.flatMap_cons, hr.nodes, times_filter N hi]
      exact (match_replicate hr.attrs _).append (ih.2 i hi)

/-! ### attributes by rules -/

/-- The loop, without numbers. -/
def loop (s : Rule) : List Attrs → Str
  | [] => []
  | a :: l => if containedAttr (s.key, s.val) a then (match FMap.get a s.attr with | some v => v | none => loop s l) else loop s l

theorem relLoop_rows (s : Rule) (rels : List Attrs) : ∀ (ks : List Nat) (as : List Attrs), ks.map (fun k => rels[k]?) = as.map some →
    relLoop s rels ks = some (loop s as) := by
  intro ks
  induction ks with
  | nil =>
    intro as h
    cases as with
    | nil => rfl
    | cons => simp at h
  | cons k ks ih =>
    intro as h
    cases as with
    | nil => simp at h
    | cons a as =>
      simp only [List.map_cons, List.cons.injEq] at h
      rw [relLoop, h.1, loop]
      simp only
      split
      · cases FMap.get a s.attr with
        | some v => rfl
        | none => exact ih as h.2
      · exact ih as h.2

theorem containedAttr_same {a b : Attrs} (h : Same a b) (kv : Str × Str) : containedAttr kv a = containedAttr kv b := by
  rw [Bool.eq_iff_iff, show kv = (kv.1, kv.2) from rfl, containedAttr_iff, containedAttr_iff, h.get]

theorem loop_same (s : Rule) {as bs : List Attrs} (h : Match Same as bs) : loop s as = loop s bs := by
  induction h with
  | nil => rfl
  | cons h1 _ ih =>
    rw [loop, loop, containedAttr_same h1, h1.get, ih]

theorem getAttr_rows (s : Rule) {i : Nat} {am : Attrs} {m : FMap Nat (List Nat)} {rels as : List Attrs} (h : Lists rels m i as) :
    getAttr s i am m rels = some (if s.key = [] then (FMap.get am s.attr).getD [] else loop s as) := by
  unfold getAttr
  split
  · rfl
  · have := h.1
    cases hg : m.get i with
    | none =>
      rw [hg] at this
      cases as with
      | nil => rfl
      | cons => simp at this
    | some ks =>
      rw [hg] at this
      exact relLoop_rows s rels ks as this

theorem getAttr_same (s : Rule) {i : Nat} {am am' : Attrs} {m m' : FMap Nat (List Nat)} {rels rels' as as' : List Attrs} (h : Lists rels m i as)
    (h' : Lists rels' m' i as') (hm : Match Same as as') (ha : Same am am') : getAttr s i am m rels = getAttr s i am' m' rels' := by
  rw [getAttr_rows s h, getAttr_rows s h', loop_same s hm, ha.get]

theorem firstMatch_congr (norm : Str → Str) {i : Nat} {am am' : Attrs} {m m' : FMap Nat (List Nat)} {rels rels' : List Attrs} (rules : List Rule)
    (h : ∀ s, getAttr s i am m rels = getAttr s i am' m' rels') : firstMatch norm i am m rels rules = firstMatch norm i am' m' rels' rules := by
  induction rules with
  | nil => rfl
  | cons s rules ih => rw [firstMatch, firstMatch, h s, ih]

theorem ranked_congr (norm : Str → Str) {i : Nat} {am am' : Attrs} {m m' : FMap Nat (List Nat)} {rels rels' : List Attrs} (rules : List Rule)
    (h : ∀ s, getAttr s i am m rels = getAttr s i am' m' rels') : ∀ ret, ranked norm i am m rels rules ret = ranked norm i am' m' rels' rules ret := by
  induction rules with
  | nil => intro ret; rfl
  | cons s rules ih =>
    intro ret
    rw [ranked, ranked, h s]
    cases getAttr s i am' m' rels' with
    | none => rfl
    | some v => exact ih _

theorem statInfo_same (n : Naming) {i : Nat} {am am' : Attrs} {m m' : FMap Nat (List Nat)} {rels rels' as as' : List Attrs} (h : Lists rels m i as)
    (h' : Lists rels' m' i as') (hm : Match Same as as') (ha : Same am am') : getStatInfo n i am m rels = getStatInfo n i am' m' rels' := by
  have := fun s => getAttr_same s h h' hm ha
  unfold getStatInfo
  rw [ranked_congr _ n.names this, firstMatch_congr _ n.platforms this]

/-! ### lines -/

theorem mem_same_key {a b : Attrs} (h : Same a b) (k : Str) : (∃ v, (k, v) ∈ a ∧ (k, v) ∈ b) ∨ ((∀ v, (k, v) ∉ a) ∧ ∀ v, (k, v) ∉ b) := by
  rcases Intern.mem_key (attrs := a) k with ⟨v, hv⟩ | hv
  · exact .inl ⟨v, hv, (h.mem _).1 hv⟩
  · exact .inr ⟨hv, fun v hv' => hv v ((h.mem _).2 hv')⟩

theorem fold_same {σ : Type} (f : σ → Str → σ) {a b : Attrs} (h : Same a b) (k : Str) (s : σ) :
    a.foldl (fun s x => if x.1 = k then f s x.2 else s) s = b.foldl (fun s x => if x.1 = k then f s x.2 else s) s := by
  rcases mem_same_key h k with ⟨v, h1, h2⟩ | ⟨h1, h2⟩
  · rw [Intern.foldl_present a s h.wfl h1, Intern.foldl_present b s h.wfr h2]
  · rw [Intern.foldl_absent a s h1, Intern.foldl_absent b s h2]

theorem nameOf_same (norm : Str → Str) {a b : Attrs} (h : Same a b) (rs : List Str) : ∀ s, Intern.nameOf norm a rs s = Intern.nameOf norm b rs s := by
  induction rs with
  | nil => intro s; rfl
  | cons r rs ih =>
    intro s
    have : Intern.nameRule norm r a s = Intern.nameRule norm r b s :=
      fold_same (fun s v => (s.1 || !(norm v).isEmpty, norm v)) h r s
    rw [Intern.nameOf, Intern.nameOf]
    simp only [this]
    rw [ih]

theorem color_same (noColor : Nat) (dec : Str → Str) {a b : Attrs} (h : Same a b) (rs : List Str) : ∀ s,
    Color.lineColor noColor (a.map fun x => (x.1, dec x.2)) rs s = Color.lineColor noColor (b.map fun x => (x.1, dec x.2)) rs s := by
  induction rs with
  | nil => intro s; rfl
  | cons r rs ih =>
    intro s
    have : Color.ruleColor noColor r (a.map fun x => (x.1, dec x.2)) s = Color.ruleColor noColor r (b.map fun x => (x.1, dec x.2)) s := by
      unfold Color.ruleColor
      rw [List.foldl_map, List.foldl_map]
      exact fold_same (fun s v => if Color.attrColor noColor (dec v) ≠ noColor then (true, Color.attrColor noColor (dec v)) else s) h r s
    rw [Color.lineColor, Color.lineColor]
    simp only [this]
    rw [ih]

theorem lineOf_same (noColor : Nat) (o : Intern.Opts Str) {a b : Attrs} (h : Same a b) : Intern.lineOf noColor o a = Intern.lineOf noColor o b := by
  unfold Intern.lineOf
  rw [nameOf_same _ h, nameOf_same _ h, nameOf_same _ h, color_same _ _ h]

/-- A line without names. -/
def bare (l : Intern.Line) : Bool := l.shortName.isEmpty && l.fromStr.isEmpty && l.toStr.isEmpty

/-- `getLines` without the cache. -/
def linesOf (noColor : Nat) (o : Intern.Opts Str) : List Attrs → List Nat → List Intern.Line × List (Intern.Line × Nat) →
    List Nat × List Intern.Line × List (Intern.Line × Nat)
  | [], ret, c => (ret, c)
  | a :: as, ret, c =>
    if bare (Intern.lineOf noColor o a) then linesOf noColor o as ret c
    else
      match Intern.findLine c.2 (Intern.lineOf noColor o a) with
      | some p => linesOf noColor o as (ret ++ [p]) c
      | none => linesOf noColor o as (ret ++ [c.1.length]) (c.1 ++ [Intern.lineOf noColor o a], (Intern.lineOf noColor o a, c.1.length) :: c.2)

theorem linesOf_same (noColor : Nat) (o : Intern.Opts Str) {as bs : List Attrs} (h : Match Same as bs) : ∀ ret c,
    linesOf noColor o as ret c = linesOf noColor o bs ret c := by
  induction h with
  | nil => intro ret c; rfl
  | cons h1 _ ih =>
    intro ret c
    rw [linesOf, linesOf, lineOf_same noColor o h1, ih, ih]
    simp only [ih]

/-- The cache is right. -/
def Cached (noColor : Nat) (o : Intern.Opts Str) (rels : List Attrs) (st : Intern.St) : Prop :=
  ∀ k p, st.relLines.lookup k = some p → ∃ a, rels[k]? = some a ∧ bare (Intern.lineOf noColor o a) = false ∧
    Intern.findLine st.lines (Intern.lineOf noColor o a) = some p

theorem find_equiv (ls : List (Intern.Line × Nat)) {l l' : Intern.Line} (h : Intern.namesOf l = Intern.namesOf l') :
    Intern.findLine ls l = Intern.findLine ls l' := by
  unfold Intern.findLine
  congr 1
  have : ∀ p : Intern.Line × Nat, (!Intern.lineLt p.1 l && !Intern.lineLt l p.1) = (!Intern.lineLt p.1 l' && !Intern.lineLt l' p.1) := by
    intro p
    rw [Bool.eq_iff_iff, Intern.lineLt_equiv, Intern.lineLt_equiv, h]
  simp only [this]

theorem find_push (ls : List (Intern.Line × Nat)) {l l' : Intern.Line} {p q : Nat} (hn : Intern.findLine ls l = none)
    (h : Intern.findLine ls l' = some p) : Intern.findLine ((l, q) :: ls) l' = some p := by
  by_cases e : (!Intern.lineLt l l' && !Intern.lineLt l' l) = true
  · rw [find_equiv ls ((Intern.lineLt_equiv _ _).1 e), h] at hn
    cases hn
  · unfold Intern.findLine at h ⊢
    rw [List.find?_cons]
    simp only [Bool.not_eq_true] at e
    rw [e]
    exact h

theorem find_new (ls : List (Intern.Line × Nat)) (l : Intern.Line) (q : Nat) : Intern.findLine ((l, q) :: ls) l = some q := by
  unfold Intern.findLine
  rw [List.find?_cons, (Intern.lineLt_equiv l l).2 rfl]
  rfl

theorem getLines_rows (noColor : Nat) (o : Intern.Opts Str) (rels : List Attrs) : ∀ (ks : List Nat) (as : List Attrs) (ret : List Nat) (st : Intern.St),
    ks.map (fun k => rels[k]?) = as.map some → Cached noColor o rels st →
    ∃ st', Intern.getLines noColor o rels ks ret st = some ((linesOf noColor o as ret (st.heap, st.lines)).1, st') ∧
      (st'.heap, st'.lines) = (linesOf noColor o as ret (st.heap, st.lines)).2 ∧ Cached noColor o rels st' := by
  intro ks
  induction ks with
  | nil =>
    intro as ret st h hc
    cases as with
    | nil => exact ⟨st, rfl, rfl, hc⟩
    | cons => simp at h
  | cons k ks ih =>
    intro as ret st h hc
    cases as with
    | nil => simp at h
    | cons a as =>
      simp only [List.map_cons, List.cons.injEq] at h
      rw [Intern.getLines, linesOf]
      cases hl : st.relLines.lookup k with
      | some p =>
        obtain ⟨a', e1, e2, e3⟩ := hc k p hl
        rw [h.1] at e1
        cases e1
        rw [e2]
        simp only [e3, Bool.false_eq_true, if_false]
        exact ih as _ st h.2 hc
      | none =>
        simp only [h.1]
        rw [show ((Intern.lineOf noColor o a).shortName.isEmpty && (Intern.lineOf noColor o a).fromStr.isEmpty &&
          (Intern.lineOf noColor o a).toStr.isEmpty) = bare (Intern.lineOf noColor o a) from rfl]
        cases hb : bare (Intern.lineOf noColor o a) with
        | true => exact ih as _ st h.2 hc
        | false =>
          simp only [Bool.false_eq_true, if_false]
          cases hf : Intern.findLine st.lines (Intern.lineOf noColor o a) with
          | some p =>
            simp only
            refine ih as _ { st with relLines := (k, p) :: st.relLines } h.2 ?_
            intro k' p' hk
            simp only [List.lookup_cons] at hk
            split at hk
            · rename_i e
              rw [beq_iff_eq] at e
              simp only [Option.some.injEq] at hk
              subst e hk
              exact ⟨a, h.1, hb, hf⟩
            · exact hc k' p' hk
          | none =>
            simp only
            refine ih as _ ⟨st.heap ++ [Intern.lineOf noColor o a], (Intern.lineOf noColor o a, st.heap.length) :: st.lines,
              (k, st.heap.length) :: st.relLines⟩ h.2 ?_
            intro k' p' hk
            simp only [List.lookup_cons] at hk
            split at hk
            · rename_i e
              rw [beq_iff_eq] at e
              simp only [Option.some.injEq] at hk
              subst e hk
              exact ⟨a, h.1, hb, find_new _ _ _⟩
            · obtain ⟨a', e1, e2, e3⟩ := hc k' p' hk
              exact ⟨a', e1, e2, find_push _ hf e3⟩

/-- Ways that are alike, among those with an id of a set. -/
structure Alike (W : Nat → Bool) (w w' : Way) : Prop where
  kept : W w.id = true
  id : w'.id = w.id
  nodes : w'.nodes = w.nodes
  attrs : Same w.attrs w'.attrs

theorem match_length {A B : Type} {R : A → B → Prop} {l : List A} {m : List B} (h : Match R l m) : l.length = m.length := by
  induction h with
  | nil => rfl
  | cons _ _ ih => simp [ih]

theorem wayLines_same (n : Naming) {R R' : RelSt} {rs rs' : Nat → List Attrs} {ws ws' : List Way} {W : Nat → Bool} (hm : Match (Alike W) ws ws')
    (h : ∀ w ∈ ws, Lists R.rels R.wayRels w.id (rs w.id)) (h' : ∀ w ∈ ws, Lists R'.rels R'.wayRels w.id (rs' w.id))
    (hs : ∀ w ∈ ws, Match Same (rs w.id) (rs' w.id)) : ∀ (st st' : Intern.St), Cached n.noColor n.line R.rels st → Cached n.noColor n.line R'.rels st' →
    st.heap = st'.heap → st.lines = st'.lines →
    (wayLines n R ws st).map (·.1) = (wayLines n R' ws' st').map (·.1) := by
  induction hm with
  | nil => intro _ _ _ _ _ _; rfl
  | @cons w w' ws ws' hw _ ih =>
    intro st st' hc hc' e1 e2
    have IH := ih (fun x hx => h x (List.mem_cons_of_mem _ hx)) (fun x hx => h' x (List.mem_cons_of_mem _ hx))
      (fun x hx => hs x (List.mem_cons_of_mem _ hx))
    have h := h w List.mem_cons_self
    have h' := h' w List.mem_cons_self
    have hs := hs w List.mem_cons_self
    rw [wayLines, wayLines, hw.id]
    have nil_iff : R.wayRels.get w.id = none ↔ R'.wayRels.get w.id = none := by
      have l1 := congrArg List.length h.1
      have l2 := congrArg List.length h'.1
      have l3 : (rs w.id).length = (rs' w.id).length := match_length hs
      simp only [List.length_map] at l1 l2
      have n1 := h.2
      have n2 := h'.2
      cases a : R.wayRels.get w.id with
      | none =>
        cases b : R'.wayRels.get w.id with
        | none => simp
        | some l =>
          rw [a] at l1; rw [b] at l2
          simp only [Option.getD_none, Option.getD_some, List.length_nil] at l1 l2
          have : l = [] := List.length_eq_zero_iff.1 (by omega)
          exact absurd (b.trans (by rw [this])) n2
      | some l =>
        cases b : R'.wayRels.get w.id with
        | some l => simp
        | none =>
          rw [a] at l1; rw [b] at l2
          simp only [Option.getD_none, Option.getD_some, List.length_nil] at l1 l2
          have : l = [] := List.length_eq_zero_iff.1 (by omega)
          exact absurd (a.trans (by rw [this])) n1
    cases a : R.wayRels.get w.id with
    | none =>
      rw [nil_iff.1 a]
      simp only [Option.map_map]
      have := IH st st' hc hc' e1 e2
      cases x : wayLines n R ws st <;> cases y : wayLines n R' ws' st' <;> rw [x, y] at this <;> simp at this ⊢
      rw [this]
    | some l =>
      cases b : R'.wayRels.get w.id with
      | none => rw [nil_iff.2 b] at a; cases a
      | some l' =>
        have h1 := h.1
        have h2 := h'.1
        rw [a] at h1; rw [b] at h2
        obtain ⟨s1, g1, g2, g3⟩ := getLines_rows n.noColor n.line R.rels l (rs w.id) [] st h1 hc
        obtain ⟨s2, k1, k2, k3⟩ := getLines_rows n.noColor n.line R'.rels l' (rs' w.id) [] st' h2 hc'
        rw [← e1, ← e2, ← linesOf_same _ _ hs] at k1 k2
        simp only [g1, k1, Option.map_map]
        have e3 := g2.trans k2.symm
        simp only [Prod.mk.injEq] at e3
        have := IH s1 s2 g3 k3 e3.1 e3.2
        cases x : wayLines n R ws s1 <;> cases y : wayLines n R' ws' s2 <;> rw [x, y] at this <;> simp at this ⊢
        rw [this]

end Verif.Extract
