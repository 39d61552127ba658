import Verif.Extract.Spec

/-!
# Reading what has been written (lemmas)
-/

set_option linter.unusedSectionVars false
set_option linter.unusedSimpArgs false

namespace Verif.Extract
open Verif.Names (Str)
open Verif.Osm

variable {P : Type}

/-! ### attributes -/

/-- The same attributes, perhaps in another order. -/
structure Same (a b : Attrs) : Prop where
  wfl : FMap.WF a
  wfr : FMap.WF b
  get : ∀ k, FMap.get a k = FMap.get b k

theorem Same.mem {a b : Attrs} (h : Same a b) : SameAttrs a b := by
  intro kv
  constructor
  · intro hk
    exact FMap.mem_of_get ((h.get kv.1).symm.trans (FMap.get_of_mem h.wfl hk))
  · intro hk
    exact FMap.mem_of_get ((h.get kv.1).trans (FMap.get_of_mem h.wfr hk))

theorem Same.hits {a b : Attrs} (h : Same a b) (r : Rules) (k : Nat) : Hits r k a ↔ Hits r k b := by
  unfold Hits
  constructor
  · rintro ⟨kv, hk, h'⟩; exact ⟨kv, (h.mem kv).1 hk, h'⟩
  · rintro ⟨kv, hk, h'⟩; exact ⟨kv, (h.mem kv).2 hk, h'⟩

theorem kidVals_mem {k v : Str} {kids : List (Ev P)} (h : v ∈ kidVals k kids) : ∃ e ∈ kids, e.tag = .tag k v := by
  obtain ⟨e, he, hv⟩ := List.mem_filterMap.1 h
  obtain ⟨l, t⟩ := e
  refine ⟨_, he, ?_⟩
  split at hv
  · rename_i k' v' hl ht
    split at hv
    · rename_i hk
      simp only [Option.some.injEq] at hv
      simp only at ht
      rw [ht, ← hk, hv]
    · cases hv
  · cases hv

theorem kidMembers_mem {t : MemType} {m : Nat × Str} {kids : List (Ev P)} (h : m ∈ kidMembers t kids) :
    ∃ e ∈ kids, e.tag = .member t m.1 m.2 := by
  obtain ⟨e, he, hv⟩ := List.mem_filterMap.1 h
  obtain ⟨l, tg⟩ := e
  refine ⟨_, he, ?_⟩
  split at hv
  · rename_i t' r role hl ht
    split at hv
    · rename_i hk
      simp only [Option.some.injEq] at hv
      simp only at ht
      rw [ht, ← hk, ← hv]
    · cases hv
  · cases hv

theorem kidVals_append (k : Str) (a b : List (Ev P)) : kidVals k (a ++ b) = kidVals k a ++ kidVals k b := by
  simp [kidVals]
theorem kidRefs_append (a b : List (Ev P)) : kidRefs (a ++ b) = kidRefs a ++ kidRefs b := by
  simp [kidRefs]
theorem kidMembers_append (t : MemType) (a b : List (Ev P)) : kidMembers t (a ++ b) = kidMembers t a ++ kidMembers t b := by
  simp [kidMembers]

theorem kidVals_attrs (k : Str) (l : Attrs) :
    kidVals k (l.map fun kv => (⟨3, .tag kv.1 kv.2⟩ : Ev P)) = (l.filter fun kv => kv.1 = k).map (·.2) := by
  induction l with
  | nil => rfl
  | cons kv l ih =>
    rw [List.map_cons, show (⟨3, .tag kv.1 kv.2⟩ : Ev P) :: l.map (fun kv => (⟨3, .tag kv.1 kv.2⟩ : Ev P)) =
      [⟨3, .tag kv.1 kv.2⟩] ++ l.map (fun kv => (⟨3, .tag kv.1 kv.2⟩ : Ev P)) from rfl, kidVals_append, ih, List.filter_cons]
    by_cases h : kv.1 = k
    · simp [kidVals, h]
    · simp [kidVals, h]

theorem filter_key {l : Attrs} (h : FMap.WF l) (k : Str) : (l.filter fun kv => kv.1 = k).map (·.2) = (FMap.get l k).toList := by
  induction l with
  | nil => rfl
  | cons kv l ih =>
    have h' : kv.1 ∉ FMap.keys l ∧ FMap.WF l := List.nodup_cons.1 h
    rw [FMap.get_cons, List.filter_cons]
    by_cases e : kv.1 = k
    · have : l.filter (fun kv => decide (kv.1 = k)) = [] := by
        rw [List.filter_eq_nil_iff]
        intro x hx hk
        exact h'.1 (List.mem_map.2 ⟨x, hx, (of_decide_eq_true hk).trans e.symm⟩)
      simp [e, this]
    · simp [e, ih h'.2]

/-- What is written of attributes that survive writing. -/
theorem writeAttrs_eq {w : Pen P} (hw : ∀ a, (w.ord a).Perm a) {a : Attrs} (h : ∀ kv ∈ a, w.key kv.1 = kv.1 ∧ w.val kv.2 = kv.2) :
    writeAttrs w a = (w.ord a).map fun kv => ⟨3, .tag kv.1 kv.2⟩ := by
  unfold writeAttrs
  apply List.map_congr_left
  intro kv hk
  obtain ⟨h1, h2⟩ := h kv ((hw a).mem_iff.1 hk)
  rw [h1, h2]

theorem wf_perm {a b : Attrs} (h : a.Perm b) (hb : FMap.WF b) : FMap.WF a := (h.map (fun kv : Str × Str => kv.1)).nodup_iff.2 hb

theorem get_perm {a b : Attrs} (h : a.Perm b) (hb : FMap.WF b) (k : Str) : FMap.get a k = FMap.get b k := by
  have ha := wf_perm h hb
  cases e : FMap.get a k with
  | some v => exact (FMap.get_of_mem hb (h.mem_iff.1 (FMap.mem_of_get e))).symm
  | none =>
    cases e' : FMap.get b k with
    | none => rfl
    | some v => rw [FMap.get_of_mem ha (h.mem_iff.2 (FMap.mem_of_get e'))] at e; cases e

theorem attrs_clean {w : Pen P} {kids : List (Ev P)} (h : Clean w kids) (keys : List Str) :
    ∀ kv ∈ attrsOf keys kids [], w.key kv.1 = kv.1 ∧ w.val kv.2 = kv.2 := by
  intro kv hk
  have := FMap.get_of_mem (attrsOf_wf keys kids [] FMap.WF.nil) hk
  rw [get_attrsOf_nil, kidVal] at this
  split at this
  · obtain ⟨e, he, ht⟩ := kidVals_mem (List.mem_of_getLast? this)
    exact (h e he).1 _ _ ht
  · cases this

/-- The values of a key in what is written. -/
theorem kidVals_written {w : Pen P} (hw : ∀ a, (w.ord a).Perm a) {kids : List (Ev P)} (h : Clean w kids) (keys : List Str) (k : Str) :
    kidVals k (writeAttrs w (attrsOf keys kids [])) = (kidVal keys kids k).toList := by
  rw [writeAttrs_eq hw (attrs_clean h keys), kidVals_attrs, filter_key (wf_perm (hw _) (attrsOf_wf keys kids [] FMap.WF.nil)),
    get_perm (hw _) (attrsOf_wf keys kids [] FMap.WF.nil), get_attrsOf_nil]

/-- Attributes read again. -/
theorem reread {w : Pen P} (hw : ∀ a, (w.ord a).Perm a) {kids : List (Ev P)} (h : Clean w kids) {keys keys' : List Str}
    (hk : ∀ k ∈ keys', k ∈ keys) (pre : List (Ev P)) (hp : ∀ k, kidVals k pre = []) :
    Same (attrsOf keys' kids []) (attrsOf keys' (pre ++ writeAttrs w (attrsOf keys kids [])) []) := by
  refine ⟨attrsOf_wf _ _ _ FMap.WF.nil, attrsOf_wf _ _ _ FMap.WF.nil, fun k => ?_⟩
  rw [get_attrsOf_nil, get_attrsOf_nil, kidVal, kidVal]
  by_cases h' : k ∈ keys'
  · rw [if_pos h', if_pos h', kidVals_append, hp, List.nil_append, kidVals_written hw h, kidVal, if_pos (hk k h')]
    cases (kidVals k kids).getLast? <;> rfl
  · rw [if_neg h', if_neg h']

/-! ### elements -/

theorem writeAttrs_refs (w : Pen P) (a : Attrs) : kidRefs (writeAttrs w a) = [] := by
  unfold writeAttrs kidRefs
  rw [List.filterMap_map]
  exact List.filterMap_eq_nil_iff.2 fun _ _ => rfl
theorem writeAttrs_members (w : Pen P) (t : MemType) (a : Attrs) : kidMembers t (writeAttrs w a) = [] := by
  unfold writeAttrs kidMembers
  rw [List.filterMap_map]
  exact List.filterMap_eq_nil_iff.2 fun _ _ => rfl
theorem refs_refs (l : List Nat) : kidRefs (l.map fun i => (⟨3, .nd i⟩ : Ev P)) = l := by
  unfold kidRefs
  rw [List.filterMap_map]
  induction l with
  | nil => rfl
  | cons a l ih => rw [List.filterMap_cons]; simp only [Function.comp]; exact congrArg (a :: ·) ih
theorem refs_vals (l : List Nat) (k : Str) : kidVals k (l.map fun i => (⟨3, .nd i⟩ : Ev P)) = [] := by
  unfold kidVals
  rw [List.filterMap_map]
  exact List.filterMap_eq_nil_iff.2 fun _ _ => rfl
theorem members_vals (t : MemType) (g : Nat × Str → Str) (l : List (Nat × Str)) (k : Str) :
    kidVals k (l.map fun m => (⟨3, .member t m.1 (g m)⟩ : Ev P)) = [] := by
  unfold kidVals
  rw [List.filterMap_map]
  exact List.filterMap_eq_nil_iff.2 fun _ _ => rfl
theorem members_members (t : MemType) (g : Nat × Str → Str) (l : List (Nat × Str)) (h : ∀ m ∈ l, g m = m.2) :
    kidMembers t (l.map fun m => (⟨3, .member t m.1 (g m)⟩ : Ev P)) = l := by
  induction l with
  | nil => rfl
  | cons a l ih =>
    rw [List.map_cons, show (⟨3, .member t a.1 (g a)⟩ : Ev P) :: l.map (fun m => (⟨3, .member t m.1 (g m)⟩ : Ev P)) =
      [⟨3, .member t a.1 (g a)⟩] ++ l.map (fun m => (⟨3, .member t m.1 (g m)⟩ : Ev P)) from rfl, kidMembers_append,
      ih fun m hm => h m (List.mem_cons_of_mem _ hm)]
    simp [kidMembers, h a List.mem_cons_self]
theorem members_other (t t' : MemType) (ht : t ≠ t') (g : Nat × Str → Str) (l : List (Nat × Str)) :
    kidMembers t' (l.map fun m => (⟨3, .member t m.1 (g m)⟩ : Ev P)) = [] := by
  unfold kidMembers
  rw [List.filterMap_map]
  exact List.filterMap_eq_nil_iff.2 fun _ _ => by simp [ht]

/-- The elements of the written file. -/
def outNode (w : Pen P) (n : Nod P) : DNode P := ⟨n.id, w.pos n.pos, writeAttrs w n.attrs⟩
def outWay (w : Pen P) (x : Way) : DElem P := ⟨x.id, x.nodes.map (fun i => ⟨3, .nd i⟩) ++ writeAttrs w x.attrs⟩
def outRel (w : Pen P) (r : Rel) : DElem P :=
  ⟨r.id, r.nodes.map (fun m => (⟨3, .member .node m.1 (w.role m.2)⟩ : Ev P)) ++
    (r.ways.map (fun m => (⟨3, .member .way m.1 (w.role m.2)⟩ : Ev P)) ++ writeAttrs w r.attrs)⟩

/-- The written file as a document. -/
def outDoc (w : Pen P) (o : Out P) : Doc P :=
  ⟨head, o.nodes.map (outNode w), o.ways.map (outWay w), o.rels.map (outRel w)⟩

theorem writeFile_doc (w : Pen P) (o : Out P) : writeFile w o = (outDoc w o).tags := by
  simp only [writeFile, Doc.tags, outDoc, flat, List.map_map, List.flatMap_map]
  rfl

theorem reread_way {w : Pen P} (hw : ∀ a, (w.ord a).Perm a) {x : DElem P} (h : Clean w x.kids) {keys keys' : List Str}
    (hk : ∀ k ∈ keys', k ∈ keys) :
    (readWay keys' (outWay w (readWay keys x))).id = x.id ∧ (readWay keys' (outWay w (readWay keys x))).nodes = kidRefs x.kids ∧
    Same (readWay keys' x).attrs (readWay keys' (outWay w (readWay keys x))).attrs := by
  refine ⟨rfl, ?_, ?_⟩
  · show kidRefs (outWay w (readWay keys x)).kids = _
    rw [outWay, kidRefs_append, refs_refs, writeAttrs_refs, List.append_nil]
    rfl
  · exact reread hw h hk _ (refs_vals _)

theorem reread_node {w : Pen P} (hw : ∀ a, (w.ord a).Perm a) {x : DNode P} (h : Clean w x.kids) {keys keys' : List Str}
    (hk : ∀ k ∈ keys', k ∈ keys) : Same (readNod keys' x).attrs (readNod keys' (outNode w (readNod keys x))).attrs :=
  reread hw h hk [] fun _ => rfl

theorem reread_rel {w : Pen P} (hw : ∀ a, (w.ord a).Perm a) {x : DElem P} (h : Clean w x.kids) {keys keys' : List Str}
    (hk : ∀ k ∈ keys', k ∈ keys) (r : Rel) (hr : r.attrs = attrsOf keys x.kids [])
    (hn : ∀ m ∈ r.nodes, m ∈ kidMembers .node x.kids) (hy : ∀ m ∈ r.ways, m ∈ kidMembers .way x.kids) :
    (readRel keys' (outRel w r)).id = r.id ∧ (readRel keys' (outRel w r)).nodes = r.nodes ∧
    (readRel keys' (outRel w r)).ways = r.ways ∧ Same (readRel keys' x).attrs (readRel keys' (outRel w r)).attrs := by
  have hrole : ∀ t (l : List (Nat × Str)), (∀ m ∈ l, m ∈ kidMembers t x.kids) → ∀ m ∈ l, w.role m.2 = m.2 := by
    intro t l hl m hm
    obtain ⟨e, he, ht⟩ := kidMembers_mem (hl m hm)
    exact (h e he).2 _ _ _ ht
  refine ⟨rfl, ?_, ?_, ?_⟩
  · show kidMembers .node (outRel w r).kids = _
    rw [outRel, kidMembers_append, kidMembers_append, members_members .node _ _ (hrole .node _ hn), members_other .way .node (by decide),
      writeAttrs_members, List.append_nil, List.append_nil]
  · show kidMembers .way (outRel w r).kids = _
    rw [outRel, kidMembers_append, kidMembers_append, members_members .way _ _ (hrole .way _ hy), members_other .node .way (by decide),
      writeAttrs_members, List.append_nil, List.nil_append]
  · show Same _ (attrsOf keys' (outRel w r).kids [])
    rw [outRel, ← List.append_assoc, hr]
    exact reread hw h hk _ fun k => by rw [kidVals_append, members_vals, members_vals, List.append_nil]

/-! ### the written file is a proper document -/

theorem writeAttrs_tags (w : Pen P) (a : Attrs) : ∀ e ∈ writeAttrs w a, e.level = 3 ∧ isNode e.tag = false ∧ isWay e.tag = false ∧ isRel e.tag = false := by
  intro e he
  obtain ⟨kv, _, rfl⟩ := List.mem_map.1 he
  exact ⟨rfl, rfl, rfl, rfl⟩

theorem outWay_tags (w : Pen P) (x : Way) : ∀ e ∈ (outWay w x).kids, e.level = 3 ∧ isNode e.tag = false ∧ isWay e.tag = false ∧ isRel e.tag = false := by
  intro e he
  rcases List.mem_append.1 he with he | he
  · obtain ⟨kv, _, rfl⟩ := List.mem_map.1 he
    exact ⟨rfl, rfl, rfl, rfl⟩
  · exact writeAttrs_tags w _ e he

theorem outRel_tags (w : Pen P) (x : Rel) : ∀ e ∈ (outRel w x).kids, e.level = 3 ∧ isNode e.tag = false ∧ isWay e.tag = false ∧ isRel e.tag = false := by
  intro e he
  rcases List.mem_append.1 he with he | he
  · obtain ⟨kv, _, rfl⟩ := List.mem_map.1 he
    exact ⟨rfl, rfl, rfl, rfl⟩
  · rcases List.mem_append.1 he with he | he
    · obtain ⟨kv, _, rfl⟩ := List.mem_map.1 he
      exact ⟨rfl, rfl, rfl, rfl⟩
    · exact writeAttrs_tags w _ e he

end Verif.Extract
