import Verif.Extract.Sim
import Verif.Attrs.Props

/-!
# What is written and what is read again (lemmas)
-/

set_option linter.unusedSectionVars false
set_option linter.unusedSimpArgs false

namespace Verif.Extract
open Verif.Names (Str)
open Verif.Osm Verif.Whole
open Verif.Attrs (Has Met Wanted)

variable {P S T D : Type}

/-! ### lists -/

theorem match_filter {A B : Type} {R : B → B → Prop} (r r' : A → B) (q : A → Bool) (k k' : B → Bool) : ∀ l : List A,
    (∀ x ∈ l, k (r x) = true → q x = true) → (∀ x ∈ l, q x = true → k' (r' x) = k (r x)) →
    (∀ x ∈ l, q x = true → k (r x) = true → R (r x) (r' x)) →
    Match R ((l.map r).filter k) (((l.filter q).map r').filter k') := by
  intro l
  induction l with
  | nil => intro _ _ _; exact .nil
  | cons x l ih =>
    intro h1 h2 h3
    have IH := ih (fun y hy => h1 y (List.mem_cons_of_mem _ hy)) (fun y hy => h2 y (List.mem_cons_of_mem _ hy))
      (fun y hy => h3 y (List.mem_cons_of_mem _ hy))
    have h1 := h1 x List.mem_cons_self
    have h2 := h2 x List.mem_cons_self
    have h3 := h3 x List.mem_cons_self
    rw [List.map_cons, List.filter_cons, List.filter_cons]
    cases hq : q x with
    | false =>
      have : k (r x) = false := by
        cases hk : k (r x) with
        | false => rfl
        | true => rw [h1 hk] at hq; cases hq
      rw [this]
      exact IH
    | true =>
      simp only [if_true, List.map_cons]
      rw [List.filter_cons, h2 hq]
      cases hk : k (r x) with
      | false => exact IH
      | true => exact .cons (h3 hq hk) IH

/-! ### members -/

/-- A member of a relation that is not flat. -/
def In (sel : Rel → List (Nat × Str)) (rs : List Rel) (i : Nat) : Prop := ∃ r ∈ rs, r.keepFlags &&& REL_NO_DOWN = 0 ∧ i ∈ (sel r).map (·.1)

theorem in_cons (sel : Rel → List (Nat × Str)) (r : Rel) (rs : List Rel) (i : Nat) :
    In sel (r :: rs) i ↔ (r.keepFlags &&& REL_NO_DOWN = 0 ∧ i ∈ (sel r).map (·.1)) ∨ In sel rs i := by
  simp [In]

theorem mem_filter_ids {W : Nat → Bool} {i : Nat} (h : W i = true) (l : List (Nat × Str)) :
    i ∈ (l.filter fun m => W m.1).map (·.1) ↔ i ∈ l.map (·.1) := by
  simp only [List.mem_map, List.mem_filter]
  constructor
  · rintro ⟨m, ⟨h1, _⟩, h3⟩; exact ⟨m, h1, h3⟩
  · rintro ⟨m, h1, h3⟩; exact ⟨m, ⟨h1, by rw [h3]; exact h⟩, h3⟩

theorem cut_in {W N : Nat → Bool} {rs rs' : List Rel} (h : Cut W N rs rs') (i : Nat) :
    (W i = true → (In (·.ways) rs i ↔ In (·.ways) rs' i)) ∧ (N i = true → (In (·.nodes) rs i ↔ In (·.nodes) rs' i)) := by
  induction h with
  | nil => exact ⟨fun _ => Iff.rfl, fun _ => Iff.rfl⟩
  | @drop r l l' h1 h2 _ ih =>
    refine ⟨fun hi => ?_, fun hi => ?_⟩
    · rw [in_cons, ← ih.1 hi]
      refine ⟨fun h => h.resolve_left ?_, .inr⟩
      rintro ⟨_, hm⟩
      obtain ⟨m, hm', rfl⟩ := List.mem_map.1 hm
      rw [h1 m hm'] at hi; cases hi
    · rw [in_cons, ← ih.2 hi]
      refine ⟨fun h => h.resolve_left ?_, .inr⟩
      rintro ⟨_, hm⟩
      obtain ⟨m, hm', rfl⟩ := List.mem_map.1 hm
      rw [h2 m hm'] at hi; cases hi
  | @keep r r' l l' hr _ ih =>
    refine ⟨fun hi => ?_, fun hi => ?_⟩
    · rw [in_cons, in_cons, ← ih.1 hi, ← hr.flat, hr.ways, mem_filter_ids hi]
    · rw [in_cons, in_cons, ← ih.2 hi, ← hr.flat, hr.nodes, mem_filter_ids hi]

theorem member_in (f : Flt) (keys : List Str) (l : List (DElem P)) (i : Nat) :
    (Member (relState f keys l).wayRels (relState f keys l).flat i ↔ In (·.ways) (l.filterMap fun x => keepRel f (readRel keys x)) i) ∧
    (Member (relState f keys l).nodeRels (relState f keys l).flat i ↔ In (·.nodes) (l.filterMap fun x => keepRel f (readRel keys x)) i) := by
  have hinv := relState_inv f keys l
  exact ⟨member_aux (sel := fun r => r.ways.map (·.1)) hinv.flat hinv.ways i, member_aux (sel := fun r => r.nodes.map (·.1)) hinv.flat hinv.nodes i⟩

/-- What a configuration keeps because of a relation, is kept by the merged rules. -/
theorem in_merged {os : List Opts} {ord : Attrs → Attrs} {p : Par P S T D} (hc : Configs os ord p) {l : List (DElem P)} (hz : ∀ x ∈ l, x.id ≠ 0)
    (hR : ∀ x ∈ l, ∀ f f', Reason os x f → Reason os x f' → (f &&& REL_NO_DOWN = 0 ↔ f' &&& REL_NO_DOWN = 0))
    {t : MemType} {sel : Rel → List (Nat × Str)} (hs : ∀ keys (x : DElem P) f, sel { readRel keys x with keepFlags := f } = kidMembers t x.kids)
    {i : Nat} (h : In sel (l.filterMap fun x => keepRel p.f (readRel p.keysR x)) i) :
    In sel (l.filterMap fun x => keepRel ⟨mergeAll os, [], ord⟩ (readRel (os.flatMap keptRel) x)) i := by
  obtain ⟨r, hr, h1, h2⟩ := h
  obtain ⟨x, hx, hk⟩ := List.mem_filterMap.1 hr
  obtain ⟨_, hwant, rfl⟩ := (keepRel_iff hc.flt _ _).1 hk
  have hm : RelWanted ⟨mergeAll os, [], ord⟩ (readRel (os.flatMap keptRel) x) := by
    refine ⟨merged_hits hc (attrs_sub hc.kR x.kids) ?_, no_drop _ _⟩
    have := hwant.keep
    rw [hc.keep] at this
    exact this
  refine ⟨_, List.mem_filterMap.2 ⟨x, hx, (keepRel_iff hc.merged _ _).2 ⟨hz x hx, hm, rfl⟩⟩, ?_, ?_⟩
  · refine (hR x hx _ _ (reason_own hc ?_ (flags_ne hc.flt hwant.keep)) (reason_merged hc ?_ (flags_ne hc.merged hm.keep))).1 h1
    · intro kv hkv
      exact has_of_mem ((hc.order _ _).1 hkv)
    · intro kv hkv
      exact has_of_mem ((hc.order' _ _).1 hkv)
  · rw [hs] at h2 ⊢
    exact h2

/-! ### what is written -/

section
variable (w : Pen P) (os : List Opts) (ord : Attrs → Attrs) (p : Par P S T D) (d : Doc P)

def stm : RelSt := relState ⟨mergeAll os, [], ord⟩ (os.flatMap keptRel) d.rels
def wq (x : DElem P) : Bool :=
  keepWay ⟨mergeAll os, [], ord⟩ (stm os ord d).wayRels (stm os ord d).flat (p.box (boxReport p.bbox d.nodes)) (readWay (os.flatMap keptWay) x)
def uses : List Nat := (d.ways.filter (wq os ord p d)).flatMap fun x => kidRefs x.kids
def nq (x : DNode P) : Bool :=
  keepNode ⟨mergeAll os, [], ord⟩ (fun i => (uses os ord p d).contains i) (fun _ => false) (stm os ord d).nodeRels (stm os ord d).flat
    (p.box (boxReport p.bbox d.nodes)) (readNod (os.flatMap keptNode) x)
def wids : List Nat := (d.ways.filter (wq os ord p d)).map (·.id)
def nids : List Nat := uses os ord p d ++ (d.nodes.filter (nq os ord p d)).map (·.id)

/-- What the file is filtered to. -/
def sel : Out P := filterWrite p.p0 ⟨mergeAll os, [], ord⟩ (os.flatMap keptNode) (os.flatMap keptWay) (os.flatMap keptRel) p.box p.bbox d.tags

/-- Its elements. -/
def selDoc : Doc P :=
  ⟨head, ((d.nodes.filter (nq os ord p d)).map (readNod (os.flatMap keptNode))).map (outNode w),
    ((d.ways.filter (wq os ord p d)).map (readWay (os.flatMap keptWay))).map (outWay w),
    (((d.rels.filterMap fun x => keepRel ⟨mergeAll os, [], ord⟩ (readRel (os.flatMap keptRel) x)).filterMap
      (writeRel (wids os ord p d) (nids os ord p d))).map (outRel w))⟩

end

section
variable {w : Pen P} {os : List Opts} {ord : Attrs → Attrs} {p : Par P S T D} {d : Doc P}

theorem not_wanted (hc : Configs os ord p) {x : DElem P} (h : ∀ f, ¬ Reason os x f) :
    keepRel ⟨mergeAll os, [], ord⟩ (readRel (os.flatMap keptRel) x) = none := by
  cases hk : keepRel ⟨mergeAll os, [], ord⟩ (readRel (os.flatMap keptRel) x) with
  | none => rfl
  | some r =>
    obtain ⟨_, hw, _⟩ := (keepRel_iff hc.merged _ _).1 hk
    refine absurd (reason_merged hc (x := x) (a := ord (readRel (os.flatMap keptRel) x).attrs) ?_ (flags_ne hc.merged hw.keep)) (h _)
    intro kv hkv
    exact has_of_mem ((hc.order' _ _).1 hkv)

theorem sel_eq (hc : Configs os ord p) (hd : d.Ok) (hl : Complete os d (sel os ord p d)) :
    sel os ord p d = ⟨(d.nodes.filter (nq os ord p d)).map (readNod (os.flatMap keptNode)),
      (d.ways.filter (wq os ord p d)).map (readWay (os.flatMap keptWay)),
      (d.rels.filterMap fun x => keepRel ⟨mergeAll os, [], ord⟩ (readRel (os.flatMap keptRel) x)).filterMap
        (writeRel (wids os ord p d) (nids os ord p d))⟩ := by
  obtain ⟨post, h1, h2, h3⟩ := filterWrite_eq p.p0 ⟨mergeAll os, [], ord⟩ (os.flatMap keptNode) (os.flatMap keptWay) (os.flatMap keptRel) p.box p.bbox d hd
  have hne : d.ways ≠ [] := by
    intro e
    refine hl.any ?_
    unfold sel
    rw [h3, e]
    rfl
  have hs : seenRels d.ways d.rels = d.rels := by rw [seenRels, if_neg hne]
  rw [hs] at h1 h2 h3
  have hlast := any_last _ d.ways post h1 h2
  change sel os ord p d = ⟨(d.nodes.filter (nq os ord p d)).map (readNod (os.flatMap keptNode)),
      (d.ways.filter (wq os ord p d)).map (readWay (os.flatMap keptWay)),
      ((seenRels post d.rels).filterMap fun x => keepRel ⟨mergeAll os, [], ord⟩ (readRel (os.flatMap keptRel) x)).filterMap
        (writeRel (wids os ord p d) (nids os ord p d))⟩ at h3
  rw [h3]
  congr 2
  rcases hl.first with ⟨x, hx, hno⟩ | hno
  · have : post ≠ [] := by
      intro e
      rcases hlast.1 e with e | ⟨y, hy, hq⟩
      · exact hne e
      · rw [hx] at hy
        cases hy
        refine hno (readWay (os.flatMap keptWay) x) ?_ rfl
        rw [h3]
        exact List.mem_map.2 ⟨x, List.mem_filter.2 ⟨List.mem_of_getLast? hx, hq⟩, rfl⟩
    rw [seenRels, if_neg this]
  · unfold seenRels
    split
    · cases hr : d.rels with
      | nil => rfl
      | cons x l =>
        rw [List.filterMap_cons, not_wanted hc (hno x (by rw [hr]; rfl))]
        rfl
    · rfl

theorem extract_eq (hc : Configs os ord p) (hd : d.Ok) (hl : Complete os d (sel os ord p d)) :
    extract w p.p0 os ord p.box p.bbox d.tags = (selDoc w os ord p d).tags := by
  show writeFile w (sel os ord p d) = _
  rw [writeFile_doc, sel_eq hc hd hl]
  rfl

/-! ### areas -/

theorem add_mem (bbox : P → Bool) (nohup : Str → Str → Bool) (nodes : List (DNode P)) (i : Nat) :
    BoxOp.add i ∈ passReport bbox nohup nodes ↔ ∃ x ∈ nodes, x.id = i ∧ bbox x.pos = true := by
  unfold passReport
  simp only [List.mem_flatMap, List.mem_cons, List.mem_filterMap]
  constructor
  · rintro ⟨x, hx, h | ⟨e, _, h⟩⟩
    · split at h
      · rename_i hb
        cases h
        exact ⟨x, hx, rfl, hb⟩
      · cases h
    · split at h
      · split at h <;> cases h
      · cases h
  · rintro ⟨x, hx, rfl, hb⟩
    exact ⟨x, hx, .inl (by rw [if_pos hb])⟩

theorem add_box (bbox : P → Bool) (nodes : List (DNode P)) (i : Nat) :
    BoxOp.add i ∈ boxReport bbox nodes ↔ ∃ x ∈ nodes, x.id = i ∧ bbox x.pos = true := by
  unfold boxReport
  simp only [List.mem_map]
  constructor
  · rintro ⟨x, hx, h⟩
    split at h
    · rename_i hb
      cases h
      exact ⟨x, hx, rfl, hb⟩
    · cases h
  · rintro ⟨x, hx, rfl, hb⟩
    exact ⟨x, hx, by rw [if_pos hb]⟩

theorem kidVals_iff {k v : Str} {kids : List (Ev P)} : v ∈ kidVals k kids ↔ ⟨3, .tag k v⟩ ∈ kids := by
  unfold kidVals
  rw [List.mem_filterMap]
  constructor
  · rintro ⟨⟨l, t⟩, he, hv⟩
    split at hv
    · rename_i k' v' hl ht
      split at hv
      · rename_i hk
        simp only [Option.some.injEq] at hv
        simp only at ht hl
        rw [← hk, ← hv, ← ht, ← hl]
        exact he
      · cases hv
    · cases hv
  · intro h
    exact ⟨_, h, by simp⟩

theorem hup_mem (bbox : P → Bool) (nohup : Str → Str → Bool) (nodes : List (DNode P)) (i : Nat) :
    BoxOp.nohup i ∈ passReport bbox nohup nodes ↔ ∃ x ∈ nodes, x.id = i ∧ ∃ k v, v ∈ kidVals k x.kids ∧ nohup k v = true := by
  unfold passReport
  simp only [List.mem_flatMap, List.mem_cons, List.mem_filterMap]
  constructor
  · rintro ⟨x, hx, h | ⟨⟨l, t⟩, he, h⟩⟩
    · split at h <;> cases h
    · split at h
      · rename_i k v hl ht
        split at h
        · rename_i hn
          cases h
          simp only at hl ht
          subst hl ht
          exact ⟨x, hx, rfl, k, v, kidVals_iff.2 he, hn⟩
        · cases h
      · cases h
  · rintro ⟨x, hx, rfl, k, v, hv, hn⟩
    exact ⟨x, hx, .inr ⟨_, kidVals_iff.1 hv, by simp [hn]⟩⟩

theorem area_iff (hx : Exact p) (d : Doc P) (i : Nat) : inArea p d i = true ↔ ∃ x ∈ d.nodes, x.id = i ∧ p.bbox x.pos = true :=
  (hx.box _ _).trans (add_mem _ _ _ _)

theorem box_area (hx : Exact p) (d : Doc P) : p.box (boxReport p.bbox d.nodes) = inArea p d := by
  funext i
  rw [Bool.eq_iff_iff, area_iff hx, hx.box, add_box]

theorem turn_iff (hx : Exact p) (d : Doc P) (i : Nat) :
    noTurn p d i = true ↔ ∃ x ∈ d.nodes, x.id = i ∧ ∃ k v, v ∈ kidVals k x.kids ∧ fNohup p.o k v = true :=
  (hx.hup _ _).trans (hup_mem _ _ _ _)

theorem nohup_key {o : Opts} {k v : Str} (h : fNohup o k v = true) : k ∈ keptNode o := by
  have : k ∈ o.nohup.keys := by
    apply Classical.byContradiction
    intro hn
    unfold fNohup at h
    rw [(FMap.get_eq_none_iff _ _).2 hn] at h
    cases h
  simp only [keptNode, List.mem_append]
  exact .inl (.inl (.inl (.inl (.inr this))))

/-- Nodes that are written are in the area, and without turns, as before. -/
theorem areas {q : Par P S T D} (hc : Configs os ord p) (hx : Exact p) (hL : Lossless w d) {i : Nat} (hi : ∀ x ∈ d.nodes, x.id = i → nq os ord q d x = true) :
    inArea p (selDoc w os ord q d) i = inArea p d i ∧ noTurn p (selDoc w os ord q d) i = noTurn p d i := by
  have mem : ∀ y, y ∈ (selDoc w os ord q d).nodes ↔ ∃ x ∈ d.nodes, nq os ord q d x = true ∧ y = outNode w (readNod (os.flatMap keptNode) x) := by
    intro y
    simp only [selDoc, List.mem_map, List.mem_filter]
    constructor
    · rintro ⟨n, ⟨x, ⟨h1, h2⟩, rfl⟩, rfl⟩
      exact ⟨x, h1, h2, rfl⟩
    · rintro ⟨x, h1, h2, rfl⟩
      exact ⟨_, ⟨x, ⟨h1, h2⟩, rfl⟩, rfl⟩
  refine ⟨?_, ?_⟩
  · rw [Bool.eq_iff_iff, area_iff hx, area_iff hx]
    constructor
    · rintro ⟨y, hy, h1, h2⟩
      obtain ⟨x, hx', _, rfl⟩ := (mem y).1 hy
      refine ⟨x, hx', h1, ?_⟩
      have : p.bbox (w.pos x.pos) = true := h2
      rwa [hL.pos x hx'] at this
    · rintro ⟨x, hx', h1, h2⟩
      refine ⟨_, (mem _).2 ⟨x, hx', hi x hx' h1, rfl⟩, h1, ?_⟩
      show p.bbox (w.pos x.pos) = true
      rwa [hL.pos x hx']
  · rw [Bool.eq_iff_iff, turn_iff hx, turn_iff hx]
    have vals : ∀ x ∈ d.nodes, ∀ k v, fNohup p.o k v = true →
        (v ∈ kidVals k (outNode w (readNod (os.flatMap keptNode) x)).kids ↔ v ∈ kidVals k x.kids) := by
      intro x hx' k v hn
      have : kidVals k (outNode w (readNod (os.flatMap keptNode) x)).kids = (kidVal (os.flatMap keptNode) x.kids k).toList :=
        kidVals_written hL.order (hL.nodes x hx') _ k
      rw [this, kidVal, if_pos (List.mem_flatMap.2 ⟨p.o, hc.mem, nohup_key hn⟩)]
      have ho := hL.once x hx' k
      cases hv : kidVals k x.kids with
      | nil => simp
      | cons a l =>
        rw [hv] at ho
        cases l with
        | nil => simp
        | cons b l => simp at ho
    constructor
    · rintro ⟨y, hy, h1, k, v, h2, h3⟩
      obtain ⟨x, hx', _, rfl⟩ := (mem y).1 hy
      exact ⟨x, hx', h1, k, v, (vals x hx' k v h3).1 h2, h3⟩
    · rintro ⟨x, hx', h1, k, v, h2, h3⟩
      exact ⟨_, (mem _).2 ⟨x, hx', hi x hx' h1, rfl⟩, h1, k, v, (vals x hx' k v h3).2 h2, h3⟩

theorem nq_use (hd : d.Ok) (hc : Configs os ord p) {x : DNode P} (hx : x ∈ d.nodes) (h : x.id ∈ uses os ord p d) : nq os ord p d x = true := by
  refine (keepNode_iff hc.merged _ _ _ _ _ _).2 ⟨hd.nodes.nz _ (List.mem_map.2 ⟨x, hx, rfl⟩), ?_⟩
  have : (uses os ord p d).contains (readNod (os.flatMap keptNode) x).id = true := List.contains_iff_mem.2 h
  exact ⟨.inl this, .inl this, .inl this⟩

theorem areas_use {q : Par P S T D} (hd : d.Ok) (hc : Configs os ord p) (hq : Configs os ord q) (hx : Exact p) (hL : Lossless w d) {i : Nat}
    (hi : i ∈ uses os ord q d) : inArea p (selDoc w os ord q d) i = inArea p d i ∧ noTurn p (selDoc w os ord q d) i = noTurn p d i :=
  areas hc hx hL fun x hx' e => nq_use hd hq hx' (e ▸ hi)

theorem areas_node {q : Par P S T D} (hd : d.Ok) (hc : Configs os ord p) (hx : Exact p) (hL : Lossless w d) {x : DNode P} (hm : x ∈ d.nodes)
    (hq : nq os ord q d x = true) :
    inArea p (selDoc w os ord q d) x.id = inArea p d x.id ∧ noTurn p (selDoc w os ord q d) x.id = noTurn p d x.id :=
  areas hc hx hL fun y hy e => by rw [inj_of_nodup_map (·.id) hd.nodes.nodup hy hm e]; exact hq

/-! ### the written file is a proper document -/

theorem proper_sub {A : Type} {l : List A} {id : A → Nat} {kids : A → List (Ev P)} (h : (l.map id).Nodup ∧ ∀ x ∈ l, id x ≠ 0)
    (hk : ∀ x ∈ l, ∀ e ∈ kids x, 3 ≤ e.level) : Proper (l.map id) (l.map kids) := by
  refine ⟨fun i hi => ?_, h.1, fun k hk' => ?_⟩
  · obtain ⟨x, hx, rfl⟩ := List.mem_map.1 hi
    exact h.2 x hx
  · obtain ⟨x, hx, rfl⟩ := List.mem_map.1 hk'
    exact hk x hx

theorem filterMap_ids {A B : Type} (g : A → Option B) (ia : A → Nat) (ib : B → Nat) (h : ∀ a b, g a = some b → ib b = ia a) (l : List A) :
    ((l.filterMap g).map ib).Sublist (l.map ia) := by
  induction l with
  | nil => exact .slnil
  | cons a l ih =>
    rw [List.filterMap_cons]
    cases hg : g a with
    | none => exact ih.cons _
    | some b =>
      simp only [List.map_cons]
      rw [h a b hg]
      exact ih.cons_cons _

theorem written_ok (hd : d.Ok) (hc : Configs os ord p) (hx : Exact p) (hne : d.ways.filter (wq os ord p d) ≠ []) : (selDoc w os ord p d).Ok := by
  constructor
  case head =>
    refine ⟨⟨0, .other⟩, [⟨1, .other⟩, ⟨2, .other⟩], rfl, ?_⟩
    intro e he
    simp only [List.mem_cons, List.not_mem_nil, or_false] at he
    rcases he with rfl | rfl <;> rfl
  case some =>
    obtain ⟨x, l, hxl⟩ := List.exists_cons_of_ne_nil hne
    have hm : x ∈ d.ways.filter (wq os ord p d) := by rw [hxl]; exact List.mem_cons_self
    obtain ⟨_, hq⟩ := List.mem_filter.1 hm
    obtain ⟨_, hq⟩ := (keepWay_iff hc.merged _ _ _ _).1 hq
    obtain ⟨i, hi, hb⟩ := hq.inbox
    rw [box_area hx, area_iff hx] at hb
    obtain ⟨y, hy, rfl, _⟩ := hb
    have := nq_use hd hc hy (List.mem_flatMap.2 ⟨x, hm, hi⟩)
    intro e
    have h2 : outNode w (readNod (os.flatMap keptNode) y) ∈ (selDoc w os ord p d).nodes :=
      List.mem_map.2 ⟨_, List.mem_map.2 ⟨y, List.mem_filter.2 ⟨hy, this⟩, rfl⟩, rfl⟩
    rw [e] at h2
    cases h2
  case nodes =>
    show Proper ((((d.nodes.filter _).map _).map _).map _) _
    refine proper_sub ⟨?_, ?_⟩ ?_
    · rw [List.map_map, List.map_map]
      exact ((List.filter_sublist (p := nq os ord p d) (l := d.nodes)).map (·.id)).nodup hd.nodes.nodup
    · intro y hy
      simp only [List.mem_map, List.mem_filter] at hy
      obtain ⟨_, ⟨x, ⟨h1, _⟩, rfl⟩, rfl⟩ := hy
      exact hd.nodes.nz _ (List.mem_map.2 ⟨x, h1, rfl⟩)
    · intro y hy e he
      obtain ⟨n, _, rfl⟩ := List.mem_map.1 hy
      rw [(writeAttrs_tags w _ e he).1]; exact Nat.le_refl _
  case ways =>
    show Proper ((((d.ways.filter _).map _).map _).map _) _
    refine proper_sub ⟨?_, ?_⟩ ?_
    · rw [List.map_map, List.map_map]
      exact ((List.filter_sublist (p := wq os ord p d) (l := d.ways)).map (·.id)).nodup hd.ways.nodup
    · intro y hy
      simp only [List.mem_map, List.mem_filter] at hy
      obtain ⟨_, ⟨x, ⟨h1, _⟩, rfl⟩, rfl⟩ := hy
      exact hd.ways.nz _ (List.mem_map.2 ⟨x, h1, rfl⟩)
    · intro y hy e he
      obtain ⟨n, _, rfl⟩ := List.mem_map.1 hy
      rw [(outWay_tags w _ e he).1]; exact Nat.le_refl _
  case rels =>
    show Proper ((((d.rels.filterMap _).filterMap _).map _).map _) _
    have sub : ((((d.rels.filterMap fun x => keepRel ⟨mergeAll os, [], ord⟩ (readRel (os.flatMap keptRel) x)).filterMap
        (writeRel (wids os ord p d) (nids os ord p d))).map (outRel w)).map (·.id)).Sublist (d.rels.map (·.id)) := by
      rw [List.map_map]
      refine (filterMap_ids _ (fun r : Rel => r.id) _ ?_ _).trans (filterMap_ids _ (fun x : DElem P => x.id) (fun r : Rel => r.id) ?_ _)
      · intro r r' h
        unfold writeRel at h
        simp only at h
        split at h
        · simp only [Option.some.injEq] at h
          subst h
          rfl
        · cases h
      · intro x r h
        obtain ⟨_, _, rfl⟩ := (keepRel_iff hc.merged _ _).1 h
        rfl
    refine proper_sub ⟨sub.nodup hd.rels.nodup, ?_⟩ ?_
    · intro y hy
      exact hd.rels.nz _ (sub.subset (List.mem_map.2 ⟨y, hy, rfl⟩))
    · intro y hy e he
      obtain ⟨n, _, rfl⟩ := List.mem_map.1 hy
      rw [(outRel_tags w _ e he).1]; exact Nat.le_refl _
  case plainWays =>
    intro y hy e he
    obtain ⟨n, _, rfl⟩ := List.mem_map.1 hy
    exact (outWay_tags w _ e he).2
  case plainRels =>
    intro y hy e he
    obtain ⟨n, _, rfl⟩ := List.mem_map.1 hy
    exact (outRel_tags w _ e he).2

end

end Verif.Extract
