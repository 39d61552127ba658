import Verif.Fetch.Part

/-!
# Queries for map data (lemmas)
-/

namespace Verif.Fetch
open Verif.Names (Str)
open Verif.Osm Verif.Whole Verif.Extract
open Verif.Attrs (Has Met Wanted)
open Verif.BBoxIdx (Pt InBox Box treeHas leafs)

variable {P S T D : Type}

/-- A rule of one configuration is a rule of all. -/
theorem merged_any {os : List Opts} (hw : ∀ o ∈ os, WFR o.keep) {o : Opts} (ho : o ∈ os) {k v : Str} {f : Nat} (h : look o.keep k v = some f) :
    ∃ f', look (mergeAll os) k v = some f' ∧ ∃ q ∈ os, look q.keep k v = some f' := by
  obtain ⟨_, hl⟩ := merged_look os hw
  have first : ∀ l : List Opts, o ∈ l → ∃ pre q post f', l = pre ++ q :: post ∧ look q.keep k v = some f' ∧ ∀ q' ∈ pre, look q'.keep k v = none := by
    intro l
    induction l with
    | nil => intro h; cases h
    | cons q l ih =>
      intro hm
      cases hp : look q.keep k v with
      | some f' => exact ⟨[], q, l, f', rfl, hp, fun q hq => by cases hq⟩
      | none =>
        rcases List.mem_cons.mp hm with hq | hm
        · rw [← hq, h] at hp; cases hp
        · obtain ⟨pre, p', post, f', rfl, h4, h5⟩ := ih hm
          refine ⟨q :: pre, p', post, f', rfl, h4, fun q' hq' => ?_⟩
          rcases List.mem_cons.1 hq' with rfl | hq'
          · exact hp
          · exact h5 q' hq'
  obtain ⟨pre, q, post, f', e, h1, h2⟩ := first os ho
  exact ⟨f', (hl k v f').2 ⟨pre, q, post, e, h1, h2⟩, q, by rw [e]; simp, h1⟩

theorem look_mem {rules : Rules} {k v : Str} {f : Nat} (h : look rules k v = some f) : ∃ vals, (k, vals) ∈ rules ∧ (v, f) ∈ vals := by
  obtain ⟨vals, h1, h2⟩ := Option.bind_eq_some_iff.1 h
  exact ⟨vals, FMap.mem_of_get h1, FMap.mem_of_get h2⟩

/-- A rule that an element meets has its tag. -/
theorem met_tagged {os : List Opts} {p : Par P S T D} (hc : Chosen os p) (hl : NoLists os) {kind : Nat} {kids : List (Ev P)} (h : Met p.o.keep kind kids) :
    ∃ k v f, look p.o.keep k v = some f ∧ f &&& kind = 0 ∧ Tagged kids k (valOf v) := by
  obtain ⟨k, t, ht, hr⟩ := h
  obtain ⟨v, f, h1, h2, h3⟩ := (ruleHit_look (hc.wf _ hc.mem) kind (k, t)).1 hr
  refine ⟨k, v, f, h1, h2, t, ht, fun u hu => ?_⟩
  unfold valOf at hu
  split at hu
  · cases hu
  · rename_i hv
    rw [Option.some.injEq] at hu
    subst hu
    rcases h3 with h | h | ⟨h, _⟩
    · exact absurd h hv
    · exact h
    · have h0 := hl _ hc.mem k v f h1
      simp [h0] at h

/-! ### osmfilter -/

theorem filter_rule {os : List Opts} {p : Par P S T D} (hc : Chosen os p) (hl : NoLists os) {kind : Nat} {kids : List (Ev P)} (h : Met p.o.keep kind kids) :
    ∃ kv ∈ (osmfilter os).keep, Tagged kids kv.1 kv.2 := by
  obtain ⟨k, v, f, h1, _, h3⟩ := met_tagged hc hl h
  obtain ⟨f', h4, _⟩ := merged_any hc.wf hc.mem h1
  obtain ⟨vals, h5, h6⟩ := look_mem h4
  exact ⟨(k, valOf v), List.mem_flatMap.2 ⟨_, h5, List.mem_map.2 ⟨_, h6, rfl⟩⟩, h3⟩

theorem left_enough {os : List Opts} {p : Par P S T D} {d : Doc P} (hc : Chosen os p) (hp : Reader p) (hl : NoLists os) {a : DNode P → Bool}
    {b c : DElem P → Bool} (hg : Delivers (Left (osmfilter os).keep d) d a b c) : Enough p d a b c (fun k => decide (k ∈ (osmfilter os).tags)) := by
  have rel : ∀ y ∈ d.rels, Wanted p.f y → Left (osmfilter os).keep d .relation y.id := by
    intro y hy hw
    obtain ⟨kv, h1, h2⟩ := filter_rule hc hl (hp.keep ▸ hw.1)
    exact .rel h1 hy h2
  have way : ∀ x, NeedWay p d x → Left (osmfilter os).keep d .way x.id := by
    intro x hx
    rcases hx.why with h | ⟨y, hy, hw, hh⟩
    · obtain ⟨kv, h1, h2⟩ := filter_rule hc hl (hp.keep ▸ h)
      exact .way h1 hx.mem h2
    · exact .relWay hy (rel y hy hw) hh
  refine ⟨?_, fun x hx => hg.ways x hx.mem (way x hx), fun y hy => hg.rels y hy.mem (rel y hy.mem hy.wanted), ?_⟩
  · intro x hx hn
    refine hg.nodes x hx ?_
    rcases hn with ⟨w, hw, hi⟩ | ⟨z, hz, e⟩
    · exact .wayNode hw.mem (way w hw) hi
    · rw [← e]
      rcases hz.why with h | ⟨y, hy, hw, hh⟩
      · obtain ⟨kv, h1, h2⟩ := filter_rule hc hl (hp.keep ▸ h)
        exact .node h1 hz.mem h2
      · exact .relNode hy (rel y hy hw) hh
  · intro k hk
    refine decide_eq_true ?_
    unfold osmfilter
    simp only [List.mem_append, List.mem_flatMap]
    rw [hp.keysN, hp.keysW, hp.keysR] at hk
    rcases hk with h | h | h
    · exact .inl (.inl ⟨_, hc.mem, h⟩)
    · exact .inl (.inr ⟨_, hc.mem, h⟩)
    · exact .inr ⟨_, hc.mem, h⟩

/-! ### Overpass -/

theorem tree_leaf (area : Box → Option Box → Int) (boxes : List Box) {q : Pt} (h : treeHas q (BBoxIdx.build area boxes) = true) :
    ∃ b, some b ∈ leafs (BBoxIdx.build area boxes) ∧ InBox q b := by
  rcases List.eq_nil_or_concat boxes with rfl | ⟨bs, b, rfl⟩
  · obtain ⟨gs, hp, hne, hh⟩ := BBoxIdx.C21_reported area []
    obtain ⟨g, hg, _⟩ := (hh q).1 h
    have hf : gs.flatten = [] := List.perm_nil.1 hp
    exact absurd (List.flatten_eq_nil_iff.1 hf g hg) (hne g hg)
  · rw [List.concat_eq_append] at h ⊢
    obtain ⟨_, bs', _, _, h1, _, h2⟩ := BBoxIdx.C21_leafs area bs b
    obtain ⟨b', hb', hq⟩ := (h2 q).1 h
    exact ⟨b', by rw [h1]; exact List.mem_map.2 ⟨b', hb', rfl⟩, hq⟩

theorem query_mem {rules : Rules} {k v : Str} {f : Nat} (h : look rules k v = some f) (t : Kind) (hf : f &&& flagOf t = 0) (b : Box) :
    ⟨t, k, valOf v, b⟩ ∈ queries rules b := by
  obtain ⟨vals, h1, h2⟩ := look_mem h
  unfold queries
  refine List.mem_flatMap.2 ⟨t, by cases t <;> simp, List.mem_flatMap.2 ⟨_, h1, List.mem_filterMap.2 ⟨_, h2, ?_⟩⟩⟩
  simp [hf]

section
variable {dig : Int → Int} {area : Box → Option Box → Int} {boxes : List Box} {os : List Opts} {p : Par Pt S T D} {d : Doc Pt}

/-- There are queries at the node, for each kind of element, with the tag. -/
theorem query_at (hc : Chosen os p) (hl : NoLists os) (ha : Agree os) (hb : ∀ q, p.bbox q = true → treeHas q (BBoxIdx.build area boxes) = true)
    (hr : Rounds dig (leafs (BBoxIdx.build area boxes)) d) {i : Nat} (hi : Inside p.bbox d i) (t : Kind) {kids : List (Ev Pt)}
    (h : Met p.o.keep (flagOf t) kids) :
    ∃ q ∈ overpass dig os (BBoxIdx.build area boxes), q.kind = t ∧ Tagged kids q.key q.val ∧ At d q.box i := by
  obtain ⟨x, hx, e, hin⟩ := hi
  obtain ⟨b, hb1, hb2⟩ := tree_leaf area boxes (hb _ hin)
  obtain ⟨k, v, f, h1, h2, h3⟩ := met_tagged hc hl h
  obtain ⟨f', h4, q, hq, h5⟩ := merged_any hc.wf hc.mem h1
  obtain rfl := ha _ hc.mem q hq k v f f' h1 h5
  refine ⟨⟨t, k, valOf v, written dig b⟩, List.mem_flatMap.2 ⟨some b, hb1, ?_⟩, rfl, h3, x, hx, e, hr b hb1 x hx hb2⟩
  have : ¬ b.x1 > b.x2 := by
    obtain ⟨h1, h2, _⟩ := hb2
    omega
  simp only
  rw [if_neg this]
  exact query_mem h4 t h2 _

theorem got_enough (hc : Chosen os p) (hp : Reader p) (hl : NoLists os) (ha : Agree os)
    (hb : ∀ q, p.bbox q = true → treeHas q (BBoxIdx.build area boxes) = true) (hr : Rounds dig (leafs (BBoxIdx.build area boxes)) d)
    {a : DNode Pt → Bool} {b c : DElem Pt → Bool} (hg : Delivers (Got (overpass dig os (BBoxIdx.build area boxes)) d) d a b c) :
    Enough p d a b c (fun _ => true) := by
  have relN : ∀ y ∈ d.rels, Wanted p.f y → ∀ i, Inside p.bbox d i → Holds .node y i → Got (overpass dig os (BBoxIdx.build area boxes)) d .relation y.id := by
    intro y hy hw i hi hh
    obtain ⟨q, h1, h2, h3, h4⟩ := query_at hc hl ha hb hr hi .relation (hp.keep ▸ hw.1)
    exact .rel h1 h2 hy h3 (.inl ⟨i, hh, h4⟩)
  have relW : ∀ y ∈ d.rels, Wanted p.f y → ∀ x ∈ d.ways, Holds .way y x.id → (∃ i ∈ kidRefs x.kids, Inside p.bbox d i) →
      Got (overpass dig os (BBoxIdx.build area boxes)) d .relation y.id := by
    intro y hy hw x hx hh ⟨i, hi, hin⟩
    obtain ⟨q, h1, h2, h3, h4⟩ := query_at hc hl ha hb hr hin .relation (hp.keep ▸ hw.1)
    exact .rel h1 h2 hy h3 (.inr ⟨x.id, hh, x, hx, rfl, i, hi, h4⟩)
  have way : ∀ x, NeedWay p d x → Got (overpass dig os (BBoxIdx.build area boxes)) d .way x.id := by
    intro x hx
    rcases hx.why with h | ⟨y, hy, hw, hh⟩
    · obtain ⟨i, hi, hin⟩ := hx.inside
      obtain ⟨q, h1, h2, h3, h4⟩ := query_at hc hl ha hb hr hin .way (hp.keep ▸ h)
      exact .way h1 h2 hx.mem h3 ⟨x, hx.mem, rfl, i, hi, h4⟩
    · exact .relWay hy (relW y hy hw x hx.mem hh hx.inside) hh
  refine ⟨?_, fun x hx => hg.ways x hx.mem (way x hx), ?_, fun _ _ => rfl⟩
  · intro x hx hn
    refine hg.nodes x hx ?_
    rcases hn with ⟨w, hw, hi⟩ | ⟨z, hz, e⟩
    · exact .wayNode hw.mem (way w hw) hi
    · rw [← e]
      have hin : Inside p.bbox d z.id := ⟨z, hz.mem, rfl, hz.inside⟩
      rcases hz.why with h | ⟨y, hy, hw, hh⟩
      · obtain ⟨q, h1, h2, h3, h4⟩ := query_at hc hl ha hb hr hin .node (hp.keep ▸ h)
        exact .node h1 h2 hz.mem h3 h4
      · exact .relNode hy (relN y hy hw _ hin hh) hh
  · intro y hy
    refine hg.rels y hy.mem ?_
    rcases hy.why with ⟨x, hx, hh⟩ | ⟨i, _, hin, hh⟩
    · exact relW y hy.mem hy.wanted x hx.mem hh hx.inside
    · exact relN y hy.mem hy.wanted i hin hh

end

end Verif.Fetch
