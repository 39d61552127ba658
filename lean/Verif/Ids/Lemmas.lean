import Verif.Ids.Model
import Verif.Ids.Spec
import Verif.Extract.Main

/-!
# The id sets of the first pass (lemmas)
-/

set_option linter.unusedSectionVars false

namespace Verif.Ids
open Verif.Names (Str)
open Verif.Osm Verif.Whole Verif.Turns
open Verif.Payload (NState)
open Verif.OsmIdSet (Params observe added marked beforeQuery Ids64 maxId)
open Verif.Attrs (filePar Naming Info fileRels fileWays fileLines)

variable {P S T D : Type}

/-! ### answers -/

theorem before_calls {c : List OsmIdSet.Op} (hc : ∀ o ∈ c, o.isHas = false) (asked : List Nat) : beforeQuery (c ++ asked.map .has) = c := by
  unfold beforeQuery
  rw [List.takeWhile_append_of_pos (fun o ho => by rw [hc o ho]; rfl)]
  cases asked with
  | nil => simp
  | cons a l => simp [OsmIdSet.Op.isHas]

theorem box_plain (ops : List BoxOp) : ∀ o ∈ boxCalls ops, o.isHas = false := by
  intro o ho
  obtain ⟨x, _, hx⟩ := List.mem_filterMap.1 ho
  cases x <;> cases hx <;> rfl

theorem hup_plain (ops : List BoxOp) : ∀ o ∈ hupCalls ops, o.isHas = false := by
  intro o ho
  obtain ⟨x, _, hx⟩ := List.mem_filterMap.1 ho
  cases x <;> cases hx <;> rfl

theorem call_add {ops : List BoxOp} {i : Nat} : OsmIdSet.Op.add i ∈ boxCalls ops ↔ .add i ∈ ops := by
  unfold boxCalls
  rw [List.mem_filterMap]
  constructor
  · rintro ⟨x, hx, h⟩
    cases x <;> cases h
    exact hx
  · exact fun h => ⟨_, h, rfl⟩

theorem call_nadd {ops : List BoxOp} {i : Nat} : OsmIdSet.Op.nadd i ∈ boxCalls ops ↔ .nadd i ∈ ops := by
  unfold boxCalls
  rw [List.mem_filterMap]
  constructor
  · rintro ⟨x, hx, h⟩
    cases x <;> cases h
    exact hx
  · exact fun h => ⟨_, h, rfl⟩

theorem call_hup {ops : List BoxOp} {i : Nat} : OsmIdSet.Op.add i ∈ hupCalls ops ↔ .nohup i ∈ ops := by
  unfold hupCalls
  rw [List.mem_filterMap]
  constructor
  · rintro ⟨x, hx, h⟩
    cases x <;> cases h
    exact hx
  · exact fun h => ⟨_, h, rfl⟩

theorem call_none {ops : List BoxOp} {i : Nat} : ¬ OsmIdSet.Op.nadd i ∈ hupCalls ops := by
  unfold hupCalls
  rw [List.mem_filterMap]
  rintro ⟨x, _, h⟩
  cases x <;> cases h

theorem added_mem {c : List OsmIdSet.Op} (hc : ∀ o ∈ c, o.isHas = false) (asked : List Nat) (i : Nat) :
    i ∈ added (c ++ asked.map .has) ↔ .add i ∈ c := by
  unfold added
  rw [before_calls hc, List.mem_filterMap]
  constructor
  · rintro ⟨x, hx, h⟩
    cases x <;> cases h
    exact hx
  · exact fun h => ⟨_, h, rfl⟩

theorem marked_mem {c : List OsmIdSet.Op} (hc : ∀ o ∈ c, o.isHas = false) (asked : List Nat) (i : Nat) :
    i ∈ marked (c ++ asked.map .has) ↔ .nadd i ∈ c := by
  unfold marked
  rw [before_calls hc, List.mem_filterMap]
  constructor
  · rintro ⟨x, hx, h⟩
    cases x <;> cases h
    exact hx
  · exact fun h => ⟨_, h, rfl⟩

theorem ids64 {c : List OsmIdSet.Op} (asked : List Nat) (h : ∀ i, .add i ∈ c → i < 2 ^ 64) : Ids64 (c ++ asked.map .has) := by
  intro i hi
  rcases List.mem_append.1 hi with h' | h'
  · have := h i h'
    unfold maxId
    omega
  · obtain ⟨x, _, hx⟩ := List.mem_map.1 h'
    cases hx

theorem answer_exact {H : Params} (hB : 0 < H.B) (hS : 0 < H.S) {c : List OsmIdSet.Op} (hc : ∀ o ∈ c, o.isHas = false) (asked : List Nat)
    (h64 : ∀ i, .add i ∈ c → i < 2 ^ 64) {i : Nat} (hi : .add i ∈ c ∨ .nadd i ∈ c ∨ ∀ j, .nadd j ∉ c) :
    observe H (c ++ asked.map .has) (.has i) = .ans (decide (.add i ∈ c)) := by
  have h64' := ids64 asked h64
  rcases hi with h | h
  · rw [OsmIdSet.C02_no_false_negative H hB hS _ h64' i ((added_mem hc asked i).2 h), decide_eq_true h]
  · rw [OsmIdSet.C03_exact_answer H hB hS _ h64' i]
    · congr 1
      rw [decide_eq_decide]
      exact added_mem hc asked i
    · rcases h with h | h
      · exact .inr ((marked_mem hc asked i).2 h)
      · refine .inl (List.eq_nil_iff_forall_not_mem.2 fun j hj => h j ((marked_mem hc asked j).1 hj))

theorem boxSet_exact {H : Params} (hB : 0 < H.B) (hS : 0 < H.S) (asked : List Nat) {ops : List BoxOp} (h64 : ∀ i, .add i ∈ ops → i < 2 ^ 64) {i : Nat}
    (hi : .add i ∈ ops ∨ .nadd i ∈ ops ∨ ∀ j, .nadd j ∉ ops) : boxSet H asked ops i = decide (.add i ∈ ops) := by
  unfold boxSet
  rw [answer_exact hB hS (box_plain ops) asked (fun i h => h64 i (call_add.1 h))
    (hi.imp call_add.2 fun h => h.imp call_nadd.2 fun h j hj => h j (call_nadd.1 hj))]
  rw [Bool.eq_iff_iff]
  simp [call_add]

theorem hupSet_exact {H : Params} (hB : 0 < H.B) (hS : 0 < H.S) (asked : List Nat) {ops : List BoxOp} (h64 : ∀ i, .nohup i ∈ ops → i < 2 ^ 64) (i : Nat) :
    hupSet H asked ops i = decide (.nohup i ∈ ops) := by
  unfold hupSet
  rw [answer_exact hB hS (hup_plain ops) asked (fun i h => h64 i (call_hup.1 h)) (.inr (.inr fun j => call_none))]
  rw [Bool.eq_iff_iff]
  simp [call_hup]

theorem answer_asked {H : Params} (hB : 0 < H.B) (hS : 0 < H.S) {c : List OsmIdSet.Op} (hc : ∀ o ∈ c, o.isHas = false) (asked : List Nat)
    (h64 : ∀ i, .add i ∈ c → i < 2 ^ 64) (i : Nat) :
    observe H (c ++ asked.map .has) (.has i) = observe H (c ++ ([] : List Nat).map .has) (.has i) := by
  have e : c ++ ([] : List Nat).map OsmIdSet.Op.has = c := List.append_nil c
  rw [e]
  refine OsmIdSet.C05_query_stable H hB hS c _ (ids64 asked h64) i ?_
  have h1 := before_calls hc asked
  have h2 := before_calls hc []
  rw [e] at h2
  unfold added marked
  rw [h1, h2]
  exact ⟨rfl, rfl⟩

/-! ### the file -/

theorem nadd_mem (bbox : P → Bool) (nohup : Str → Str → Bool) (nodes : List (DNode P)) (i : Nat) :
    BoxOp.nadd i ∈ passReport bbox nohup nodes ↔ ∃ x ∈ nodes, x.id = i ∧ bbox x.pos = false := by
  unfold passReport
  simp only [List.mem_flatMap, List.mem_cons, List.mem_filterMap]
  constructor
  · rintro ⟨x, hx, h | ⟨e, _, h⟩⟩
    · split at h
      · cases h
      · rename_i hb
        cases h
        exact ⟨x, hx, rfl, Bool.eq_false_iff.2 hb⟩
    · split at h
      · split at h <;> cases h
      · cases h
  · rintro ⟨x, hx, rfl, hb⟩
    exact ⟨x, hx, .inl (by rw [if_neg (Bool.eq_false_iff.1 hb)])⟩

theorem nadd_box (bbox : P → Bool) (nodes : List (DNode P)) (i : Nat) :
    BoxOp.nadd i ∈ boxReport bbox nodes ↔ ∃ x ∈ nodes, x.id = i ∧ bbox x.pos = false := by
  unfold boxReport
  simp only [List.mem_map]
  constructor
  · rintro ⟨x, hx, h⟩
    split at h
    · cases h
    · rename_i hb
      cases h
      exact ⟨x, hx, rfl, Bool.eq_false_iff.2 hb⟩
  · rintro ⟨x, hx, rfl, hb⟩
    exact ⟨x, hx, by rw [if_neg (Bool.eq_false_iff.1 hb)]⟩

theorem pass_eq (bbox : P → Bool) (nohup : Str → Str → Bool) {d : Doc P} (hd : d.Ok) :
    bboxGo bbox nohup (skipUntil .node d.tags) false 0 =
      (passReport bbox nohup d.nodes, flat (d.ways.map DElem.way) ++ flat (d.rels.map DElem.rel)) := by
  obtain ⟨h0, hs, hh, hh'⟩ := hd.head
  have e1 : skipUntil .node d.tags =
      flat (d.nodes.map DNode.el) ++ (flat (d.ways.map DElem.way) ++ flat (d.rels.map DElem.rel)) := by
    rw [Doc.tags, hh]
    exact skip_node h0 hs hh' d.nodes hd.some _
  rw [e1]
  exact bboxGo_first bbox nohup d.nodes hd.some
    (fun x hx => hd.nodes.nz _ (List.mem_map.2 ⟨x, hx, rfl⟩))
    (fun x hx => hd.nodes.nested _ (List.mem_map.2 ⟨x, hx, rfl⟩)) _ (rest_level d.ways d.rels)

/-! ### two sets that agree -/

theorem foldl_agree {A B : Type} {f g : B → A → B} {l : List A} (h : ∀ a ∈ l, ∀ b, f b a = g b a) (b : B) : l.foldl f b = l.foldl g b := by
  induction l generalizing b with
  | nil => rfl
  | cons a l ih =>
    rw [List.foldl_cons, List.foldl_cons, h a List.mem_cons_self]
    exact ih (fun a' ha => h a' (List.mem_cons_of_mem _ ha)) _

theorem any_agree {b b' : Nat → Bool} {l : List Nat} (h : ∀ i ∈ l, b i = b' i) : l.any b = l.any b' := by
  induction l with
  | nil => rfl
  | cons a l ih => rw [List.any_cons, List.any_cons, h a List.mem_cons_self, ih fun i hi => h i (List.mem_cons_of_mem _ hi)]

theorem keepWay_agree (f : Flt) (wr : FMap Nat (List Nat)) (fl : List Nat) {b b' : Nat → Bool} {w : Way} (h : ∀ i ∈ w.nodes, b i = b' i) :
    keepWay f wr fl b w = keepWay f wr fl b' w := by
  unfold keepWay
  rw [any_agree h]

theorem keepNode_agree (f : Flt) (nodes mult : Nat → Bool) (nr : FMap Nat (List Nat)) (fl : List Nat) {b b' : Nat → Bool} {n : Nod P} (h : b n.id = b' n.id) :
    keepNode f nodes mult nr fl b n = keepNode f nodes mult nr fl b' n := by
  unfold keepNode
  rw [h]

theorem ndFor_agree {u u' b b' : Nat → Bool} (s : GSt P) {i : Nat} (hu : u i = u' i) (hb : b i = b' i) : ndFor u b s i = ndFor u' b' s i := by
  unfold ndFor
  rw [hu, hb]

theorem edgesGo_agree {u u' b b' : Nat → Bool} (w : Way) (l : List Nat) (h : ∀ i ∈ l, u i = u' i ∧ b i = b' i) (s : GSt P) (last : Option Nat) :
    edgesGo u b w l s last = edgesGo u' b' w l s last := by
  induction l generalizing s last with
  | nil => rfl
  | cons i l ih =>
    have ih := ih fun j hj => h j (List.mem_cons_of_mem _ hj)
    obtain ⟨h1, h2⟩ := h i List.mem_cons_self
    unfold edgesGo
    rw [ndFor_agree s h1 h2]
    cases ndFor u' b' s i with
    | mk o s' =>
      cases o with
      | none => exact ih _ _
      | some n => cases last with
        | none => exact ih _ _
        | some l => exact ih _ _

theorem turnGo_agree {E : Type} (q : Rests) (mk : Nat → GEdge → E) {u u' b b' : Nat → Bool} (w : Way) (l : List Nat) (h : ∀ i ∈ l, u i = u' i ∧ b i = b' i)
    (s : TSt P E) (last : Option (Nat × Nat)) : turnGo q mk u b w l s last = turnGo q mk u' b' w l s last := by
  induction l generalizing s last with
  | nil => rfl
  | cons i l ih =>
    have ih := ih fun j hj => h j (List.mem_cons_of_mem _ hj)
    obtain ⟨h1, h2⟩ := h i List.mem_cons_self
    unfold turnGo
    rw [ndFor_agree s.g h1 h2]
    cases ndFor u' b' s.g i with
    | mk o s' =>
      cases o with
      | none => exact ih _ _
      | some n => cases last with
        | none => exact ih _ _
        | some l => exact ih _ _

/-- The sets agree on the nodes of the file and on the nodes that ways refer to. -/
structure Alike (d : Doc P) (u b u' b' : Nat → Bool) : Prop where
  nodes : ∀ x ∈ d.nodes, b x.id = b' x.id
  turns : ∀ x ∈ d.ways, ∀ i ∈ kidRefs x.kids, u i = u' i
  area : ∀ x ∈ d.ways, ∀ i ∈ kidRefs x.kids, b i = b' i

theorem readWay_nodes (keys : List Str) (x : DElem P) : (readWay keys x).nodes = kidRefs x.kids := rfl

theorem ways_agree (f : Flt) (wr : FMap Nat (List Nat)) (fl : List Nat) (keys : List Str) {d : Doc P} {u b u' b' : Nat → Bool} (h : Alike d u b u' b') :
    (d.ways.map (readWay keys)).filter (keepWay f wr fl b) = (d.ways.map (readWay keys)).filter (keepWay f wr fl b') := by
  refine List.filter_congr fun y hy => ?_
  obtain ⟨x, hx, rfl⟩ := List.mem_map.1 hy
  exact keepWay_agree f wr fl (h.area x hx)

section
variable (p : Par P S T D) {d : Doc P} (box hup : List BoxOp → Nat → Bool)

theorem ways_read (hd : d.Ok) (wr : FMap Nat (List Nat)) (fl : List Nat) (b : Nat → Bool) :
    (readAll (nextWay p.keysW (keepWay p.f wr fl b)) (flat (d.ways.map DElem.way) ++ flat (d.rels.map DElem.rel))).1 =
      (d.ways.map (readWay p.keysW)).filter (keepWay p.f wr fl b) := by
  rw [ways_section p.keysW (keepWay p.f wr fl b) (by intro w hw; simp [keepWay] at hw; exact hw.1.1.1.1) d.ways hd.ways _ (stops_ways_rels d.rels)]

theorem map_agree (hd : d.Ok) (h : Alike d (noTurn p d) (inArea p d) (noTurn { p with box := box, hup := hup } d) (inArea { p with box := box, hup := hup } d)) :
    readMap { p with box := box, hup := hup } d.tags = readMap p d.tags := by
  have e1 := readMap_eq p d hd
  have e2 := readMap_eq { p with box := box, hup := hup } d hd
  dsimp only at e1 e2
  rw [e1, e2]
  have hw := ways_agree p.f (relState p.f p.keysR (seenRels d.ways d.rels)).wayRels (relState p.f p.keysR (seenRels d.ways d.rels)).flat p.keysW h
  unfold inArea at hw
  dsimp only at hw
  rw [← hw]
  have hg : ((d.ways.map (readWay p.keysW)).filter (keepWay p.f (relState p.f p.keysR (seenRels d.ways d.rels)).wayRels
        (relState p.f p.keysR (seenRels d.ways d.rels)).flat (p.box (passReport p.bbox (fNohup p.o) d.nodes)))).foldl
        (addWay (hup (passReport p.bbox (fNohup p.o) d.nodes)) (box (passReport p.bbox (fNohup p.o) d.nodes))) (GSt.init : GSt P) =
      ((d.ways.map (readWay p.keysW)).filter (keepWay p.f (relState p.f p.keysR (seenRels d.ways d.rels)).wayRels
        (relState p.f p.keysR (seenRels d.ways d.rels)).flat (p.box (passReport p.bbox (fNohup p.o) d.nodes)))).foldl
        (addWay (p.hup (passReport p.bbox (fNohup p.o) d.nodes)) (p.box (passReport p.bbox (fNohup p.o) d.nodes))) GSt.init := by
    refine foldl_agree (fun y hy s => ?_) _
    obtain ⟨x, hx, rfl⟩ := List.mem_map.1 (List.mem_filter.1 hy).1
    exact (edgesGo_agree _ _ (fun i hi => ⟨(h.turns x hx i hi).symm, (h.area x hx i hi).symm⟩) _ _)
  rw [hg]
  have hn : ∀ (nodes mult : Nat → Bool) (nr : FMap Nat (List Nat)) (fl : List Nat),
      (d.nodes.map (readNod p.keysN)).filter (keepNode p.f nodes mult nr fl (box (passReport p.bbox (fNohup p.o) d.nodes))) =
      (d.nodes.map (readNod p.keysN)).filter (keepNode p.f nodes mult nr fl (p.box (passReport p.bbox (fNohup p.o) d.nodes))) := by
    intro nodes mult nr fl
    refine List.filter_congr fun y hy => ?_
    obtain ⟨x, hx, rfl⟩ := List.mem_map.1 hy
    exact keepNode_agree _ _ _ _ _ (h.nodes x hx).symm
  rw [hn]
  rfl

theorem turns_agree (hd : d.Ok) (h : Alike d (noTurn p d) (inArea p d) (noTurn { p with box := box, hup := hup } d) (inArea { p with box := box, hup := hup } d)) :
    turns { p with box := box, hup := hup } d.tags = turns p d.tags := by
  unfold turns readTurns
  dsimp only
  rw [pass_eq p.bbox (fNohup p.o) hd]
  dsimp only
  rw [ways_read p hd, ways_read p hd]
  have hw := fun wr fl => ways_agree p.f wr fl p.keysW h
  unfold inArea at hw
  dsimp only at hw
  rw [← hw]
  refine foldl_agree (fun y hy s => ?_) _
  obtain ⟨x, hx, rfl⟩ := List.mem_map.1 (List.mem_filter.1 hy).1
  exact turnGo_agree _ _ _ _ (fun i hi => ⟨(h.turns x hx i hi).symm, (h.area x hx i hi).symm⟩) _ _

theorem build_agree (file : List (Ev P)) (h1 : readMap { p with box := box, hup := hup } file = readMap p file)
    (h2 : turns { p with box := box, hup := hup } file = turns p file) : build { p with box := box, hup := hup } file = build p file := by
  have hr : raw { p with box := box, hup := hup } file = raw p file := by
    unfold raw
    rw [h1, h2]
    rfl
  unfold build
  rw [hr, h1]
  rfl

end

theorem fileWays_agree (p : Par P S T D) {d : Doc P} (box hup : List BoxOp → Nat → Bool) (hd : d.Ok)
    (h : Alike d (noTurn p d) (inArea p d) (noTurn { p with box := box, hup := hup } d) (inArea { p with box := box, hup := hup } d)) :
    fileWays { p with box := box, hup := hup } d.tags = fileWays p d.tags := by
  unfold fileWays
  dsimp only
  rw [pass_eq p.bbox (fNohup p.o) hd]
  dsimp only
  rw [ways_read p hd, ways_read p hd]
  have hw := fun wr fl => ways_agree p.f wr fl p.keysW h
  unfold inArea at hw
  dsimp only at hw
  rw [← hw]
  rfl

/-- Sets that agree where it matters give the same graph. -/
theorem graph_agree (n : Naming) (p : Par P Info Str D) {d : Doc P} (box hup : List BoxOp → Nat → Bool) (hd : d.Ok)
    (h : Alike d (noTurn p d) (inArea p d) (noTurn { p with box := box, hup := hup } d) (inArea { p with box := box, hup := hup } d)) :
    build (filePar n { p with box := box, hup := hup } d.tags) d.tags = build (filePar n p d.tags) d.tags := by
  have hl : fileLines n { p with box := box, hup := hup } d.tags = fileLines n p d.tags := by
    unfold fileLines
    rw [fileWays_agree p box hup hd h]
    rfl
  have e : filePar n { p with box := box, hup := hup } d.tags = { filePar n p d.tags with box := box, hup := hup } := by
    unfold filePar
    rw [hl]
    rfl
  rw [e]
  exact build_agree _ box hup _ (map_agree (filePar n p d.tags) box hup hd h) (turns_agree (filePar n p d.tags) box hup hd h)

/-! ### sets and sets that are exact -/

section
variable {H : Params} {p : Par P S T D} {d : Doc P}

theorem refs_in (hc : Closed d) {x : DElem P} (hx : x ∈ d.ways) {i : Nat} (hi : i ∈ kidRefs x.kids) : ∃ n ∈ d.nodes, n.id = i := by
  unfold kidRefs at hi
  obtain ⟨e, he, h⟩ := List.mem_filterMap.1 hi
  split at h
  · rename_i r _ ht
    cases h
    exact hc x hx e he _ ht
  · cases h

theorem add_fits (hf : Fits d) (bbox : P → Bool) (nohup : Str → Str → Bool) : ∀ i, BoxOp.add i ∈ passReport bbox nohup d.nodes → i < 2 ^ 64 := by
  intro i hi
  obtain ⟨x, hx, rfl, _⟩ := (Extract.add_mem _ _ _ _).1 hi
  exact hf x hx

theorem hup_fits (hf : Fits d) (bbox : P → Bool) (nohup : Str → Str → Bool) : ∀ i, BoxOp.nohup i ∈ passReport bbox nohup d.nodes → i < 2 ^ 64 := by
  intro i hi
  obtain ⟨x, hx, rfl, _⟩ := (Extract.hup_mem _ _ _ _).1 hi
  exact hf x hx

theorem seen_node (bbox : P → Bool) (nohup : Str → Str → Bool) {n : DNode P} (hn : n ∈ d.nodes) :
    BoxOp.add n.id ∈ passReport bbox nohup d.nodes ∨ BoxOp.nadd n.id ∈ passReport bbox nohup d.nodes := by
  rcases Bool.eq_false_or_eq_true (bbox n.pos) with h | h
  · exact .inl ((Extract.add_mem _ _ _ _).2 ⟨n, hn, rfl, h⟩)
  · exact .inr ((nadd_mem _ _ _ _).2 ⟨n, hn, rfl, h⟩)

theorem all_in {bbox : P → Bool} (ha : AllIn bbox d) (nohup : Str → Str → Bool) : ∀ j, BoxOp.nadd j ∉ passReport bbox nohup d.nodes := by
  intro j hj
  obtain ⟨x, hx, _, hb⟩ := (nadd_mem _ _ _ _).1 hj
  rw [ha x hx] at hb
  cases hb

theorem area_exact (hB : 0 < H.B) (hS : 0 < H.S) (hf : Fits d) {i : Nat} (hi : (∃ n ∈ d.nodes, n.id = i) ∨ AllIn p.bbox d) :
    inArea (withSets H p) d i = inArea (exactly p) d i := by
  show boxSet H [] (passReport p.bbox (fNohup p.o) d.nodes) i = decide (BoxOp.add i ∈ passReport p.bbox (fNohup p.o) d.nodes)
  refine boxSet_exact hB hS [] (add_fits hf _ _) ?_
  rcases hi with ⟨n, hn, rfl⟩ | h
  · exact (seen_node p.bbox (fNohup p.o) hn).imp id .inl
  · exact .inr (.inr (all_in h _))

theorem turn_exact (hB : 0 < H.B) (hS : 0 < H.S) (hf : Fits d) (i : Nat) : noTurn (withSets H p) d i = noTurn (exactly p) d i :=
  hupSet_exact hB hS [] (hup_fits hf _ _) i

theorem alike_exact (hB : 0 < H.B) (hS : 0 < H.S) (hf : Fits d) (hc : Closed d ∨ AllIn p.bbox d) :
    Alike d (noTurn (withSets H p) d) (inArea (withSets H p) d) (noTurn (exactly p) d) (inArea (exactly p) d) :=
  ⟨fun n hn => area_exact hB hS hf (.inl ⟨n, hn, rfl⟩), fun _ _ i _ => turn_exact hB hS hf i,
    fun _ hx _ hi => area_exact hB hS hf (hc.imp (fun h => refs_in h hx hi) id)⟩

end

/-! ### filtering -/

/-- What is behind the last element with a property. -/
theorem post_unique {A : Type} {q : A → Bool} {l post post' : List A} (h1 : l.any q = false → post = l)
    (h2 : l.any q = true → ∃ pre x, l = pre ++ x :: post ∧ q x = true ∧ ∀ y ∈ post, q y = false) (h1' : l.any q = false → post' = l)
    (h2' : l.any q = true → ∃ pre x, l = pre ++ x :: post' ∧ q x = true ∧ ∀ y ∈ post', q y = false) : post = post' := by
  rcases Bool.eq_false_or_eq_true (l.any q) with h | h
  · obtain ⟨a, x, e, hx, hp⟩ := h2 h
    obtain ⟨a', x', e', hx', hp'⟩ := h2' h
    rw [e] at e'
    rcases List.append_eq_append_iff.1 e' with ⟨c, c1, c2⟩ | ⟨c, c1, c2⟩
    · cases c with
      | nil => simp only [List.nil_append, List.cons.injEq] at c2; exact c2.2
      | cons y c =>
        simp only [List.cons_append, List.cons.injEq] at c2
        have := hp x' (by rw [c2.2]; simp)
        rw [hx'] at this
        cases this
    · cases c with
      | nil => simp only [List.nil_append, List.cons.injEq] at c2; exact c2.2.symm
      | cons y c =>
        simp only [List.cons_append, List.cons.injEq] at c2
        have := hp' x (by rw [c2.2]; simp)
        rw [hx] at this
        cases this
  · rw [h1 h, h1' h]

theorem filter_agree (p0 : P) (f : Flt) (keysN keysW keysR : List Str) (box box' : List BoxOp → Nat → Bool) (bbox : P → Bool) {d : Doc P} (hd : d.Ok)
    (hn : ∀ x ∈ d.nodes, box (boxReport bbox d.nodes) x.id = box' (boxReport bbox d.nodes) x.id)
    (hw : ∀ x ∈ d.ways, ∀ i ∈ kidRefs x.kids, box (boxReport bbox d.nodes) i = box' (boxReport bbox d.nodes) i) :
    filterWrite p0 f keysN keysW keysR box bbox d.tags = filterWrite p0 f keysN keysW keysR box' bbox d.tags := by
  obtain ⟨post, h1, h2, h3⟩ := filterWrite_eq p0 f keysN keysW keysR box bbox d hd
  obtain ⟨post', h1', h2', h3'⟩ := filterWrite_eq p0 f keysN keysW keysR box' bbox d hd
  have eq : ∀ x ∈ d.ways, keepWay f (relState f keysR (seenRels d.ways d.rels)).wayRels (relState f keysR (seenRels d.ways d.rels)).flat
      (box (boxReport bbox d.nodes)) (readWay keysW x) = keepWay f (relState f keysR (seenRels d.ways d.rels)).wayRels
      (relState f keysR (seenRels d.ways d.rels)).flat (box' (boxReport bbox d.nodes)) (readWay keysW x) := fun x hx => keepWay_agree _ _ _ (hw x hx)
  have ea := List.filter_congr eq
  have en : d.ways.any (fun x => keepWay f (relState f keysR (seenRels d.ways d.rels)).wayRels (relState f keysR (seenRels d.ways d.rels)).flat
      (box (boxReport bbox d.nodes)) (readWay keysW x)) = d.ways.any (fun x => keepWay f (relState f keysR (seenRels d.ways d.rels)).wayRels
      (relState f keysR (seenRels d.ways d.rels)).flat (box' (boxReport bbox d.nodes)) (readWay keysW x)) := by
    rw [Bool.eq_iff_iff, List.any_eq_true, List.any_eq_true]
    exact ⟨fun ⟨x, hx, h⟩ => ⟨x, hx, by rw [← eq x hx]; exact h⟩, fun ⟨x, hx, h⟩ => ⟨x, hx, by rw [eq x hx]; exact h⟩⟩
  have ep : post = post' := by
    refine post_unique h1 h2 (fun h => h1' (by rw [← en]; exact h)) fun h => ?_
    obtain ⟨a, x, e, hx, hp⟩ := h2' (by rw [← en]; exact h)
    refine ⟨a, x, e, ?_, fun y hy => ?_⟩
    · show keepWay _ _ _ _ _ = true
      rw [eq x (by rw [e]; simp)]
      exact hx
    · show keepWay _ _ _ _ _ = false
      rw [eq y (by rw [e]; simp [hy])]
      exact hp y hy
  rw [h3, h3', ← ep]
  have ex : ∀ (used : Nat → Bool), d.nodes.filter (fun x => keepNode f used (fun _ => false) (relState f keysR (seenRels d.ways d.rels)).nodeRels
      (relState f keysR (seenRels d.ways d.rels)).flat (box (boxReport bbox d.nodes)) (readNod keysN x)) =
      d.nodes.filter (fun x => keepNode f used (fun _ => false) (relState f keysR (seenRels d.ways d.rels)).nodeRels
      (relState f keysR (seenRels d.ways d.rels)).flat (box' (boxReport bbox d.nodes)) (readNod keysN x)) := fun used =>
    List.filter_congr fun x hx => keepNode_agree _ _ _ _ _ (hn x hx)
  rw [ea, ex]

section
variable {H : Params} {d : Doc P}

theorem seen_box (bbox : P → Bool) {n : DNode P} (hn : n ∈ d.nodes) : BoxOp.add n.id ∈ boxReport bbox d.nodes ∨ BoxOp.nadd n.id ∈ boxReport bbox d.nodes := by
  rcases Bool.eq_false_or_eq_true (bbox n.pos) with h | h
  · exact .inl ((Extract.add_box _ _ _).2 ⟨n, hn, rfl, h⟩)
  · exact .inr ((nadd_box _ _ _).2 ⟨n, hn, rfl, h⟩)

theorem box_exact (hB : 0 < H.B) (hS : 0 < H.S) (hf : Fits d) (bbox : P → Bool) {i : Nat} (hi : (∃ n ∈ d.nodes, n.id = i) ∨ AllIn bbox d) :
    boxSet H [] (boxReport bbox d.nodes) i = decide (BoxOp.add i ∈ boxReport bbox d.nodes) := by
  refine boxSet_exact hB hS [] (fun j hj => ?_) ?_
  · obtain ⟨x, hx, rfl, _⟩ := (Extract.add_box _ _ _).1 hj
    exact hf x hx
  · rcases hi with ⟨n, hn, rfl⟩ | h
    · exact (seen_box bbox hn).imp id .inl
    · refine .inr (.inr fun j hj => ?_)
      obtain ⟨x, hx, _, hb⟩ := (nadd_box _ _ _).1 hj
      rw [h x hx] at hb
      cases hb

theorem filter_exact (hB : 0 < H.B) (hS : 0 < H.S) (hf : Fits d) (p0 : P) (f : Flt) (keysN keysW keysR : List Str) (bbox : P → Bool) (hd : d.Ok)
    (hc : Closed d ∨ AllIn bbox d) : filterWrite p0 f keysN keysW keysR (boxSet H []) bbox d.tags =
      filterWrite p0 f keysN keysW keysR (fun ops i => decide (BoxOp.add i ∈ ops)) bbox d.tags :=
  filter_agree p0 f keysN keysW keysR _ _ bbox hd (fun n hn => box_exact hB hS hf bbox (.inl ⟨n, hn, rfl⟩))
    fun _ hx _ hi => box_exact hB hS hf bbox (hc.imp (fun h => refs_in h hx hi) id)

end

end Verif.Ids
