import Verif.Osm.StreamProps

/-!
# Writing a filtered file (lemmas)
-/

set_option linter.unusedSectionVars false

namespace Verif.Osm
open Verif.Names (Str)

variable {P : Type}

/-! ### the index of relations -/

structure RInv (seen : List Rel) (s : RelSt) : Prop where
  rels : s.rels = seen.map (·.attrs)
  flat : ∀ k, k ∈ s.flat ↔ ∃ r, seen[k]? = some r ∧ r.keepFlags &&& REL_NO_DOWN ≠ 0
  nodes : ∀ id k, k ∈ (s.nodeRels.get id).getD [] ↔ ∃ r, seen[k]? = some r ∧ id ∈ r.nodes.map (·.1)
  ways : ∀ id k, k ∈ (s.wayRels.get id).getD [] ↔ ∃ r, seen[k]? = some r ∧ id ∈ r.ways.map (·.1)

theorem mem_pushAll (ids : List Nat) (m : FMap Nat (List Nat)) (k id j : Nat) :
    j ∈ ((ids.foldl (fun m id => pushTo m id k) m).get id).getD [] ↔ j ∈ (m.get id).getD [] ∨ (id ∈ ids ∧ j = k) := by
  induction ids generalizing m with
  | nil => simp
  | cons i ids ih =>
    rw [List.foldl_cons, ih, pushTo, FMap.get_put]
    by_cases h : id = i
    · subst h
      simp
      exact fun _ h => Or.inr h
    · simp [h]

theorem getElem?_snoc_iff {A : Type} (l : List A) (r : A) (q : A → Prop) (k : Nat) :
    (∃ x, (l ++ [r])[k]? = some x ∧ q x) ↔ (∃ x, l[k]? = some x ∧ q x) ∨ (k = l.length ∧ q r) := by
  rcases Nat.lt_trichotomy k l.length with h | h | h
  · rw [List.getElem?_append_left h]
    constructor
    · exact Or.inl
    · rintro (h' | ⟨h', _⟩)
      · exact h'
      · omega
  · subst h
    simp
  · rw [List.getElem?_append_right (by omega), List.getElem?_eq_none (l := l) (by omega)]
    have : [r][k - l.length]? = none := List.getElem?_eq_none (by simp; omega)
    rw [this]
    simp
    omega

theorem RInv.step {seen : List Rel} {s : RelSt} (h : RInv seen s) (r : Rel) : RInv (seen ++ [r]) (addRel s r) := by
  have hl : s.rels.length = seen.length := by rw [h.rels]; simp
  refine ⟨by simp [addRel, h.rels], ?_, ?_, ?_⟩
  · intro k
    rw [getElem?_snoc_iff seen r (fun r => r.keepFlags &&& REL_NO_DOWN ≠ 0), ← h.flat]
    simp only [addRel]
    split
    · rename_i hc
      rw [List.mem_append, List.mem_singleton, hl]
      exact ⟨fun h => h.elim Or.inl (fun h => Or.inr ⟨h, hc⟩), fun h => h.elim Or.inl (fun h => Or.inr h.1)⟩
    · rename_i hc
      exact ⟨Or.inl, fun h => h.elim id (fun h => absurd h.2 hc)⟩
  · intro id k
    rw [getElem?_snoc_iff seen r (fun r => id ∈ r.nodes.map (·.1)), ← h.nodes]
    simp only [addRel]
    rw [mem_pushAll, hl, and_comm (a := id ∈ _)]
  · intro id k
    rw [getElem?_snoc_iff seen r (fun r => id ∈ r.ways.map (·.1)), ← h.ways]
    simp only [addRel]
    rw [mem_pushAll, hl, and_comm (a := id ∈ _)]

theorem RInv.foldl {seen : List Rel} {s : RelSt} (h : RInv seen s) (rs : List Rel) : RInv (seen ++ rs) (rs.foldl addRel s) := by
  induction rs generalizing seen s with
  | nil => simpa using h
  | cons r rs ih =>
    rw [List.foldl_cons, show seen ++ r :: rs = (seen ++ [r]) ++ rs by simp]
    exact ih (h.step r)

theorem rinv_init : RInv [] ⟨[], [], [], []⟩ :=
  ⟨rfl, by simp, by simp [FMap.get_nil], by simp [FMap.get_nil]⟩

theorem member_aux {seen : List Rel} {m : FMap Nat (List Nat)} {fl : List Nat} {sel : Rel → List Nat}
    (hf : ∀ k, k ∈ fl ↔ ∃ r, seen[k]? = some r ∧ r.keepFlags &&& REL_NO_DOWN ≠ 0)
    (hm : ∀ id k, k ∈ (m.get id).getD [] ↔ ∃ r, seen[k]? = some r ∧ id ∈ sel r) (id : Nat) :
    Member m fl id ↔ ∃ r ∈ seen, r.keepFlags &&& REL_NO_DOWN = 0 ∧ id ∈ sel r := by
  constructor
  · rintro ⟨l, hl, k, hk, hn⟩
    obtain ⟨r, h1, h2⟩ := (hm id k).1 (by rw [hl]; exact hk)
    refine ⟨r, List.mem_of_getElem? h1, ?_, h2⟩
    by_cases hc : r.keepFlags &&& REL_NO_DOWN = 0
    · exact hc
    · exact absurd ((hf k).2 ⟨r, h1, hc⟩) hn
  · rintro ⟨r, h1, h2, h3⟩
    obtain ⟨k, hk⟩ := List.getElem?_of_mem h1
    have hin := (hm id k).2 ⟨r, hk, h3⟩
    cases hg : m.get id with
    | none => rw [hg] at hin; cases hin
    | some l =>
      rw [hg] at hin
      refine ⟨l, hg, k, hin, ?_⟩
      intro hfl
      obtain ⟨r', h1', h2'⟩ := (hf k).1 hfl
      rw [hk] at h1'
      cases h1'
      exact h2' h2

/-! ### skipping -/

/-- What is inside an element is no node, way or relation. -/
def Plain (kids : List (Ev P)) : Prop := ∀ e ∈ kids, isNode e.tag = false ∧ isWay e.tag = false ∧ isRel e.tag = false

theorem named_node (t : Tag P) : t.named .node = isNode t := by cases t <;> rfl
theorem named_rel (t : Tag P) : t.named .relation = isRel t := by cases t <;> rfl

theorem dropWhile_append_all {A : Type} (p : A → Bool) (l m : List A) (h : ∀ x ∈ l, p x = true) :
    (l ++ m).dropWhile p = m.dropWhile p := by
  induction l with
  | nil => rfl
  | cons x l ih =>
    rw [List.cons_append, List.dropWhile_cons, if_pos (h x (by simp)), ih (fun y hy => h y (by simp [hy]))]

theorem skip_node (h0 : Ev P) (hs : List (Ev P)) (hh : ∀ e ∈ hs, isNode e.tag = false) (nodes : List (DNode P))
    (hn : nodes ≠ []) (rest : List (Ev P)) :
    skipUntil .node ((h0 :: hs) ++ (flat (nodes.map DNode.el) ++ rest)) = flat (nodes.map DNode.el) ++ rest := by
  rw [List.cons_append, skipUntil, dropWhile_append_all]
  · cases nodes with
    | nil => exact absurd rfl hn
    | cons n nodes =>
      rw [List.map_cons, flat_cons, List.cons_append, List.dropWhile_cons]
      rfl
  · intro e he
    rw [named_node, hh e he]; rfl

theorem dropWhile_rels (rels : List (DElem P)) :
    (flat (rels.map DElem.rel)).dropWhile (fun e => !e.tag.named .relation) = flat (rels.map DElem.rel) := by
  cases rels with
  | nil => rfl
  | cons r rels => rw [List.map_cons, flat_cons, List.dropWhile_cons]; rfl

theorem skip_rel (ways rels : List (DElem P)) (hw : ∀ w ∈ ways, Plain w.kids) (hr : ∀ r ∈ rels, Plain r.kids) :
    skipUntil .relation (flat (ways.map DElem.way) ++ flat (rels.map DElem.rel)) =
      flat ((if ways = [] then rels.drop 1 else rels).map DElem.rel) := by
  have hk : ∀ kids : List (Ev P), Plain kids → ∀ e ∈ kids, (!e.tag.named .relation) = true := by
    intro kids h e he
    rw [named_rel, (h e he).2.2]; rfl
  cases ways with
  | nil =>
    rw [if_pos rfl]
    cases rels with
    | nil => rfl
    | cons r rels =>
      rw [List.map_cons, flat_cons]
      simp only [List.map_nil, List.drop_succ_cons, List.drop_zero]
      rw [show flat ([] : List (El P)) ++ (⟨2, r.rel.head⟩ :: (r.rel.kids ++ flat (rels.map DElem.rel))) =
        ⟨2, r.rel.head⟩ :: (r.rel.kids ++ flat (rels.map DElem.rel)) from rfl, skipUntil,
        dropWhile_append_all _ r.rel.kids _ (hk r.kids (hr r (by simp))), dropWhile_rels]
  | cons w ways =>
    rw [if_neg (by simp), List.map_cons, flat_cons, List.cons_append, skipUntil, List.append_assoc,
      dropWhile_append_all _ w.way.kids _ (hk w.kids (hw w (by simp)))]
    have : ∀ ws : List (DElem P), (∀ w ∈ ws, Plain w.kids) →
        (flat (ws.map DElem.way) ++ flat (rels.map DElem.rel)).dropWhile (fun e => !e.tag.named .relation) =
          flat (rels.map DElem.rel) := by
      intro ws
      induction ws with
      | nil => intro _; exact dropWhile_rels rels
      | cons w ws ih =>
        intro h
        rw [List.map_cons, flat_cons, List.cons_append, List.dropWhile_cons, if_pos (by rfl), List.append_assoc,
          dropWhile_append_all _ w.way.kids _ (hk w.kids (h w (by simp)))]
        exact ih (fun w hw => h w (by simp [hw]))
    exact this ways (fun x hx => hw x (by simp [hx]))

/-! ### the first pass -/

/-- The first pass for one node. -/
def boxOps (bbox : P → Bool) (nohup : Str → Str → Bool) (x : DNode P) : List BoxOp :=
  (if bbox x.pos then BoxOp.add x.id else .nadd x.id) ::
    x.kids.filterMap fun e => match e.level, e.tag with
      | 3, .tag k v => if nohup k v then some (.nohup x.id) else none
      | _, _ => none

theorem bboxGo_kids (bbox : P → Bool) (nohup : Str → Str → Bool) (id : Nat) (hid : id ≠ 0) (kids : List (Ev P))
    (h : ∀ e ∈ kids, 3 ≤ e.level) (r : List (Ev P)) :
    bboxGo bbox nohup (kids ++ r) true id =
      (kids.filterMap (fun e => match e.level, e.tag with
        | 3, .tag k v => if nohup k v then some (BoxOp.nohup id) else none
        | _, _ => none) ++ (bboxGo bbox nohup r true id).1, (bboxGo bbox nohup r true id).2) := by
  induction kids with
  | nil => rfl
  | cons e kids ih =>
    obtain ⟨lv, t⟩ := e
    have h3 : 3 ≤ lv := h ⟨lv, t⟩ (by simp)
    have hk := ih (fun e he => h e (by simp [he]))
    have h2 : lv ≠ 2 := by omega
    rw [List.cons_append, bboxGo]
    simp only [if_pos h2, hk]
    by_cases hl : lv = 3
    · subst hl
      cases t with
      | tag k v =>
        by_cases hn : nohup k v = true
        · simp [hn, hid]
        · simp [hn]
      | _ => simp
    · cases t with
      | tag k v => simp [hl]
      | _ => simp

theorem bboxGo_nodes (bbox : P → Bool) (nohup : Str → Str → Bool) (nodes : List (DNode P))
    (hz : ∀ x ∈ nodes, x.id ≠ 0) (hn : ∀ x ∈ nodes, ∀ e ∈ x.kids, 3 ≤ e.level) (rest : List (Ev P))
    (hr : ∀ e ∈ rest.head?, e.level = 2 ∧ isNode e.tag = false) (id : Nat) :
    bboxGo bbox nohup (flat (nodes.map DNode.el) ++ rest) true id = (nodes.flatMap (boxOps bbox nohup), rest) := by
  induction nodes generalizing id with
  | nil =>
    cases rest with
    | nil => rfl
    | cons e rest =>
      obtain ⟨lv, t⟩ := e
      have h := hr ⟨lv, t⟩ (by simp)
      obtain ⟨h1, h2⟩ := h
      simp only at h1 h2
      subst h1
      cases t <;> first | (simp [isNode] at h2; done) | simp [flat, bboxGo]
  | cons x nodes ih =>
    have hk := ih (fun y hy => hz y (by simp [hy])) (fun y hy => hn y (by simp [hy])) x.id
    rw [List.map_cons, flat_cons, List.cons_append, List.append_assoc]
    have := bboxGo_kids bbox nohup x.id (hz x (by simp)) x.kids (hn x (by simp))
      (flat (nodes.map DNode.el) ++ rest)
    simp only [DNode.el, bboxGo, ne_eq, not_true_eq_false, if_false, List.nil_append]
    rw [this, hk]
    simp [boxOps]

theorem bboxGo_first (bbox : P → Bool) (nohup : Str → Str → Bool) (nodes : List (DNode P)) (hne : nodes ≠ [])
    (hz : ∀ x ∈ nodes, x.id ≠ 0) (hn : ∀ x ∈ nodes, ∀ e ∈ x.kids, 3 ≤ e.level) (rest : List (Ev P))
    (hr : ∀ e ∈ rest.head?, e.level = 2 ∧ isNode e.tag = false) :
    bboxGo bbox nohup (flat (nodes.map DNode.el) ++ rest) false 0 = (nodes.flatMap (boxOps bbox nohup), rest) := by
  rw [← bboxGo_nodes bbox nohup nodes hz hn rest hr 0]
  cases nodes with
  | nil => exact absurd rfl hne
  | cons x nodes =>
    rw [List.map_cons, flat_cons, List.cons_append]
    simp [DNode.el, bboxGo]

/-! ### ways by id -/

theorem withIdGo_kids (keys : List Str) (wid : Nat) (kids : List (Ev P)) (h : ∀ e ∈ kids, 3 ≤ e.level)
    (r : List (Ev P)) (w : Way) :
    withIdGo keys wid (kids ++ r) w = withIdGo keys wid r (kids.foldl (stepKid (wayChild keys)) w) := by
  induction kids generalizing w with
  | nil => rfl
  | cons e kids ih =>
    have h3 : 3 ≤ e.level := h e (by simp)
    have hk := ih (fun e he => h e (by simp [he]))
    have h2 : ¬ (e.level = 2 ∨ e.level = 0) := by omega
    simp only [List.cons_append, List.foldl_cons, withIdGo, if_neg h2]
    by_cases h3' : e.level = 3
    · rw [if_pos h3', hk, stepKid, if_pos h3']
    · rw [if_neg h3', hk, stepKid, if_neg h3']

theorem foldl_way_zero (keys : List Str) (kids : List (Ev P)) (w : Way) (h : w.id = 0) :
    kids.foldl (stepKid (wayChild keys)) w = w := by
  induction kids with
  | nil => rfl
  | cons e kids ih =>
    have : stepKid (wayChild keys) w e = w := by
      unfold stepKid
      split
      · cases e.tag <;> simp [wayChild, h]
      · rfl
    rw [List.foldl_cons, this, ih]

theorem withIdGo_done (keys : List Str) (wid : Nat) (w : Way) (h : w.id ≠ 0) (rest : List (Ev P)) (hr : Stops isWay rest)
    (post : List (DElem P)) :
    withIdGo keys wid (flat (post.map DElem.way) ++ rest) w = (w, flat (post.map DElem.way) ++ rest) := by
  cases post with
  | nil =>
    cases rest with
    | nil => rfl
    | cons e rest => simp only [List.map_nil, flat, List.flatMap_nil, List.nil_append, withIdGo, if_pos hr.1, if_pos h]
  | cons x post =>
    rw [List.map_cons, flat_cons, List.cons_append]
    simp only [withIdGo, true_or, if_true, if_pos h]

theorem withIdGo_ways (keys : List Str) (x : DElem P) (hx : x.id ≠ 0) (pre post : List (DElem P))
    (hn : ∀ w ∈ pre ++ x :: post, ∀ e ∈ w.kids, 3 ≤ e.level) (hne : ∀ w ∈ pre, w.id ≠ x.id)
    (rest : List (Ev P)) (hr : Stops isWay rest) :
    withIdGo keys x.id (flat ((pre ++ x :: post).map DElem.way) ++ rest) way0 =
      (readWay keys x, flat (post.map DElem.way) ++ rest) := by
  induction pre with
  | nil =>
    rw [List.nil_append, List.map_cons, flat_cons, List.cons_append, List.append_assoc]
    simp only [withIdGo, true_or, if_true, DElem.way, way0, ne_eq, not_true_eq_false, if_false]
    have h1 := withIdGo_kids keys x.id x.kids (hn x (by simp)) (flat (post.map DElem.way) ++ rest) ⟨x.id, [], []⟩
    rw [foldl_way keys x.kids ⟨x.id, [], []⟩ hx] at h1
    have h2 := withIdGo_done keys x.id (readWay keys x) hx rest hr post
    rw [h1, ← h2]
    rfl
  | cons y pre ih =>
    have hy : y.id ≠ x.id := hne y (by simp)
    rw [List.cons_append, List.map_cons, flat_cons, List.cons_append, List.append_assoc]
    simp only [withIdGo, true_or, if_true, DElem.way, way0, ne_eq, not_true_eq_false, if_false, if_neg hy]
    have h1 := withIdGo_kids keys x.id y.kids (hn y (by simp)) (flat ((pre ++ x :: post).map DElem.way) ++ rest) way0
    rw [foldl_way_zero keys y.kids way0 rfl] at h1
    have h2 := ih (fun w hw => hn w (by simp only [List.cons_append, List.mem_cons]; exact Or.inr hw))
      (fun w hw => hne w (by simp [hw]))
    exact h1.trans h2

theorem exists_split_first {A : Type} (q : A → Bool) (l : List A) (h : l.any q = true) :
    ∃ pre x post, l = pre ++ x :: post ∧ q x = true ∧ ∀ y ∈ pre, q y = false := by
  induction l with
  | nil => simp at h
  | cons a l ih =>
    cases ha : q a with
    | true => exact ⟨[], a, l, rfl, ha, by simp⟩
    | false =>
      have : l.any q = true := by simpa [ha] using h
      obtain ⟨pre, x, post, rfl, hx, hp⟩ := ih this
      refine ⟨a :: pre, x, post, rfl, hx, ?_⟩
      intro y hy
      rcases List.mem_cons.1 hy with rfl | hy
      · exact ha
      · exact hp y hy

/-- The ways are written, and reading stops behind the last one. -/
theorem writeWays_flat (keys : List Str) (q : DElem P → Bool) (rest : List (Ev P)) (hr : Stops isWay rest) (n : Nat)
    (ways : List (DElem P)) (hl : ways.length ≤ n) (hz : ∀ x ∈ ways, x.id ≠ 0) (hd : (ways.map (·.id)).Nodup)
    (hn : ∀ w ∈ ways, ∀ e ∈ w.kids, 3 ≤ e.level) :
    ∃ post : List (DElem P), writeWays keys ((ways.filter q).map (·.id)) (flat (ways.map DElem.way) ++ rest) =
        ((ways.filter q).map (readWay keys), flat (post.map DElem.way) ++ rest) ∧ (∃ pre, ways = pre ++ post) ∧
      (ways.any q = false → post = ways) ∧
      (ways.any q = true → ∃ pre x, ways = pre ++ x :: post ∧ q x = true ∧ ∀ y ∈ post, q y = false) := by
  induction n generalizing ways with
  | zero =>
    have : ways = [] := List.length_eq_zero_iff.1 (by omega)
    subst this
    exact ⟨[], rfl, ⟨[], rfl⟩, fun _ => rfl, by simp⟩
  | succ n ih =>
    cases ha : ways.any q with
    | false =>
      have hf : ways.filter q = [] := by
        rw [List.filter_eq_nil_iff]
        intro x hx
        have := List.any_eq_false.1 ha x hx
        simpa using this
      exact ⟨ways, by rw [hf]; rfl, ⟨[], rfl⟩, fun _ => rfl, by simp⟩
    | true =>
      obtain ⟨pre, x, post, rfl, hx, hp⟩ := exists_split_first q ways ha
      have hf : (pre ++ x :: post).filter q = x :: post.filter q := by
        rw [List.filter_append, List.filter_eq_nil_iff.2 (by intro y hy; simp [hp y hy]), List.nil_append,
          List.filter_cons, if_pos hx]
      have hd' : (post.map (·.id)).Nodup := by
        simp only [List.map_append, List.map_cons] at hd
        exact (List.nodup_cons.1 (List.nodup_append.1 hd).2.1).2
      have hne : ∀ w ∈ pre, w.id ≠ x.id := by
        intro w hw
        simp only [List.map_append, List.map_cons] at hd
        exact (List.nodup_append.1 hd).2.2 _ (List.mem_map.2 ⟨w, hw, rfl⟩) _ (by simp)
      have hlen : post.length ≤ n := by simp at hl; omega
      obtain ⟨post', h1, ⟨pp, h2⟩, h3, h4⟩ := ih post hlen (fun y hy => hz y (by simp [hy])) hd'
        (fun y hy => hn y (by simp [hy]))
      refine ⟨post', ?_, ⟨pre ++ x :: pp, by rw [h2]; simp⟩, by simp, ?_⟩
      · rw [hf, List.map_cons, writeWays]
        simp only
        rw [withIdGo_ways keys x (hz x (by simp)) pre post hn hne rest hr]
        simp only [h1, List.map_cons]
        rfl
      · intro _
        cases hb : post.any q with
        | false =>
          have := h3 hb
          subst this
          refine ⟨pre, x, rfl, hx, ?_⟩
          intro y hy
          have := List.any_eq_false.1 hb y hy
          simpa using this
        | true =>
          obtain ⟨pre', x', h5, h6, h7⟩ := h4 hb
          exact ⟨pre ++ x :: pre', x', by rw [h5]; simp, h6, h7⟩

/-! ### nodes -/

theorem keepNode_insert (f : Flt) (nds : List Nat) (i : Nat) (mult : Nat → Bool) (nodeRels : FMap Nat (List Nat))
    (fl : List Nat) (box : Nat → Bool) (n : Nod P) (h : n.id ≠ i) :
    keepNode f (fun j => (nds ++ [i]).contains j) mult nodeRels fl box n =
      keepNode f (fun j => nds.contains j) mult nodeRels fl box n := by
  have : (nds ++ [i]).contains n.id = nds.contains n.id := by
    rw [Bool.eq_iff_iff]
    simp [h]
  simp only [keepNode, this]

theorem firstKept_congr {W : Type} (k1 k2 : W → Option W) (b : El P → W) (xs : List (El P))
    (h : ∀ x ∈ xs, k1 (b x) = k2 (b x)) : firstKept k1 b xs = firstKept k2 b xs := by
  induction xs with
  | nil => rfl
  | cons x xs ih =>
    simp only [firstKept, h x (by simp), ih (fun y hy => h y (by simp [hy]))]

theorem writeNds_flat (f : Flt) (p0 : P) (keys : List Str) (nodeRels : FMap Nat (List Nat)) (fl : List Nat)
    (box : Nat → Bool) (rest : List (Ev P)) (hr : Stops isNode rest) (fuel : Nat) (nodes : List (DNode P))
    (hp : Proper (nodes.map (·.id)) (nodes.map (·.kids))) (hl : nodes.length < fuel) (nds : List Nat) :
    writeNds p0 keys f nodeRels fl box fuel (flat (nodes.map DNode.el) ++ rest) nds =
      ((nodes.map (readNod keys)).filter (keepNode f (fun i => nds.contains i) (fun _ => false) nodeRels fl box),
        nds ++ ((nodes.map (readNod keys)).filter
          (keepNode f (fun i => nds.contains i) (fun _ => false) nodeRels fl box)).map (·.id), rest) := by
  induction fuel generalizing nodes nds with
  | zero => omega
  | succ fuel ih =>
    cases ha : (nodes.map (readNod keys)).any (keepNode f (fun i => nds.contains i) (fun _ => false) nodeRels fl box) with
    | false =>
      have hall : ∀ x ∈ nodes, keepNode f (fun i => nds.contains i) (fun _ => false) nodeRels fl box (readNod keys x) = false := by
        intro x hx
        have := List.any_eq_false.1 ha (readNod keys x) (List.mem_map.2 ⟨x, hx, rfl⟩)
        simpa using this
      have hfil : (nodes.map (readNod keys)).filter (keepNode f (fun i => nds.contains i) (fun _ => false) nodeRels fl box) = [] := by
        rw [List.filter_eq_nil_iff]
        intro y hy
        obtain ⟨x, hx, rfl⟩ := List.mem_map.1 hy
        rw [hall x hx]; simp
      have hg := nextGo_flat nodStart (nodChild keys)
        (guard' (keepNode f (fun i => nds.contains i) (fun _ => false) nodeRels fl box)) (nod0 p0) rest (stops_node hr)
        (nodes.map DNode.el) (by intro x hx; obtain ⟨y, hy, rfl⟩ := List.mem_map.1 hx
                                 exact hp.nested y.kids (List.mem_map.2 ⟨y, hy, rfl⟩))
        (by intro x hx; obtain ⟨y, hy, rfl⟩ := List.mem_map.1 hx; rfl) (nod0 p0)
      have h0 : guard' (keepNode f (fun i => nds.contains i) (fun _ => false) nodeRels fl box) (nod0 p0) = none := by
        simp [guard', keepNode, nod0]
      have hfk : firstKept (guard' (keepNode f (fun i => nds.contains i) (fun _ => false) nodeRels fl box))
          (buildWith nodStart (nodChild keys) (nod0 p0)) (nodes.map DNode.el) = (none, []) := by
        clear ih ha hfil hg hl
        induction nodes with
        | nil => rfl
        | cons x nodes ih =>
          have h1 := build_nod p0 keys x (hp.nz _ (by simp))
          have hp' : Proper (nodes.map (·.id)) (nodes.map (·.kids)) :=
            ⟨fun i hi => hp.nz i (by simp [hi]), (List.nodup_cons.1 hp.nodup).2, fun k hk => hp.nested k (by simp [hk])⟩
          rw [List.map_cons, firstKept, h1]
          simp only [guard', hall x (by simp)]
          exact ih hp' (fun y hy => hall y (by simp [hy]))
      rw [h0, hfk] at hg
      rw [writeNds, nextNode, hg, hfil]
      simp [flat]
    | true =>
      obtain ⟨pre', y, post', hsplit, hy, hpre⟩ := exists_split_first _ _ ha
      obtain ⟨pre, r1, h1, h2, h3⟩ := List.map_eq_append_iff.1 hsplit
      obtain ⟨x, post, h4, h5, h6⟩ := List.map_eq_cons_iff.1 h3
      subst h1 h4 h2 h5 h6
      have hsub : ∀ z ∈ pre ++ x :: post, z.id ≠ 0 := fun z hz => hp.nz _ (List.mem_map.2 ⟨z, hz, rfl⟩)
      have hg := nextGo_flat nodStart (nodChild keys)
        (guard' (keepNode f (fun i => nds.contains i) (fun _ => false) nodeRels fl box)) (nod0 p0) rest (stops_node hr)
        ((pre ++ x :: post).map DNode.el) (by intro x hx; obtain ⟨y, hy, rfl⟩ := List.mem_map.1 hx
                                              exact hp.nested y.kids (List.mem_map.2 ⟨y, hy, rfl⟩))
        (by intro x hx; obtain ⟨y, hy, rfl⟩ := List.mem_map.1 hx; rfl) (nod0 p0)
      have h0 : guard' (keepNode f (fun i => nds.contains i) (fun _ => false) nodeRels fl box) (nod0 p0) = none := by
        simp [guard', keepNode, nod0]
      have hfk : ∀ pre : List (DNode P), (∀ z ∈ pre, z.id ≠ 0) → x.id ≠ 0 →
          (∀ z ∈ pre, keepNode f (fun i => nds.contains i) (fun _ => false) nodeRels fl box (readNod keys z) = false) →
          firstKept (guard' (keepNode f (fun i => nds.contains i) (fun _ => false) nodeRels fl box))
          (buildWith nodStart (nodChild keys) (nod0 p0)) ((pre ++ x :: post).map DNode.el) =
            (some (readNod keys x), post.map DNode.el) := by
        intro pre
        induction pre with
        | nil =>
          intro _ hx0 _
          rw [List.nil_append, List.map_cons, firstKept, build_nod p0 keys x hx0]
          simp only [guard', hy, if_true]
        | cons z pre ih =>
          intro hz hx0 hk
          rw [List.cons_append, List.map_cons, firstKept, build_nod p0 keys z (hz z (by simp))]
          simp only [guard', hk z (by simp)]
          exact ih (fun w hw => hz w (by simp [hw])) hx0 (fun w hw => hk w (by simp [hw]))
      rw [h0, hfk pre (fun z hz => hsub z (by simp [hz])) (hsub x (by simp))
        (fun z hz => hpre _ (List.mem_map.2 ⟨z, hz, rfl⟩))] at hg
      have hd := hp.nodup
      simp only [List.map_append, List.map_cons] at hd
      have hd2 := List.nodup_cons.1 (List.nodup_append.1 hd).2.1
      have hp' : Proper (post.map (·.id)) (post.map (·.kids)) :=
        ⟨fun i hi => hp.nz i (by simp only [List.map_append, List.map_cons, List.mem_append, List.mem_cons]; exact Or.inr (Or.inr hi)),
         hd2.2,
         fun k hk => hp.nested k (by simp only [List.map_append, List.map_cons, List.mem_append, List.mem_cons]; exact Or.inr (Or.inr hk))⟩
      have hrec := ih post hp' (by simp at hl; omega) (nds ++ [x.id])
      have hcong : (post.map (readNod keys)).filter (keepNode f (fun i => (nds ++ [x.id]).contains i) (fun _ => false) nodeRels fl box) =
          (post.map (readNod keys)).filter (keepNode f (fun i => nds.contains i) (fun _ => false) nodeRels fl box) := by
        apply List.filter_congr
        intro n hn
        obtain ⟨z, hz, rfl⟩ := List.mem_map.1 hn
        apply keepNode_insert
        intro h
        exact hd2.1 (List.mem_map.2 ⟨z, hz, h⟩)
      rw [hcong] at hrec
      have hfil : ((pre ++ x :: post).map (readNod keys)).filter (keepNode f (fun i => nds.contains i) (fun _ => false) nodeRels fl box) =
          readNod keys x :: (post.map (readNod keys)).filter (keepNode f (fun i => nds.contains i) (fun _ => false) nodeRels fl box) := by
        rw [List.map_append, List.filter_append, List.filter_eq_nil_iff.2 (by intro y hy; rw [hpre y hy]; simp),
          List.nil_append, List.map_cons, List.filter_cons, if_pos hy]
      rw [writeNds, nextNode, hg, hfil]
      simp only
      rw [show (readNod keys x).id = x.id from rfl, hrec]
      simp [readNod]

end Verif.Osm
