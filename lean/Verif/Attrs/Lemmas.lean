import Verif.Attrs.Spec

/-!
# What the rules find in the file (lemmas)
-/

set_option linter.unusedSectionVars false

namespace Verif.Attrs
open Verif.Names (Str)
open Verif.Osm

variable {P D : Type}

/-! ### relations by number -/

/-- The attributes have something to say. -/
def Spk (s : Rule) (a : Attrs) : Prop := (∃ v, FMap.get a s.key = some v ∧ (s.val = [42] ∨ v = s.val)) ∧ ∃ v, FMap.get a s.attr = some v

theorem containedAttr_iff (k b : Str) (a : Attrs) : containedAttr (k, b) a = true ↔ ∃ v, FMap.get a k = some v ∧ (b = [42] ∨ v = b) := by
  induction a with
  | nil => simp [containedAttr, FMap.get_nil]
  | cons kv a ih =>
    rw [containedAttr, FMap.get_cons]
    by_cases h : kv.1 = k
    · rw [if_pos h, if_pos h]
      simp only [Option.some.injEq, exists_eq_left', valMatches, star]
      by_cases hb : b = [42]
      · simp [hb]
      · simp [hb]
    · rw [if_neg h, if_neg h]
      exact ih

theorem relLoop_spec (s : Rule) (rels : List Attrs) : ∀ l : List Nat, (∀ k ∈ l, k < rels.length) → ∃ v, relLoop s rels l = some v ∧
    ((∃ l1 k l2 a, l = l1 ++ k :: l2 ∧ rels[k]? = some a ∧ Spk s a ∧ FMap.get a s.attr = some v ∧ ∀ j ∈ l1, ∀ b, rels[j]? = some b → ¬ Spk s b) ∨
      (v = [] ∧ ∀ k ∈ l, ∀ b, rels[k]? = some b → ¬ Spk s b)) := by
  intro l
  induction l with
  | nil => intro _; exact ⟨[], rfl, Or.inr ⟨rfl, by simp⟩⟩
  | cons k l ih =>
    intro hl
    have hk := hl k (by simp)
    have e : rels[k]? = some rels[k] := List.getElem?_eq_getElem hk
    obtain ⟨v, h1, h2⟩ := ih fun j hj => hl j (by simp [hj])
    by_cases hs : Spk s rels[k]
    · obtain ⟨w, hw⟩ := hs.2
      refine ⟨w, ?_, Or.inl ⟨[], k, l, rels[k], rfl, e, hs, hw, by simp⟩⟩
      rw [relLoop, e]
      simp only
      rw [if_pos ((containedAttr_iff _ _ _).2 hs.1), hw]
    · refine ⟨v, ?_, ?_⟩
      · rw [relLoop, e]
        simp only
        by_cases hc : containedAttr (s.key, s.val) rels[k] = true
        · rw [if_pos hc]
          cases hg : FMap.get rels[k] s.attr with
          | none => exact h1
          | some w => exact absurd ⟨(containedAttr_iff _ _ _).1 hc, w, hg⟩ hs
        · rw [if_neg hc]; exact h1
      · rcases h2 with ⟨l1, j, l2, a, q1, q2, q3, q4, q5⟩ | ⟨q1, q2⟩
        · refine Or.inl ⟨k :: l1, j, l2, a, by rw [q1]; rfl, q2, q3, q4, ?_⟩
          intro i hi b hb
          rcases List.mem_cons.1 hi with rfl | hi
          · rw [e] at hb; cases hb; exact hs
          · exact q5 i hi b hb
        · refine Or.inr ⟨q1, ?_⟩
          intro i hi b hb
          rcases List.mem_cons.1 hi with rfl | hi
          · rw [e] at hb; cases hb; exact hs
          · exact q2 i hi b hb

/-! ### the index is in the order of the file -/

theorem sorted_pushAll (ids : List Nat) (k : Nat) (m : FMap Nat (List Nat))
    (h : ∀ i, ((m.get i).getD []).Pairwise (· ≤ ·) ∧ ∀ j ∈ (m.get i).getD [], j ≤ k) :
    ∀ i, (((ids.foldl (fun m id => pushTo m id k) m).get i).getD []).Pairwise (· ≤ ·) := by
  induction ids generalizing m with
  | nil => intro i; exact (h i).1
  | cons x ids ih =>
    rw [List.foldl_cons]
    refine ih _ fun i => ?_
    unfold pushTo
    rw [FMap.get_put]
    by_cases e : i = x
    · rw [if_pos e]
      obtain ⟨h1, h2⟩ := h x
      simp only [Option.getD_some]
      constructor
      · rw [List.pairwise_append]
        exact ⟨h1, by simp, fun a ha b hb => by rw [List.mem_singleton] at hb; subst hb; exact h2 a ha⟩
      · intro j hj
        rcases List.mem_append.1 hj with hj | hj
        · exact h2 j hj
        · rw [List.mem_singleton] at hj; omega
    · rw [if_neg e]; exact h i

structure Sorted (s : RelSt) : Prop where
  nodes : ∀ i, ((s.nodeRels.get i).getD []).Pairwise (· ≤ ·)
  ways : ∀ i, ((s.wayRels.get i).getD []).Pairwise (· ≤ ·)

theorem sorted_run (rs : List Rel) : ∀ (seen : List Rel) (s : RelSt), RInv seen s → Sorted s → Sorted (rs.foldl addRel s) := by
  induction rs with
  | nil => intro _ s _ h; exact h
  | cons r rs ih =>
    intro seen s hi h
    refine ih _ _ (hi.step r) ?_
    have hl : s.rels.length = seen.length := by rw [hi.rels]; simp
    constructor
    · intro i
      refine sorted_pushAll _ _ _ (fun i => ⟨h.nodes i, fun j hj => ?_⟩) i
      obtain ⟨_, hr, _⟩ := (hi.nodes i j).1 hj
      have := (List.getElem?_eq_some_iff.1 hr).1
      omega
    · intro i
      refine sorted_pushAll _ _ _ (fun i => ⟨h.ways i, fun j hj => ?_⟩) i
      obtain ⟨_, hr, _⟩ := (hi.ways i j).1 hj
      have := (List.getElem?_eq_some_iff.1 hr).1
      omega

theorem relState_sorted (f : Flt) (keys : List Str) (rels : List (DElem P)) : Sorted (relState f keys rels) :=
  sorted_run _ [] _ rinv_init ⟨by simp [FMap.get_nil], by simp [FMap.get_nil]⟩

/-! ### tags -/

theorem kidVal_has {keys : List Str} {k : Str} (hk : k ∈ keys) (kids : List (Ev P)) (v : Str) : kidVal keys kids k = some v ↔ Has kids k v := by
  unfold kidVal Has
  rw [if_pos hk]

theorem hits_met {keys : List Str} {rules : Rules} (hk : ∀ k ∈ rules.keys, k ∈ keys) (kind : Nat) {kids : List (Ev P)} {a : Attrs} (hw : FMap.WF a)
    (ha : ∀ k, FMap.get a k = kidVal keys kids k) : Hits rules kind a ↔ Met rules kind kids := by
  have key : ∀ kv : Str × Str, RuleHit rules kind kv → kv.1 ∈ keys := by
    rintro kv ⟨vals, h, _⟩
    refine hk _ ?_
    apply Classical.byContradiction
    intro hn
    rw [(FMap.get_eq_none_iff _ _).2 hn] at h
    cases h
  constructor
  · rintro ⟨kv, h1, h2⟩
    have := FMap.get_of_mem hw h1
    rw [ha] at this
    exact ⟨kv.1, kv.2, (kidVal_has (key _ h2) _ _).1 this, h2⟩
  · rintro ⟨k, v, h1, h2⟩
    refine ⟨(k, v), FMap.mem_of_get ?_, h2⟩
    rw [ha]
    exact (kidVal_has (key _ h2) _ _).2 h1

section
variable {f : Flt} (hf : f.Ok) {keys : List Str} (hk1 : ∀ k ∈ f.keep.keys, k ∈ keys) (hk2 : ∀ k ∈ f.drop.keys, k ∈ keys)
include hf hk1 hk2

theorem keepRel_wanted (y : DElem P) (hy : y.id ≠ 0) : (∃ r, keepRel f (readRel keys y) = some r) ↔ Wanted f y := by
  have hr := readRel_spec keys y
  have h1 := hits_met hk1 REL hr.wf hr.attrs
  have h2 := hits_met hk2 REL hr.wf hr.attrs
  constructor
  · rintro ⟨r, h⟩
    obtain ⟨_, w, _⟩ := (keepRel_iff hf _ _).1 h
    exact ⟨h1.1 w.keep, fun h => w.nodrop (h2.2 h)⟩
  · rintro ⟨w1, w2⟩
    exact ⟨_, (keepRel_iff hf _ _).2 ⟨hy, ⟨h1.2 w1, fun h => w2 (h2.1 h)⟩, rfl⟩⟩

end

theorem keepRel_same {f : Flt} (hf : f.Ok) {r r' : Rel} (h : keepRel f r = some r') : r'.attrs = r.attrs ∧ r'.nodes = r.nodes ∧ r'.ways = r.ways := by
  obtain ⟨_, _, h⟩ := (keepRel_iff hf _ _).1 h
  rw [h]
  exact ⟨rfl, rfl, rfl⟩

/-! ### an element of the filtered list, in the list -/

theorem filterMap_split {A B : Type} (g : A → Option B) : ∀ (l : List A) (k : Nat) (b : B), (l.filterMap g)[k]? = some b →
    ∃ l1 a l2, l = l1 ++ a :: l2 ∧ g a = some b ∧ (l1.filterMap g).length = k := by
  intro l
  induction l with
  | nil => intro k b h; simp at h
  | cons x l ih =>
    intro k b h
    cases hx : g x with
    | none =>
      rw [List.filterMap_cons_none hx] at h
      obtain ⟨l1, a, l2, e1, e2, e3⟩ := ih k b h
      exact ⟨x :: l1, a, l2, by rw [e1]; rfl, e2, by rw [List.filterMap_cons_none hx]; exact e3⟩
    | some c =>
      rw [List.filterMap_cons_some hx] at h
      cases k with
      | zero => rw [List.getElem?_cons_zero] at h; exact ⟨[], x, l, rfl, by rw [hx]; exact h, rfl⟩
      | succ k =>
        rw [List.getElem?_cons_succ] at h
        obtain ⟨l1, a, l2, e1, e2, e3⟩ := ih k b h
        exact ⟨x :: l1, a, l2, by rw [e1]; rfl, e2, by rw [List.filterMap_cons_some hx, List.length_cons, e3]⟩

theorem filterMap_index {A B : Type} (g : A → Option B) {l1 : List A} {a : A} {l2 : List A} {b : B} (h : g a = some b) :
    ((l1 ++ a :: l2).filterMap g)[(l1.filterMap g).length]? = some b := by
  rw [List.filterMap_append, List.filterMap_cons_some h, List.getElem?_append_right (Nat.le_refl _), Nat.sub_self]
  rfl

/-! ### one rule -/

section
variable {f : Flt} (hf : f.Ok) {keys : List Str} (hk1 : ∀ k ∈ f.keep.keys, k ∈ keys) (hk2 : ∀ k ∈ f.drop.keys, k ∈ keys)
variable {rels : List (DElem P)} (hz : ∀ y ∈ rels, y.id ≠ 0)
include hf hk1 hk2 hz

theorem getAttr_value (s : Rule) (i : Nat) (t : MemType) (kids : List (Ev P)) (am : Attrs) {keysE : List Str}
    (ham : ∀ k, FMap.get am k = kidVal keysE kids k) (hs1 : s.key = [] → s.attr ∈ keysE) (hs2 : s.key ≠ [] → s.key ∈ keys ∧ s.attr ∈ keys)
    (m : FMap Nat (List Nat)) (sel : Rel → List (Nat × Str)) (hsel : ∀ y : DElem P, sel (readRel keys y) = kidMembers t y.kids)
    (hkeep : ∀ r r', keepRel f r = some r' → sel r' = sel r)
    (hm : ∀ id k, k ∈ (m.get id).getD [] ↔ ∃ r, (rels.filterMap (fun x => keepRel f (readRel keys x)))[k]? = some r ∧ id ∈ (sel r).map (·.1))
    (hsort : ((m.get i).getD []).Pairwise (· ≤ ·)) :
    ∃ v, getAttr s i am m ((rels.filterMap (fun x => keepRel f (readRel keys x))).map (·.attrs)) = some v ∧ Value f rels t i kids s v := by
  unfold getAttr
  by_cases hs : s.key = []
  · rw [if_pos hs, ham]
    cases hv : kidVal keysE kids s.attr with
    | none =>
      refine ⟨[], rfl, .noOwn hs fun v h => ?_⟩
      rw [(kidVal_has (hs1 hs) _ _).2 h] at hv
      cases hv
    | some v => exact ⟨v, rfl, .own hs ((kidVal_has (hs1 hs) _ _).1 hv)⟩
  · rw [if_neg hs]
    obtain ⟨R, hR⟩ : ∃ R, R = rels.filterMap (fun x => keepRel f (readRel keys x)) := ⟨_, rfl⟩
    obtain ⟨kk, ka⟩ := hs2 hs
    -- a relation of the file speaks iff its attributes do
    have spk : ∀ (y : DElem P) r, keepRel f (readRel keys y) = some r → i ∈ (sel r).map (·.1) → (Spk s r.attrs ↔ Speaks f t i s y) := by
      intro y r hr hi
      have hrd := readRel_spec keys y
      have ea := (keepRel_same hf hr).1
      have hid : y.id ≠ 0 := ((keepRel_iff hf _ _).1 hr).1
      have hw := (keepRel_wanted hf hk1 hk2 y hid).1 ⟨r, hr⟩
      have hmem : ∃ role, (i, role) ∈ kidMembers t y.kids := by
        rw [hkeep _ _ hr, hsel] at hi
        obtain ⟨x, hx, rfl⟩ := List.mem_map.1 hi
        exact ⟨x.2, hx⟩
      have g : ∀ k ∈ keys, ∀ v, FMap.get r.attrs k = some v ↔ Has y.kids k v := by
        intro k hk v
        rw [ea, hrd.attrs]
        exact kidVal_has hk _ _
      constructor
      · rintro ⟨⟨v, h1, h2⟩, w, h3⟩
        exact ⟨hw, hmem, ⟨v, (g _ kk v).1 h1, h2⟩, w, (g _ ka w).1 h3⟩
      · rintro ⟨_, _, ⟨v, h1, h2⟩, w, h3⟩
        exact ⟨⟨v, (g _ kk v).2 h1, h2⟩, w, (g _ ka w).2 h3⟩
    have memOf : ∀ (y : DElem P) r, keepRel f (readRel keys y) = some r → Speaks f t i s y → i ∈ (sel r).map (·.1) := by
      intro y r hr h
      obtain ⟨role, hx⟩ := h.member
      rw [hkeep _ _ hr, hsel]
      exact List.mem_map.2 ⟨_, hx, rfl⟩
    have hlen : ∀ k ∈ (m.get i).getD [], k < (R.map (·.attrs)).length := by
      intro k hk
      obtain ⟨r, hr, _⟩ := (hm i k).1 hk
      rw [← hR] at hr
      rw [List.length_map]
      exact (List.getElem?_eq_some_iff.1 hr).1
    obtain ⟨v, h1, h2⟩ := relLoop_spec s (R.map (·.attrs)) _ hlen
    refine ⟨v, ?_, ?_⟩
    · rw [← hR]
      cases he : m.get i with
      | none =>
        rw [he] at h1
        exact h1
      | some l =>
        rw [he] at h1
        exact h1
    · rcases h2 with ⟨l1, k, l2, a, q1, q2, q3, q4, q5⟩ | ⟨rfl, q⟩
      · have hk : k ∈ (m.get i).getD [] := by rw [q1]; simp
        obtain ⟨r, hr, hi⟩ := (hm i k).1 hk
        obtain ⟨a1, y, b1, e1, e2, e3⟩ := filterMap_split _ _ _ _ hr
        rw [← hR] at hr
        rw [List.getElem?_map, hr] at q2
        have q2 : r.attrs = a := by simpa using q2
        subst q2
        have hsp := (spk y r e2 hi).1 q3
        refine .rel hs e1 hsp ?_ ?_
        · intro z hz' hsz
          obtain ⟨r', hr'⟩ := (keepRel_wanted hf hk1 hk2 z (hz z (by rw [e1]; simp [hz']))).2 hsz.wanted
          obtain ⟨c1, c2, e4⟩ := List.append_of_mem hz'
          have hidx := filterMap_index (fun x => keepRel f (readRel keys x)) (l1 := c1) (l2 := c2 ++ y :: b1) hr'
          have e5 : c1 ++ z :: (c2 ++ y :: b1) = rels := by rw [e1, e4]; simp
          rw [e5] at hidx
          have hlt : (c1.filterMap (fun x => keepRel f (readRel keys x))).length < k := by
            rw [← e3, e4, List.filterMap_append, List.length_append,
              List.filterMap_cons_some (f := fun x => keepRel f (readRel keys x)) hr', List.length_cons]
            omega
          have hj : (c1.filterMap (fun x => keepRel f (readRel keys x))).length ∈ (m.get i).getD [] :=
            (hm i _).2 ⟨r', hidx, memOf z r' hr' hsz⟩
          rw [q1] at hj hsort
          rcases List.mem_append.1 hj with hj | hj
          · refine q5 _ hj r'.attrs ?_ ((spk z r' hr' (memOf z r' hr' hsz)).2 hsz)
            rw [List.getElem?_map, hR, hidx]; rfl
          · rcases List.mem_cons.1 hj with hj | hj
            · omega
            · have := (List.pairwise_cons.1 (List.pairwise_append.1 hsort).2.1).1 _ hj
              omega
        · rw [(keepRel_same hf e2).1, (readRel_spec keys y).attrs] at q4
          exact (kidVal_has ka _ _).1 q4
      · refine .noRel hs ?_
        intro y hy hsy
        obtain ⟨r, hr⟩ := (keepRel_wanted hf hk1 hk2 y (hz y hy)).2 hsy.wanted
        obtain ⟨c1, c2, e4⟩ := List.append_of_mem hy
        have hidx := filterMap_index (fun x => keepRel f (readRel keys x)) (l1 := c1) (l2 := c2) hr
        rw [← e4] at hidx
        refine q _ ((hm i _).2 ⟨r, hidx, memOf y r hr hsy⟩) r.attrs ?_ ((spk y r hr (memOf y r hr hsy)).2 hsy)
        rw [List.getElem?_map, hR, hidx]; rfl

end

/-! ### lists of rules -/

theorem ranked_spec (norm : Str → Str) (id : Nat) (am : Attrs) (ent : FMap Nat (List Nat)) (rels : List Attrs) (V : Rule → Str → Prop) :
    ∀ (rules : List Rule) (ret : List Str), (∀ s ∈ rules, ∃ v, getAttr s id am ent rels = some v ∧ V s v) →
      ∃ vals, Match V rules vals ∧ ranked norm id am ent rels rules ret = some (ret ++ (vals.map norm).filter (· ≠ [])) := by
  intro rules
  induction rules with
  | nil => intro ret _; exact ⟨[], .nil, by simp [ranked]⟩
  | cons s rules ih =>
    intro ret h
    obtain ⟨v, h1, h2⟩ := h s (by simp)
    obtain ⟨vals, h3, h4⟩ := ih (if norm v ≠ [] then ret ++ [norm v] else ret) fun x hx => h x (by simp [hx])
    refine ⟨v :: vals, .cons h2 h3, ?_⟩
    rw [ranked, h1]
    simp only
    rw [h4]
    by_cases hv : norm v = []
    · simp [hv]
    · simp [hv]

theorem firstMatch_spec (norm : Str → Str) (id : Nat) (am : Attrs) (ent : FMap Nat (List Nat)) (rels : List Attrs) (V : Rule → Str → Prop) :
    ∀ (rules : List Rule), (∀ s ∈ rules, ∃ v, getAttr s id am ent rels = some v ∧ V s v) →
      ∃ vals r, Match V rules vals ∧ firstMatch norm id am ent rels rules = some r ∧ First (vals.map norm) r := by
  intro rules
  induction rules with
  | nil => intro _; exact ⟨[], [], .nil, rfl, Or.inr ⟨rfl, by simp⟩⟩
  | cons s rules ih =>
    intro h
    obtain ⟨v, h1, h2⟩ := h s (by simp)
    obtain ⟨vals, r, h3, h4, h5⟩ := ih fun x hx => h x (by simp [hx])
    rw [firstMatch, h1]
    simp only
    by_cases hv : norm v = []
    · refine ⟨v :: vals, r, .cons h2 h3, by rw [if_neg (by simpa using hv)]; exact h4, ?_⟩
      rcases h5 with ⟨a, b, e1, e2, e3⟩ | ⟨e1, e2⟩
      · refine Or.inl ⟨norm v :: a, b, by rw [List.map_cons, e1]; rfl, e2, ?_⟩
        intro x hx
        rcases List.mem_cons.1 hx with rfl | hx
        · exact hv
        · exact e3 x hx
      · refine Or.inr ⟨e1, ?_⟩
        intro x hx
        rw [List.map_cons] at hx
        rcases List.mem_cons.1 hx with rfl | hx
        · exact hv
        · exact e2 x hx
    · exact ⟨v :: vals, norm v, .cons h2 h3, by rw [if_pos hv], Or.inl ⟨[], vals.map norm, rfl, hv, by simp⟩⟩

theorem First.unique {l : List Str} {s s' : Str} (h : First l s) (h' : First l s') : s = s' := by
  induction l with
  | nil =>
    rcases h with ⟨a, b, e, _⟩ | ⟨rfl, _⟩
    · simp at e
    · rcases h' with ⟨a, b, e, _⟩ | ⟨rfl, _⟩
      · simp at e
      · rfl
  | cons x l ih =>
    have go : ∀ s, First (x :: l) s → (x ≠ [] ∧ s = x) ∨ (x = [] ∧ First l s) := by
      rintro s (⟨a, b, e, h1, h2⟩ | ⟨rfl, h2⟩)
      · cases a with
        | nil => cases e; exact Or.inl ⟨h1, rfl⟩
        | cons y a =>
          cases e
          exact Or.inr ⟨h2 x (by simp), Or.inl ⟨a, b, rfl, h1, fun z hz => h2 z (by simp [hz])⟩⟩
      · exact Or.inr ⟨h2 x (by simp), Or.inr ⟨rfl, fun z hz => h2 z (by simp [hz])⟩⟩
    rcases go s h with ⟨a1, a2⟩ | ⟨a1, a2⟩ <;> rcases go s' h' with ⟨b1, b2⟩ | ⟨b1, b2⟩
    · rw [a2, b2]
    · exact absurd b1 a1
    · exact absurd a1 b1
    · exact ih a2 b2

theorem first_unique {A : Type} {S : A → Prop} {y y' : A} {b b' : List A} : ∀ (a a' : List A), a ++ y :: b = a' ++ y' :: b' → S y →
    (∀ z ∈ a, ¬ S z) → S y' → (∀ z ∈ a', ¬ S z) → y = y' := by
  intro a
  induction a with
  | nil =>
    intro a' e hs _ _ hn'
    cases a' with
    | nil => cases e; rfl
    | cons z a' => cases e; exact absurd hs (hn' y (by simp))
  | cons x a ih =>
    intro a' e hs hn hs' hn'
    cases a' with
    | nil => cases e; exact absurd hs' (hn y' (by simp))
    | cons z a' =>
      rw [List.cons_append, List.cons_append, List.cons.injEq] at e
      exact ih a' e.2 hs (fun z hz => hn z (by simp [hz])) hs' (fun z hz => hn' z (by simp [hz]))

theorem Value.unique {f : Flt} {rels : List (DElem P)} {t : MemType} {i : Nat} {kids : List (Ev P)} {r : Rule} {v w : Str}
    (h : Value f rels t i kids r v) (h' : Value f rels t i kids r w) : v = w := by
  have hu : ∀ {kids : List (Ev P)} {k v w : Str}, Has kids k v → Has kids k w → v = w := by
    intro kids k v w h h'
    unfold Has at h h'
    rw [h] at h'
    exact Option.some.inj h'
  cases h with
  | own k1 h1 =>
    cases h' with
    | own _ h2 => exact hu h1 h2
    | noOwn _ h2 => exact absurd h1 (h2 _)
    | rel k2 => exact absurd k1 k2
    | noRel k2 => exact absurd k1 k2
  | noOwn k1 h1 =>
    cases h' with
    | own _ h2 => exact absurd h2 (h1 _)
    | noOwn => rfl
    | rel k2 => exact absurd k1 k2
    | noRel k2 => exact absurd k1 k2
  | noRel k1 h1 =>
    cases h' with
    | own k2 => exact absurd k2 k1
    | noOwn k2 => exact absurd k2 k1
    | rel _ e hs => exact absurd hs (h1 _ (by rw [e]; simp))
    | noRel => rfl
  | @rel a b y v k1 e hs hn hv =>
    cases h' with
    | own k2 => exact absurd k2 k1
    | noOwn k2 => exact absurd k2 k1
    | noRel _ h2 => exact absurd hs (h2 _ (by rw [e]; simp))
    | @rel a' b' y' w _ e' hs' hn' hv' =>
      have : y = y' := first_unique (S := Speaks f t i r) a a' (e.symm.trans e') hs hn hs' hn'
      subst this
      exact hu hv hv'

theorem match_unique {A B : Type} {R : A → B → Prop} (hu : ∀ a b c, R a b → R a c → b = c) {l : List A} {m m' : List B} (h : Match R l m)
    (h' : Match R l m') : m = m' := by
  induction h generalizing m' with
  | nil => cases h'; rfl
  | cons h1 _ ih =>
    cases h' with
    | cons h2 h3 => rw [hu _ _ _ h1 h2, ih h3]

end Verif.Attrs
