import Verif.Turns.Model
import Verif.Osm.GraphReadProps
import Verif.Restrictor.Weak

/-!
# Turn restrictions of the map (specification and lemmas)
-/

set_option linter.unusedSectionVars false

namespace Verif.Turns
open Verif.Names (Str)
open Verif.Osm
open Verif.Restrictor (Raw Op R Announced)

variable {P E : Type}

/-! ### specification -/

/-- A relation is a turn restriction of the map: `pos` (only this turn is allowed) or not (this turn is
forbidden), from the way `a` over the node `v` to the way `b`. -/
structure TurnRule (o : Opts) (r : Rel) (pos : Bool) (a b v : Nat) : Prop where
  type : FMap.get r.attrs sType = some sRestriction
  noEx : ¬ Hits o.noRestr ALL r.attrs
  kind : if pos then Hits o.posRestr ALL r.attrs else ¬ Hits o.posRestr ALL r.attrs ∧ Hits o.negRestr ALL r.attrs
  fr : (r.ways.filter fun m => m.2 = sFrom).map (·.1) = [a]
  to : (r.ways.filter fun m => m.2 = sTo).map (·.1) = [b]
  via : ∃ pre post, r.nodes = pre ++ (v, sVia) :: post ∧ ∀ m ∈ pre, m.2 ≠ sVia

/-- The members of the relation have proper ids. -/
def Ids (r : Rel) : Prop := (∀ m ∈ r.ways, m.1 ≠ 0) ∧ ∀ m ∈ r.nodes, m.1 ≠ 0

/-- `e` is an edge of the way `w` that ends in `g`, a graph node of the OSM node `v`. -/
def At (mk : Nat → GEdge → E) (s : GSt P) (w v g : Nat) (e : E) : Prop :=
  ∃ (i : Nat) (x : GEdge), s.edges[i]? = some x ∧ e = mk i x ∧ x.way.id = w ∧ (x.src = g ∨ x.dst = g) ∧
    (s.nodes.get v = some g ∨ ∃ l, s.multi.get v = some l ∧ g ∈ l)

/-! ### rules -/

def oneOf (a : Nat) : List Nat := if a = 0 then [] else [a]

theorem oneOf_pos {a : Nat} (h : a ≠ 0) : oneOf a = [a] := if_neg h

theorem oneOf_inj {a b : Nat} (h : oneOf a = oneOf b) : a = b := by
  unfold oneOf at h
  split at h <;> split at h <;> simp_all

theorem endsOf_iff (ms : List (Nat × Str)) (hz : ∀ m ∈ ms, m.1 ≠ 0) (a0 b0 a b : Nat) :
    endsOf ms a0 b0 = some (a, b) ↔
      oneOf a0 ++ (ms.filter fun m => m.2 = sFrom).map (·.1) = oneOf a ∧
      oneOf b0 ++ (ms.filter fun m => m.2 = sTo).map (·.1) = oneOf b := by
  induction ms generalizing a0 b0 with
  | nil =>
    simp only [endsOf, List.filter_nil, List.map_nil, List.append_nil, Option.some.injEq, Prod.mk.injEq]
    exact ⟨fun h => ⟨by rw [h.1], by rw [h.2]⟩, fun h => ⟨oneOf_inj h.1, oneOf_inj h.2⟩⟩
  | cons m ms ih =>
    have hm := hz m (by simp)
    have ih := ih (fun x hx => hz x (by simp [hx]))
    have two : ∀ (x y : Nat) (l : List Nat) (c : Nat), x ≠ 0 → oneOf x ++ y :: l ≠ oneOf c := by
      intro x y l c hx h
      rw [oneOf_pos hx] at h
      unfold oneOf at h
      split at h <;> simp at h
    have hft : sFrom ≠ sTo := by decide
    simp only [endsOf]
    by_cases h1 : m.2 = sFrom
    · have h2 : ¬ m.2 = sTo := fun h => hft (h1.symm.trans h)
      rw [if_pos h1]
      by_cases ha : a0 = 0
      · subst ha
        rw [if_neg (by simp), ih, oneOf_pos hm]
        simp [h1, oneOf, hft]
      · rw [if_pos ha]
        simp only [List.filter_cons, h1, decide_true, if_true, List.map_cons]
        constructor
        · intro h; cases h
        · rintro ⟨h, _⟩; exact absurd h (two _ _ _ _ ha)
    · rw [if_neg h1]
      by_cases h2 : m.2 = sTo
      · rw [if_pos h2]
        by_cases hb : b0 = 0
        · subst hb
          rw [if_neg (by simp), ih, oneOf_pos hm]
          simp [h2, oneOf, hft.symm]
        · rw [if_pos hb]
          simp only [List.filter_cons, h2, decide_true, if_true, List.map_cons]
          constructor
          · intro h; cases h
          · rintro ⟨_, h⟩; exact absurd h (two _ _ _ _ hb)
      · rw [if_neg h2, ih]
        simp [h1, h2]

theorem viaOf_iff (ns : List (Nat × Str)) (hz : ∀ m ∈ ns, m.1 ≠ 0) (v : Nat) :
    (viaOf ns = v ∧ v ≠ 0) ↔ ∃ pre post, ns = pre ++ (v, sVia) :: post ∧ ∀ m ∈ pre, m.2 ≠ sVia := by
  induction ns with
  | nil =>
    simp only [viaOf]
    constructor
    · rintro ⟨rfl, h⟩; exact absurd rfl h
    · rintro ⟨pre, post, h, _⟩; simp at h
  | cons m ns ih =>
    have ih := ih (fun x hx => hz x (by simp [hx]))
    simp only [viaOf]
    by_cases h : m.2 = sVia
    · rw [if_pos h]
      constructor
      · rintro ⟨rfl, _⟩
        exact ⟨[], ns, by rw [List.nil_append, ← h], by simp⟩
      · rintro ⟨pre, post, he, hp⟩
        cases pre with
        | nil =>
          simp only [List.nil_append, List.cons.injEq] at he
          have := hz m (by simp)
          rw [he.1] at this ⊢
          exact ⟨rfl, this⟩
        | cons p pre =>
          simp only [List.cons_append, List.cons.injEq] at he
          exact absurd (he.1 ▸ h) (hp p (by simp))
    · rw [if_neg h, ih]
      constructor
      · rintro ⟨pre, post, he, hp⟩
        refine ⟨m :: pre, post, by rw [he]; rfl, ?_⟩
        intro x hx
        rcases List.mem_cons.1 hx with rfl | hx
        · exact h
        · exact hp x hx
      · rintro ⟨pre, post, he, hp⟩
        cases pre with
        | nil =>
          simp only [List.nil_append, List.cons.injEq] at he
          exact absurd (by rw [he.1]) h
        | cons p pre =>
          simp only [List.cons_append, List.cons.injEq] at he
          exact ⟨pre, post, he.2, fun x hx => hp x (by simp [hx])⟩

/-- The rules at a node. -/
def Rests.at (q : Rests) (pos : Bool) (v : Nat) : List (Raw Nat) := ((if pos then q.pos else q.neg).get v).getD []

theorem get_pushRaw (m : FMap Nat (List (Raw Nat))) (v v' : Nat) (x : Raw Nat) :
    ((pushRaw m v x).get v').getD [] = if v' = v then (m.get v').getD [] ++ [x] else (m.get v').getD [] := by
  unfold pushRaw
  rw [FMap.get_put]
  split
  · rename_i h; subst h; rfl
  · rfl

theorem readRestr_iff {o : Opts} (ho : FlaggedOpts o) (s : Rests) (r : Rel) (hz : Ids r) (pos : Bool) (v : Nat) (x : Raw Nat) :
    x ∈ (readRestr o s r).at pos v ↔ x ∈ s.at pos v ∨ TurnRule o r pos x.eFrom x.eTo v := by
  have hno := contained_iff ho.noRestr ALL r.attrs
  have hp := contained_iff ho.posRestr ALL r.attrs
  have hn := contained_iff ho.negRestr ALL r.attrs
  have hpos : fPosRestr o r.attrs ≠ 0 ↔ ¬ Hits o.noRestr ALL r.attrs ∧ Hits o.posRestr ALL r.attrs := by
    unfold fPosRestr
    split
    · rename_i h; simp [hno.1 h]
    · rename_i h; rw [hp]; exact ⟨fun hh => ⟨fun hc => h (hno.2 hc), hh⟩, fun hh => hh.2⟩
  have hneg : fNegRestr o r.attrs ≠ 0 ↔ ¬ Hits o.noRestr ALL r.attrs ∧ Hits o.negRestr ALL r.attrs := by
    unfold fNegRestr
    split
    · rename_i h; simp [hno.1 h]
    · rename_i h; rw [hn]; exact ⟨fun hh => ⟨fun hc => h (hno.2 hc), hh⟩, fun hh => hh.2⟩
  unfold readRestr
  by_cases ht : FMap.get r.attrs sType = some sRestriction
  · rw [if_neg (by simp [ht])]
    by_cases hk : fPosRestr o r.attrs = 0 ∧ fNegRestr o r.attrs = 0
    · rw [if_pos hk]
      constructor
      · exact Or.inl
      · rintro (h | h)
        · exact h
        · exfalso
          have hx := h.noEx
          have hkind := h.kind
          cases pos with
          | true => exact absurd hk.1 (hpos.2 ⟨hx, by simpa using hkind⟩)
          | false =>
            simp only [Bool.false_eq_true, if_false] at hkind
            exact absurd hk.2 (hneg.2 ⟨hx, hkind.2⟩)
    · rw [if_neg hk]
      cases he : endsOf r.ways 0 0 with
      | none =>
        simp only
        constructor
        · exact Or.inl
        · rintro (h | h)
          · exact h
          · exfalso
            have ha : x.eFrom ≠ 0 := by
              have : x.eFrom ∈ (r.ways.filter fun m => m.2 = sFrom).map (·.1) := by rw [h.fr]; simp
              obtain ⟨m, hm, h1⟩ := List.mem_map.1 this
              exact h1 ▸ hz.1 m (List.mem_filter.1 hm).1
            have hb : x.eTo ≠ 0 := by
              have : x.eTo ∈ (r.ways.filter fun m => m.2 = sTo).map (·.1) := by rw [h.to]; simp
              obtain ⟨m, hm, h1⟩ := List.mem_map.1 this
              exact h1 ▸ hz.1 m (List.mem_filter.1 hm).1
            have := (endsOf_iff r.ways hz.1 0 0 x.eFrom x.eTo).2
              ⟨by rw [h.fr, oneOf_pos ha]; rfl, by rw [h.to, oneOf_pos hb]; rfl⟩
            rw [he] at this
            cases this
      | some ab =>
        obtain ⟨a, b⟩ := ab
        simp only
        obtain ⟨e1, e2⟩ := (endsOf_iff r.ways hz.1 0 0 a b).1 he
        have e1 : (r.ways.filter fun m => m.2 = sFrom).map (·.1) = oneOf a := e1
        have e2 : (r.ways.filter fun m => m.2 = sTo).map (·.1) = oneOf b := e2
        have hvia := viaOf_iff r.nodes hz.2
        have hone : ∀ y c : Nat, oneOf y = [c] ↔ y = c ∧ y ≠ 0 := by
          intro y c
          unfold oneOf
          split
          · rename_i h; simp [h]
          · rename_i h; simp [h]
        have hrule : TurnRule o r pos x.eFrom x.eTo v ↔
            (a ≠ 0 ∧ b ≠ 0 ∧ viaOf r.nodes ≠ 0) ∧ viaOf r.nodes = v ∧ a = x.eFrom ∧ b = x.eTo ∧
            (pos = true ↔ fPosRestr o r.attrs ≠ 0) := by
          constructor
          · intro h
            have h1 := h.fr
            have h2 := h.to
            rw [e1, hone] at h1
            rw [e2, hone] at h2
            obtain ⟨h3, h4⟩ := (hvia v).2 h.via
            refine ⟨⟨h1.2, h2.2, by rw [h3]; exact h4⟩, h3, h1.1, h2.1, ?_⟩
            have hkind := h.kind
            cases pos with
            | true => simpa using hpos.2 ⟨h.noEx, by simpa using hkind⟩
            | false =>
              simp only [Bool.false_eq_true, if_false] at hkind
              simp only [Bool.false_eq_true, false_iff]
              intro hc
              exact hkind.1 (hpos.1 hc).2
          · rintro ⟨⟨h1, h2, h3⟩, h4, h5, h6, h7⟩
            have hk' : ¬ Hits o.noRestr ALL r.attrs := by
              rcases Decidable.em (fPosRestr o r.attrs = 0) with h | h
              · exact (hneg.1 (fun hh => hk ⟨h, hh⟩)).1
              · exact (hpos.1 h).1
            refine ⟨ht, hk', ?_, by rw [e1, hone]; exact ⟨h5, h1⟩, by rw [e2, hone]; exact ⟨h6, h2⟩,
              (hvia v).1 ⟨h4, h4 ▸ h3⟩⟩
            cases pos with
            | true => simpa using (hpos.1 (h7.1 rfl)).2
            | false =>
              simp only [Bool.false_eq_true, if_false]
              have h0 : fPosRestr o r.attrs = 0 := by
                rcases Decidable.em (fPosRestr o r.attrs = 0) with h | h
                · exact h
                · exact absurd (h7.2 h) (by simp)
              exact ⟨fun hh => absurd h0 (hpos.2 ⟨hk', hh⟩), (hneg.1 (fun hh => hk ⟨h0, hh⟩)).2⟩
        rw [hrule]
        have hx : ∀ a b, x = ⟨a, b⟩ ↔ a = x.eFrom ∧ b = x.eTo := by
          intro a b
          cases x
          simp only [Raw.mk.injEq]
          exact ⟨fun h => ⟨h.1.symm, h.2.symm⟩, fun h => ⟨h.1.symm, h.2.symm⟩⟩
        by_cases hall : a ≠ 0 ∧ b ≠ 0 ∧ viaOf r.nodes ≠ 0
        · rw [if_pos hall]
          by_cases hpp : fPosRestr o r.attrs ≠ 0
          · rw [if_pos hpp]
            cases pos with
            | true =>
              simp only [Rests.at, if_true, get_pushRaw]
              split
              · rename_i hv
                rw [List.mem_append, List.mem_singleton, hx]
                simp [hall, hpp, hv]
              · rename_i hv
                have : ¬ viaOf r.nodes = v := fun h => hv h.symm
                simp [this]
            | false => simp [Rests.at, hpp]
          · rw [if_neg hpp]
            have hpp0 : fPosRestr o r.attrs = 0 := by simpa using hpp
            cases pos with
            | true => simp [Rests.at, hpp0]
            | false =>
              simp only [Rests.at, Bool.false_eq_true, if_false, get_pushRaw]
              split
              · rename_i hv
                rw [List.mem_append, List.mem_singleton, hx]
                simp [hall, hpp0, hv]
              · rename_i hv
                have : ¬ viaOf r.nodes = v := fun h => hv h.symm
                simp [this]
        · rw [if_neg hall]
          simp only [hall, false_and, or_false]
  · rw [if_pos ht]
    constructor
    · exact Or.inl
    · rintro (h | h)
      · exact h
      · exact absurd h.type ht

theorem readRestrs_iff {o : Opts} (ho : FlaggedOpts o) (rs : List Rel) (hz : ∀ r ∈ rs, Ids r) (s : Rests) (pos : Bool) (v : Nat)
    (x : Raw Nat) :
    x ∈ (rs.foldl (readRestr o) s).at pos v ↔ x ∈ s.at pos v ∨ ∃ r ∈ rs, TurnRule o r pos x.eFrom x.eTo v := by
  induction rs generalizing s with
  | nil => simp
  | cons r rs ih =>
    rw [List.foldl_cons, ih (fun y hy => hz y (by simp [hy])), readRestr_iff ho s r (hz r (by simp))]
    simp [or_assoc]

/-! ### calls -/

theorem mem_processRestr {raws : List (Raw Nat)} {pos : Bool} {w n : Nat} {e : E} {op : Op Nat E Nat} :
    op ∈ Restrictor.processRestr raws pos w e n ↔
      (∃ kv ∈ raws, kv.eFrom = w ∧ op = .add e kv.eTo n pos) ∨
      (∃ kv ∈ raws, kv.eFrom ≠ w ∧ kv.eTo = w ∧ op = .relax w n e) := by
  unfold Restrictor.processRestr
  rw [List.mem_flatMap]
  constructor
  · rintro ⟨kv, hkv, h⟩
    split at h
    · rename_i h1
      exact Or.inl ⟨kv, hkv, h1, by simpa using h⟩
    · rename_i h1
      split at h
      · rename_i h2
        exact Or.inr ⟨kv, hkv, h1, h2, by simpa using h⟩
      · cases h
  · rintro (⟨kv, hkv, h1, h2⟩ | ⟨kv, hkv, h1, h2, h3⟩)
    · exact ⟨kv, hkv, by rw [if_pos h1]; simp [h2]⟩
    · exact ⟨kv, hkv, by rw [if_neg h1, if_pos h2]; simp [h3]⟩

theorem add_turnOps {q : Rests} {nid wid n t g : Nat} {pos : Bool} {e fr : E} :
    Op.add fr t g pos ∈ turnOps q nid wid e n ↔ fr = e ∧ g = n ∧ ⟨wid, t⟩ ∈ q.at pos nid := by
  have key : ∀ (raws : List (Raw Nat)) (p : Bool), Op.add fr t g pos ∈ Restrictor.processRestr raws p wid e n ↔
      fr = e ∧ g = n ∧ p = pos ∧ ⟨wid, t⟩ ∈ raws := by
    intro raws p
    rw [mem_processRestr]
    constructor
    · rintro (⟨kv, hkv, h1, h2⟩ | ⟨kv, _, _, _, h⟩)
      · cases h2
        subst h1
        exact ⟨rfl, rfl, rfl, hkv⟩
      · cases h
    · rintro ⟨rfl, rfl, rfl, h⟩
      exact Or.inl ⟨_, h, rfl, rfl⟩
  unfold turnOps
  rw [List.mem_append, key, key]
  cases pos <;> simp [Rests.at]

theorem relax_turnOps {q : Rests} {nid wid n w g : Nat} {e x : E} :
    Op.relax w g x ∈ turnOps q nid wid e n ↔ x = e ∧ g = n ∧ w = wid ∧ ∃ pos, ∃ a, a ≠ wid ∧ ⟨a, wid⟩ ∈ q.at pos nid := by
  have key : ∀ (raws : List (Raw Nat)) (p : Bool), Op.relax w g x ∈ Restrictor.processRestr raws p wid e n ↔
      x = e ∧ g = n ∧ w = wid ∧ ∃ a, a ≠ wid ∧ ⟨a, wid⟩ ∈ raws := by
    intro raws p
    rw [mem_processRestr]
    constructor
    · rintro (⟨kv, _, _, h⟩ | ⟨kv, hkv, h1, h2, h3⟩)
      · cases h
      · cases h3
        subst h2
        exact ⟨rfl, rfl, rfl, kv.eFrom, h1, hkv⟩
    · rintro ⟨rfl, rfl, rfl, a, h1, h2⟩
      exact Or.inr ⟨_, h2, h1, rfl, rfl⟩
  unfold turnOps
  rw [List.mem_append, key, key]
  constructor
  · rintro (⟨h1, h2, h3, a, h4, h5⟩ | ⟨h1, h2, h3, a, h4, h5⟩)
    · exact ⟨h1, h2, h3, true, a, h4, by simpa [Rests.at] using h5⟩
    · exact ⟨h1, h2, h3, false, a, h4, by simpa [Rests.at] using h5⟩
  · rintro ⟨h1, h2, h3, pos, a, h4, h5⟩
    cases pos
    · exact Or.inr ⟨h1, h2, h3, a, h4, by simpa [Rests.at] using h5⟩
    · exact Or.inl ⟨h1, h2, h3, a, h4, by simpa [Rests.at] using h5⟩

theorem marks_iff {q : Rests} {nid wid : Nat} :
    marks q nid wid = true ↔ ∃ pos, ∃ x ∈ q.at pos nid, x.eFrom = wid ∨ x.eTo = wid := by
  unfold marks
  rw [List.any_eq_true]
  constructor
  · rintro ⟨x, hx, h⟩
    rw [List.mem_append] at hx
    simp only [Bool.or_eq_true, beq_iff_eq] at h
    rcases hx with hx | hx
    · exact ⟨true, x, by simpa [Rests.at] using hx, h⟩
    · exact ⟨false, x, by simpa [Rests.at] using hx, h⟩
  · rintro ⟨pos, x, hx, h⟩
    refine ⟨x, ?_, by simpa using h⟩
    rw [List.mem_append]
    cases pos
    · exact Or.inr (by simpa [Rests.at] using hx)
    · exact Or.inl (by simpa [Rests.at] using hx)

theorem mem_mark {b : Bool} {e x : E} {l : List E} : x ∈ mark b e l ↔ x ∈ l ∨ (b = true ∧ x = e) := by
  unfold mark
  cases b <;> simp

/-! ### the loop -/

theorem getElem?_snoc {A : Type} {l : List A} {a b : A} {i : Nat} :
    (l ++ [a])[i]? = some b ↔ l[i]? = some b ∨ (i = l.length ∧ b = a) := by
  rcases Nat.lt_trichotomy i l.length with h | h | h
  · rw [List.getElem?_append_left h]
    exact ⟨Or.inl, fun h' => h'.elim id (fun h' => by omega)⟩
  · subst h
    simp only [List.getElem?_concat_length, Option.some.injEq, true_and]
    constructor
    · intro h; exact Or.inr h.symm
    · rintro (h | h)
      · simp at h
      · exact h.symm
  · rw [List.getElem?_eq_none (by simp; omega), List.getElem?_eq_none (by omega)]
    simp
    omega

/-- The calls made so far belong to the edges; `own` as in `GInv`. -/
structure TInv (q : Rests) (mk : Nat → GEdge → E) (nohup box : Nat → Bool) (own : List Nat) (s : TSt P E) : Prop where
  g : GInv nohup box own s.g
  ends : ∀ (i : Nat) (x : GEdge), s.g.edges[i]? = some x → (∃ v, own[x.src]? = some v) ∧ ∃ v, own[x.dst]? = some v
  ops : ∀ op, op ∈ s.ops ↔ ∃ (i : Nat) (x : GEdge) (n : Nat) (v : Nat), s.g.edges[i]? = some x ∧ (x.src = n ∨ x.dst = n) ∧
    own[n]? = some v ∧ op ∈ turnOps q v x.way.id (mk i x) n
  flags : ∀ e, e ∈ s.flags ↔ ∃ (i : Nat) (x : GEdge) (n : Nat) (v : Nat), s.g.edges[i]? = some x ∧ (x.src = n ∨ x.dst = n) ∧
    own[n]? = some v ∧ e = mk i x ∧ marks q v x.way.id = true

/-- New graph nodes. -/
theorem TInv.nodes {q : Rests} {mk : Nat → GEdge → E} {nohup box : Nat → Bool} {own : List Nat} {s : TSt P E}
    (h : TInv q mk nohup box own s) (own' : List Nat) (g' : GSt P) (hg : GInv nohup box own' g')
    (hown : ∀ (g i : Nat), own[g]? = some i → own'[g]? = some i) (he : g'.edges = s.g.edges) :
    TInv q mk nohup box own' { s with g := g' } := by
  have hends : ∀ (i : Nat) (x : GEdge), s.g.edges[i]? = some x → ∀ n v, (x.src = n ∨ x.dst = n) →
      (own'[n]? = some v ↔ own[n]? = some v) := by
    intro i x hx n v hn
    have : ∃ u, own[n]? = some u := by
      obtain ⟨h1, h2⟩ := h.ends i x hx
      rcases hn with rfl | rfl
      · exact h1
      · exact h2
    obtain ⟨u, hu⟩ := this
    rw [hown _ _ hu, hu]
  refine ⟨hg, ?_, ?_, ?_⟩
  · intro i x hx
    simp only [he] at hx
    obtain ⟨⟨v, h1⟩, ⟨u, h2⟩⟩ := h.ends i x hx
    exact ⟨⟨v, hown _ _ h1⟩, ⟨u, hown _ _ h2⟩⟩
  · intro op
    simp only [he]
    rw [h.ops]
    constructor
    · rintro ⟨i, x, n, v, h1, h2, h3, h4⟩
      exact ⟨i, x, n, v, h1, h2, hown _ _ h3, h4⟩
    · rintro ⟨i, x, n, v, h1, h2, h3, h4⟩
      exact ⟨i, x, n, v, h1, h2, (hends i x h1 n v h2).1 h3, h4⟩
  · intro e
    simp only [he]
    rw [h.flags]
    constructor
    · rintro ⟨i, x, n, v, h1, h2, h3, h4⟩
      exact ⟨i, x, n, v, h1, h2, hown _ _ h3, h4⟩
    · rintro ⟨i, x, n, v, h1, h2, h3, h4⟩
      exact ⟨i, x, n, v, h1, h2, (hends i x h1 n v h2).1 h3, h4⟩

/-- A new edge. -/
theorem TInv.edge {q : Rests} {mk : Nat → GEdge → E} {nohup box : Nat → Bool} {own : List Nat} {s : TSt P E}
    (h : TInv q mk nohup box own s) (w : Way) (l lid n nid : Nat) (hl : own[l]? = some lid) (hn : own[n]? = some nid) :
    TInv q mk nohup box own
      { g := { s.g with edges := s.g.edges ++ [⟨l, n, w⟩] }
        ops := s.ops ++ turnOps q nid w.id (mk s.g.edges.length ⟨l, n, w⟩) n ++
          turnOps q lid w.id (mk s.g.edges.length ⟨l, n, w⟩) l
        flags := mark (marks q lid w.id) (mk s.g.edges.length ⟨l, n, w⟩)
          (mark (marks q nid w.id) (mk s.g.edges.length ⟨l, n, w⟩) s.flags) } := by
  refine ⟨⟨h.g.len, h.g.nd, h.g.mu, h.g.all⟩, ?_, ?_, ?_⟩
  · intro i x hx
    rcases getElem?_snoc.1 hx with hx | ⟨_, rfl⟩
    · exact h.ends i x hx
    · exact ⟨⟨_, hl⟩, ⟨_, hn⟩⟩
  · intro op
    simp only [List.mem_append, h.ops, getElem?_snoc]
    constructor
    · rintro ((⟨i, x, m, v, h1, h2, h3, h4⟩ | h') | h')
      · exact ⟨i, x, m, v, Or.inl h1, h2, h3, h4⟩
      · exact ⟨_, _, n, nid, Or.inr ⟨rfl, rfl⟩, Or.inr rfl, hn, h'⟩
      · exact ⟨_, _, l, lid, Or.inr ⟨rfl, rfl⟩, Or.inl rfl, hl, h'⟩
    · rintro ⟨i, x, m, v, h1 | ⟨rfl, rfl⟩, h2, h3, h4⟩
      · exact Or.inl (Or.inl ⟨i, x, m, v, h1, h2, h3, h4⟩)
      · rcases h2 with rfl | rfl
        · rw [hl] at h3; cases h3
          exact Or.inr h4
        · rw [hn] at h3; cases h3
          exact Or.inl (Or.inr h4)
  · intro e
    simp only [mem_mark, h.flags, getElem?_snoc]
    constructor
    · rintro ((⟨i, x, m, v, h1, h2, h3, h4⟩ | ⟨h', h''⟩) | ⟨h', h''⟩)
      · exact ⟨i, x, m, v, Or.inl h1, h2, h3, h4⟩
      · exact ⟨_, _, n, nid, Or.inr ⟨rfl, rfl⟩, Or.inr rfl, hn, h'', h'⟩
      · exact ⟨_, _, l, lid, Or.inr ⟨rfl, rfl⟩, Or.inl rfl, hl, h'', h'⟩
    · rintro ⟨i, x, m, v, h1 | ⟨rfl, rfl⟩, h2, h3, h4, h5⟩
      · exact Or.inl (Or.inl ⟨i, x, m, v, h1, h2, h3, h4, h5⟩)
      · rcases h2 with rfl | rfl
        · rw [hl] at h3; cases h3
          exact Or.inr ⟨h5, h4⟩
        · rw [hn] at h3; cases h3
          exact Or.inl (Or.inr ⟨h5, h4⟩)

theorem turnGo_spec {q : Rests} {mk : Nat → GEdge → E} {nohup box : Nat → Bool} (w : Way) (nids : List Nat) (own : List Nat)
    (s : TSt P E) (h : TInv q mk nohup box own s) (last : Option (Nat × Nat))
    (hl : ∀ g i, last = some (g, i) → own[g]? = some i) :
    (∃ own', TInv q mk nohup box own' (turnGo q mk nohup box w nids s last)) ∧
      (turnGo q mk nohup box w nids s last).g = edgesGo nohup box w nids s.g (last.map (·.1)) := by
  induction nids generalizing own s last with
  | nil => exact ⟨⟨own, h⟩, rfl⟩
  | cons nid nids ih =>
    obtain ⟨own1, h1, ⟨e1, he1⟩, h2, _, h4⟩ := ndFor_spec h.g nid
    have hown : ∀ (g i : Nat), own[g]? = some i → own1[g]? = some i := by
      intro g i hg
      rw [he1, List.getElem?_append_left (List.getElem?_eq_some_iff.1 hg).1]; exact hg
    rw [turnGo.eq_def, edgesGo.eq_def]
    cases hnd : ndFor nohup box s.g nid with
    | mk r s' =>
      rw [hnd] at h1 h2 h4
      simp only [hnd] at h1 h2 h4 ⊢
      have hI := h.nodes own1 s' h1 hown h2
      rcases h4 with ⟨_, hr⟩ | ⟨_, g, hr, hg⟩
      · subst hr
        exact ih own1 _ hI last (fun g i hh => hown _ _ (hl g i hh))
      · subst hr
        cases last with
        | none => exact ih own1 _ hI (some (g, nid)) (fun g' i hh => by cases hh; exact hg)
        | some p =>
          obtain ⟨l, lid⟩ := p
          have hE := hI.edge w l lid g nid (hown _ _ (hl l lid rfl)) hg
          exact ih own1 _ hE (some (g, nid)) (fun g' i hh => by cases hh; exact hg)

theorem turnWays_spec {q : Rests} {mk : Nat → GEdge → E} {nohup box : Nat → Bool} (ws : List Way) (own : List Nat) (s : TSt P E)
    (h : TInv q mk nohup box own s) :
    (∃ own', TInv q mk nohup box own' (ws.foldl (turnWay q mk nohup box) s)) ∧
      (ws.foldl (turnWay q mk nohup box) s).g = ws.foldl (addWay nohup box) s.g := by
  induction ws generalizing own s with
  | nil => exact ⟨⟨own, h⟩, rfl⟩
  | cons w ws ih =>
    obtain ⟨⟨own1, h1⟩, h2⟩ := turnGo_spec w w.nodes own s h none (by simp)
    obtain ⟨h3, h4⟩ := ih own1 _ h1
    refine ⟨h3, ?_⟩
    rw [List.foldl_cons, List.foldl_cons]
    exact h4.trans (congrArg (fun g => ws.foldl (addWay nohup box) g) h2)

theorem tinv_init (q : Rests) (mk : Nat → GEdge → E) (nohup box : Nat → Bool) : TInv q mk nohup box [] (TSt.init : TSt P E) :=
  ⟨ginv_init _ _, by simp [TSt.init, GSt.init], by simp [TSt.init, GSt.init], by simp [TSt.init, GSt.init]⟩

end Verif.Turns
