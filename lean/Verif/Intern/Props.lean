import Verif.Intern.Model
import Verif.Color.Props

/-!
# Line objects of relations (property C52)
-/

namespace Verif.Intern
open Verif.Names (Str)

variable {K : Type} [DecidableEq K]

/-! ### specification -/

/-- The (decoded, normalised) value of the first key in the list that has a value which is not empty. -/
inductive FirstName (norm : Str → Str) (attrs : List (K × Str)) : List K → Str → Prop where
  | none : FirstName norm attrs [] []
  | here (k : K) (ks : List K) (v : Str) : (k, v) ∈ attrs → norm v ≠ [] → FirstName norm attrs (k :: ks) (norm v)
  | next (k : K) (ks : List K) (s : Str) : (∀ v, (k, v) ∈ attrs → norm v = []) → FirstName norm attrs ks s →
      FirstName norm attrs (k :: ks) s

/-- The colour of the first key in the list that has a value which is one. -/
inductive FirstColor (noColor : Nat) (decode : Str → Str) (attrs : List (K × Str)) : List K → Nat → Prop where
  | none : FirstColor noColor decode attrs [] noColor
  | here (k : K) (ks : List K) (v : Str) : (k, v) ∈ attrs → Color.attrColor noColor (decode v) ≠ noColor →
      FirstColor noColor decode attrs (k :: ks) (Color.attrColor noColor (decode v))
  | next (k : K) (ks : List K) (c : Nat) : (∀ v, (k, v) ∈ attrs → Color.attrColor noColor (decode v) = noColor) →
      FirstColor noColor decode attrs ks c → FirstColor noColor decode attrs (k :: ks) c

/-- The names (short name, from, to) and the colour of a relation. -/
structure Describes (noColor : Nat) (o : Opts K) (attrs : List (K × Str)) (names : Str × Str × Str) (color : Nat) : Prop where
  short : FirstName (fun v => o.lineNorm (o.decode v)) attrs o.sNameRule names.1
  from_ : FirstName (fun v => o.statNorm (o.decode v)) attrs o.fromNameRule names.2.1
  to_ : FirstName (fun v => o.statNorm (o.decode v)) attrs o.toNameRule names.2.2
  color : FirstColor noColor o.decode attrs o.colorRule color

def namesOf (l : Line) : Str × Str × Str := (l.shortName, l.fromStr, l.toStr)

/-! ### names -/

theorem foldl_absent {σ : Type} {f : σ → Str → σ} {r : K} : ∀ (attrs : List (K × Str)) (s : σ),
    (∀ v, (r, v) ∉ attrs) → attrs.foldl (fun s a => if a.1 = r then f s a.2 else s) s = s := by
  intro attrs
  induction attrs with
  | nil => intro s _; rfl
  | cons a attrs ih =>
    intro s h
    rw [List.foldl_cons, if_neg]
    · exact ih s (fun v hv => h v (List.mem_cons_of_mem _ hv))
    · intro e; exact h a.2 (by rw [← e]; exact List.mem_cons_self)

theorem foldl_present {σ : Type} {f : σ → Str → σ} {r : K} {v : Str} : ∀ (attrs : List (K × Str)) (s : σ),
    (attrs.map (·.1)).Nodup → (r, v) ∈ attrs → attrs.foldl (fun s a => if a.1 = r then f s a.2 else s) s = f s v := by
  intro attrs
  induction attrs with
  | nil => intro s _ h; cases h
  | cons a attrs ih =>
    intro s hn h
    rw [List.map_cons, List.nodup_cons] at hn
    rw [List.foldl_cons]
    rcases List.mem_cons.mp h with h | h
    · rw [← h, if_pos rfl]
      apply foldl_absent
      intro w hw
      apply hn.1
      rw [← h]
      exact List.mem_map.mpr ⟨_, hw, rfl⟩
    · rw [if_neg]
      · exact ih s hn.2 h
      · intro e
        apply hn.1
        rw [e]
        exact List.mem_map.mpr ⟨_, h, rfl⟩

theorem mem_key {attrs : List (K × Str)} (r : K) : (∃ v, (r, v) ∈ attrs) ∨ ∀ v, (r, v) ∉ attrs := by
  by_cases h : ∃ v, (r, v) ∈ attrs
  · exact .inl h
  · exact .inr (fun v hv => h ⟨v, hv⟩)

theorem key_unique {attrs : List (K × Str)} (hn : (attrs.map (·.1)).Nodup) {k : K} {v w : Str} (hv : (k, v) ∈ attrs)
    (hw : (k, w) ∈ attrs) : v = w := by
  have h1 := foldl_present (f := fun _ x => x) attrs [] hn hv
  have h2 := foldl_present (f := fun _ x => x) attrs [] hn hw
  exact h1.symm.trans h2

theorem nameOf_spec {norm : Str → Str} {attrs : List (K × Str)} (hn : (attrs.map (·.1)).Nodup) :
    ∀ (rs : List K), FirstName norm attrs rs (nameOf norm attrs rs (false, [])) := by
  intro rs
  induction rs with
  | nil => exact .none
  | cons r rs ih =>
    rcases mem_key (attrs := attrs) r with ⟨v, hv⟩ | h
    · have e : nameRule norm r attrs (false, []) = (false || !(norm v).isEmpty, norm v) :=
        foldl_present (f := fun s x => (s.1 || !(norm x).isEmpty, norm x)) attrs (false, []) hn hv
      simp only [nameOf, e]
      by_cases he : norm v = []
      · simp only [he, List.isEmpty_nil, Bool.not_true, Bool.or_false, Bool.false_eq_true, if_false]
        refine .next r rs _ ?_ ih
        intro w hw; rw [← key_unique hn hv hw]; exact he
      · have : (norm v).isEmpty = false := by simpa using he
        simp only [this, Bool.not_false, Bool.or_true, if_true]
        exact .here r rs v hv he
    · have e : nameRule norm r attrs (false, []) = (false, []) :=
        foldl_absent (f := fun s x => (s.1 || !(norm x).isEmpty, norm x)) attrs (false, []) h
      simp only [nameOf, e, Bool.false_eq_true, if_false]
      exact .next r rs _ (fun v hv => absurd hv (h v)) ih

theorem lineColor_spec {noColor : Nat} {decode : Str → Str} {attrs : List (K × Str)} (hn : (attrs.map (·.1)).Nodup) :
    ∀ (rs : List K), FirstColor noColor decode attrs rs
      (Color.lineColor noColor (attrs.map fun a => (a.1, decode a.2)) rs (false, noColor)) := by
  intro rs
  induction rs with
  | nil => exact .none
  | cons r rs ih =>
    have e : Color.ruleColor noColor r (attrs.map fun a => (a.1, decode a.2)) (false, noColor) =
        attrs.foldl (fun s a => if a.1 = r then (fun (s : Bool × Nat) x =>
          if Color.attrColor noColor (decode x) ≠ noColor then (true, Color.attrColor noColor (decode x)) else s) s a.2 else s) (false, noColor) := by
      unfold Color.ruleColor
      rw [List.foldl_map]
    rcases mem_key (attrs := attrs) r with ⟨v, hv⟩ | h
    · rw [foldl_present (f := fun (s : Bool × Nat) x =>
          if Color.attrColor noColor (decode x) ≠ noColor then (true, Color.attrColor noColor (decode x)) else s) attrs _ hn hv] at e
      simp only [Color.lineColor, e]
      by_cases he : Color.attrColor noColor (decode v) = noColor
      · simp only [he, ne_eq, not_true_eq_false, if_false, Bool.false_eq_true]
        refine .next r rs _ ?_ ih
        intro w hw; rw [← key_unique hn hv hw]; exact he
      · simp only [ne_eq, he, not_false_eq_true, if_true]
        exact .here r rs v hv he
    · rw [foldl_absent (f := fun (s : Bool × Nat) x =>
          if Color.attrColor noColor (decode x) ≠ noColor then (true, Color.attrColor noColor (decode x)) else s) attrs _ h] at e
      simp only [Color.lineColor, e, Bool.false_eq_true, if_false]
      exact .next r rs _ (fun v hv => absurd hv (h v)) ih

/-- The line of a relation is described by its attributes. -/
theorem lineOf_spec (noColor : Nat) (o : Opts K) {attrs : List (K × Str)} (hn : (attrs.map (·.1)).Nodup) :
    Describes noColor o attrs (namesOf (lineOf noColor o attrs)) (lineOf noColor o attrs).color :=
  ⟨nameOf_spec hn _, nameOf_spec hn _, nameOf_spec hn _, lineColor_spec hn _⟩

/-! ### comparison -/

theorem strLt_irrefl : ∀ s, strLt s s = false := by
  intro s
  induction s with
  | nil => rfl
  | cons a s ih => simp [strLt, ih]

theorem strLt_total : ∀ s t, strLt s t = false → strLt t s = false → s = t := by
  intro s
  induction s with
  | nil => intro t h h'; cases t with
    | nil => rfl
    | cons => simp [strLt] at h
  | cons a s ih =>
    intro t h h'
    cases t with
    | nil => simp [strLt] at h'
    | cons b t =>
      simp only [strLt, Bool.or_eq_false_iff, decide_eq_false_iff_not, Bool.and_eq_false_iff] at h h'
      have e : a = b := by omega
      subst e
      rw [ih t (by simpa using h.2) (by simpa using h'.2)]

/-- Lines are the same key of the map iff their names are equal. -/
theorem lineLt_equiv (a b : Line) : (!lineLt a b && !lineLt b a) = true ↔ namesOf a = namesOf b := by
  constructor
  · intro h
    simp only [Bool.and_eq_true, Bool.not_eq_true'] at h
    simp only [lineLt, Bool.or_eq_false_iff, Bool.and_eq_false_iff] at h
    obtain ⟨⟨⟨a1, a2⟩, a3⟩, ⟨⟨b1, b2⟩, b3⟩⟩ := h
    have e1 := strLt_total _ _ a1 b1
    rw [e1] at a2 a3 b2 b3
    have e2 := strLt_total _ _ (by simpa using a2) (by simpa using b2)
    rw [e2] at a3 b3
    have e3 := strLt_total _ _ (by simpa using a3) (by simpa using b3)
    simp [namesOf, e1, e2, e3]
  · intro h
    simp only [namesOf, Prod.mk.injEq] at h
    obtain ⟨h1, h2, h3⟩ := h
    simp [lineLt, h1, h2, h3, strLt_irrefl]

theorem strLt_trans : ∀ s t u, strLt s t = true → strLt t u = true → strLt s u = true := by
  intro s
  induction s with
  | nil =>
    intro t u h h'
    cases u with
    | nil => cases t <;> simp [strLt] at h'
    | cons => rfl
  | cons a s ih =>
    intro t u h h'
    cases t with
    | nil => simp [strLt] at h
    | cons b t =>
      cases u with
      | nil => simp [strLt] at h'
      | cons c u =>
        simp only [strLt, Bool.or_eq_true, decide_eq_true_eq, Bool.and_eq_true, beq_iff_eq] at *
        rcases h with h | ⟨rfl, h⟩ <;> rcases h' with h' | ⟨rfl, h'⟩
        · exact .inl (Nat.lt_trans h h')
        · exact .inl h
        · exact .inl h'
        · exact .inr ⟨rfl, ih t u h h'⟩

/-- The comparison of lines is a strict order as `std::map` needs it: irreflexive, transitive, and two lines are
incomparable iff their names are equal (so that looking up a key may be modelled by a search). -/
theorem C52_order : (∀ a, lineLt a a = false) ∧ (∀ a b c, lineLt a b = true → lineLt b c = true → lineLt a c = true) ∧
    ∀ a b, (lineLt a b = false ∧ lineLt b a = false) ↔ namesOf a = namesOf b := by
  refine ⟨fun a => by simp [lineLt, strLt_irrefl], ?_, fun a b => by rw [← lineLt_equiv]; simp⟩
  intro a b c h h'
  simp only [lineLt, Bool.or_eq_true, Bool.and_eq_true, beq_iff_eq] at *
  rcases h with (h | ⟨e, h⟩) | ⟨⟨e, f⟩, h⟩ <;> rcases h' with (h' | ⟨e', h'⟩) | ⟨⟨e', f'⟩, h'⟩
  · exact .inl (.inl (strLt_trans _ _ _ h h'))
  · exact .inl (.inl (e' ▸ h))
  · exact .inl (.inl (e' ▸ h))
  · exact .inl (.inl (e ▸ h'))
  · exact .inl (.inr ⟨e.trans e', strLt_trans _ _ _ h h'⟩)
  · exact .inl (.inr ⟨e.trans e', f' ▸ h⟩)
  · exact .inl (.inl (e ▸ h'))
  · exact .inl (.inr ⟨e.trans e', f ▸ h'⟩)
  · exact .inr ⟨⟨e.trans e', f.trans f'⟩, strLt_trans _ _ _ h h'⟩

/-! ### histories -/

/-- A relation has a line if one of its names is not empty. -/
def Named (n : Str × Str × Str) : Prop := n.1 ≠ [] ∨ n.2.1 ≠ [] ∨ n.2.2 ≠ []

instance (n : Str × Str × Str) : Decidable (Named n) := inferInstanceAs (Decidable (_ ∨ _ ∨ _))

variable {noColor : Nat} {o : Opts K} {rels : List (List (K × Str))}

/-- Names of a relation, by index. -/
def relNames (noColor : Nat) (o : Opts K) (rels : List (List (K × Str))) (i : Nat) : Str × Str × Str :=
  namesOf (lineOf noColor o (rels[i]?.getD []))

def relColor (noColor : Nat) (o : Opts K) (rels : List (List (K × Str))) (i : Nat) : Nat :=
  (lineOf noColor o (rels[i]?.getD [])).color

/-- Invariant; `seen`: relations looked up so far. -/
structure Ok (noColor : Nat) (o : Opts K) (rels : List (List (K × Str))) (seen : List Nat) (st : St) : Prop where
  nodup : (st.heap.map namesOf).Nodup
  lines : ∀ el p, (el, p) ∈ st.lines → ∃ l, st.heap[p]? = some l ∧ namesOf l = namesOf el
  all : ∀ (p : Nat) l, st.heap[p]? = some l → ∃ el, (el, p) ∈ st.lines ∧ namesOf l = namesOf el
  rel : ∀ i p, (i, p) ∈ st.relLines → ∃ l, st.heap[p]? = some l ∧ namesOf l = relNames noColor o rels i ∧ Named (namesOf l)
  first : ∀ (p : Nat) l, st.heap[p]? = some l → Named (namesOf l) ∧ ∃ a i b, seen = a ++ i :: b ∧
    relNames noColor o rels i = namesOf l ∧ relColor noColor o rels i = l.color ∧
    ∀ j ∈ a, relNames noColor o rels j ≠ namesOf l
  known : ∀ i ∈ seen, Named (relNames noColor o rels i) → ∃ (p : Nat) (l : Line), st.heap[p]? = some l ∧ namesOf l = relNames noColor o rels i

theorem lt_of_getElem? {α : Type} {l : List α} {i : Nat} {a : α} (h : l[i]? = some a) : i < l.length :=
  (List.getElem?_eq_some_iff.mp h).1

theorem mem_of_lookup {l : List (Nat × Nat)} {k v : Nat} (h : l.lookup k = some v) : (k, v) ∈ l := by
  induction l with
  | nil => cases h
  | cons p l ih =>
    rw [List.lookup_cons] at h
    split at h
    · rename_i e
      cases h
      rw [beq_iff_eq] at e
      rw [e]; exact List.mem_cons_self
    · exact List.mem_cons_of_mem _ (ih h)

/-- Pointers and what they stand for. -/
def Points (heap : List Line) (ps : List Nat) (ns : List (Str × Str × Str)) : Prop :=
  ps.map (fun p => heap[p]?.map namesOf) = ns.map some

theorem Points.mono {heap heap' : List Line} {ps : List Nat} {ns : List (Str × Str × Str)} (h : Points heap ps ns) (hp : heap <+: heap') :
    Points heap' ps ns := by
  unfold Points at *
  rw [← h]
  apply List.map_congr_left
  intro p hpm
  have : (fun p => heap[p]?.map namesOf) p ∈ ns.map some := by rw [← h]; exact List.mem_map.mpr ⟨p, hpm, rfl⟩
  obtain ⟨n, _, hn⟩ := List.mem_map.mp this
  obtain ⟨t, rfl⟩ := hp
  cases he : heap[p]? with
  | none => simp only [he] at hn; cases hn
  | some l => rw [List.getElem?_append_left (lt_of_getElem? he), he]

theorem Points.snoc {heap : List Line} {ps : List Nat} {ns : List (Str × Str × Str)} (h : Points heap ps ns) {p : Nat} {l : Line}
    (hp : heap[p]? = some l) {n : Str × Str × Str} (hn : namesOf l = n) : Points heap (ps ++ [p]) (ns ++ [n]) := by
  unfold Points at *
  rw [List.map_append, List.map_append, h]
  simp [hp, hn]

theorem getLines_spec : ∀ (ids ret seen : List Nat) (st : St) (ns : List (Str × Str × Str)),
    (∀ i ∈ ids, i < rels.length) → Ok noColor o rels seen st → Points st.heap ret ns →
    ∃ ret' st', getLines noColor o rels ids ret st = some (ret', st') ∧ Ok noColor o rels (seen ++ ids) st' ∧
      st.heap <+: st'.heap ∧
      Points st'.heap ret' (ns ++ (ids.map (relNames noColor o rels)).filter (fun n => Named n)) := by
  intro ids
  induction ids with
  | nil =>
    intro ret seen st ns _ hok hp
    exact ⟨ret, st, rfl, by rwa [List.append_nil], List.prefix_refl _, by simpa using hp⟩
  | cons i ids ih =>
    intro ret seen st ns hlt hok hp
    have hlt' : ∀ i ∈ ids, i < rels.length := fun j hj => hlt j (List.mem_cons_of_mem _ hj)
    have hseen : seen ++ i :: ids = (seen ++ [i]) ++ ids := by simp
    -- the state stays the same or grows, and the relation is known afterwards
    have step : ∀ (st1 : St) (p : Nat) (l : Line), Ok noColor o rels (seen ++ [i]) st1 → st.heap <+: st1.heap →
        st1.heap[p]? = some l → namesOf l = relNames noColor o rels i → Named (namesOf l) →
        ∃ ret' st', getLines noColor o rels ids (ret ++ [p]) st1 = some (ret', st') ∧ Ok noColor o rels (seen ++ i :: ids) st' ∧
          st.heap <+: st'.heap ∧
          Points st'.heap ret' (ns ++ ((i :: ids).map (relNames noColor o rels)).filter (fun n => Named n)) := by
      intro st1 p l hok1 hpre hl hnm hnamed
      obtain ⟨ret', st', e, a1, a2, a3⟩ := ih (ret ++ [p]) (seen ++ [i]) st1 (ns ++ [relNames noColor o rels i]) hlt' hok1
        ((hp.mono hpre).snoc hl hnm)
      refine ⟨ret', st', e, by rw [hseen]; exact a1, hpre.trans a2, ?_⟩
      rw [hnm] at hnamed
      rw [List.map_cons, List.filter_cons, if_pos (by simpa using hnamed)]
      rw [List.append_assoc] at a3
      exact a3
    rw [getLines]
    cases hlook : st.relLines.lookup i with
    | some p =>
      obtain ⟨l, h1, h2, h3⟩ := hok.rel i p (mem_of_lookup hlook)
      have hok1 : Ok noColor o rels (seen ++ [i]) st := by
        refine ⟨hok.nodup, hok.lines, hok.all, hok.rel, ?_, ?_⟩
        · intro q l' hq
          obtain ⟨hnm, a, j, b, e, c1, c2, c3⟩ := hok.first q l' hq
          exact ⟨hnm, a, j, b ++ [i], by rw [e]; simp, c1, c2, c3⟩
        · intro j hj hnm
          rcases List.mem_append.mp hj with hj | hj
          · exact hok.known j hj hnm
          · rw [List.mem_singleton] at hj; subst hj; exact ⟨p, l, h1, h2⟩
      exact step st p l hok1 (List.prefix_refl _) h1 h2 h3
    | none =>
      obtain ⟨attrs, hattrs⟩ : ∃ attrs, rels[i]? = some attrs := ⟨_, List.getElem?_eq_getElem (hlt i List.mem_cons_self)⟩
      have hrn : relNames noColor o rels i = namesOf (lineOf noColor o attrs) := by simp [relNames, hattrs]
      have hrc : relColor noColor o rels i = (lineOf noColor o attrs).color := by simp [relColor, hattrs]
      simp only [hattrs]
      generalize hel : lineOf noColor o attrs = el at *
      by_cases hemp : (el.shortName.isEmpty && el.fromStr.isEmpty && el.toStr.isEmpty) = true
      · rw [if_pos hemp]
        have hnn : ¬ Named (relNames noColor o rels i) := by
          rw [hrn]
          simp only [Bool.and_eq_true, List.isEmpty_iff] at hemp
          rintro (h | h | h)
          · exact h hemp.1.1
          · exact h hemp.1.2
          · exact h hemp.2
        have hok1 : Ok noColor o rels (seen ++ [i]) st := by
          refine ⟨hok.nodup, hok.lines, hok.all, hok.rel, ?_, ?_⟩
          · intro q l' hq
            obtain ⟨hnm, a, j, b, e, c1, c2, c3⟩ := hok.first q l' hq
            exact ⟨hnm, a, j, b ++ [i], by rw [e]; simp, c1, c2, c3⟩
          · intro j hj hnm
            rcases List.mem_append.mp hj with hj | hj
            · exact hok.known j hj hnm
            · rw [List.mem_singleton] at hj; subst hj; exact absurd hnm hnn
        obtain ⟨ret', st', e, a1, a2, a3⟩ := ih ret (seen ++ [i]) st ns hlt' hok1 hp
        refine ⟨ret', st', e, by rw [hseen]; exact a1, a2, ?_⟩
        rw [List.map_cons, List.filter_cons, if_neg (by simpa using hnn)]
        exact a3
      · rw [if_neg hemp]
        have hnamed : Named (namesOf el) := by
          apply Classical.byContradiction
          intro h
          apply hemp
          simp only [Named, namesOf, not_or, Classical.not_not] at h
          simp [h.1, h.2.1, h.2.2]
        have hfind : ∀ p, findLine st.lines el = some p → ∃ l, st.heap[p]? = some l ∧ namesOf l = namesOf el := by
          intro p hf
          unfold findLine at hf
          rw [Option.map_eq_some_iff] at hf
          obtain ⟨⟨el', p'⟩, h1, h2⟩ := hf
          simp only at h2
          subst h2
          obtain ⟨l, h3, h4⟩ := hok.lines el' p' (List.mem_of_find?_eq_some h1)
          have := List.find?_some h1
          exact ⟨l, h3, h4.trans ((lineLt_equiv _ _).mp this)⟩
        cases hfl : findLine st.lines el with
        | some p =>
          obtain ⟨l, h1, h2⟩ := hfind p hfl
          refine step _ p l ?_ (List.prefix_refl _) h1 (h2.trans hrn.symm) (h2 ▸ hnamed)
          refine ⟨hok.nodup, hok.lines, hok.all, ?_, ?_, ?_⟩
          · intro j q hj
            rcases List.mem_cons.mp hj with hj | hj
            · cases hj; exact ⟨l, h1, h2.trans hrn.symm, h2 ▸ hnamed⟩
            · exact hok.rel j q hj
          · intro q l' hq
            obtain ⟨hnm, a, j, b, e, c1, c2, c3⟩ := hok.first q l' hq
            exact ⟨hnm, a, j, b ++ [i], by rw [e]; simp, c1, c2, c3⟩
          · intro j hj hnm
            rcases List.mem_append.mp hj with hj | hj
            · exact hok.known j hj hnm
            · rw [List.mem_singleton] at hj; subst hj; exact ⟨p, l, h1, h2.trans hrn.symm⟩
        | none =>
          have hnone : ∀ (q : Nat) l, st.heap[q]? = some l → namesOf l ≠ namesOf el := by
            intro q l hq he
            obtain ⟨el', h1, h2⟩ := hok.all q l hq
            unfold findLine at hfl
            rw [Option.map_eq_none_iff, List.find?_eq_none] at hfl
            exact hfl _ h1 ((lineLt_equiv _ _).mpr (h2.symm.trans he))
          have hnew : (st.heap ++ [el])[st.heap.length]? = some el := by simp
          have hget : ∀ (q : Nat) l, (st.heap ++ [el])[q]? = some l → st.heap[q]? = some l ∨ q = st.heap.length ∧ l = el := by
            intro q l hq
            by_cases hlt : q < st.heap.length
            · rw [List.getElem?_append_left hlt] at hq; exact .inl hq
            · have := lt_of_getElem? hq
              simp at this
              have e : q = st.heap.length := by omega
              subst e
              rw [hnew] at hq
              cases hq
              exact .inr ⟨rfl, rfl⟩
          refine step _ st.heap.length el ?_ (List.prefix_append _ _) hnew hrn.symm hnamed
          refine ⟨?_, ?_, ?_, ?_, ?_, ?_⟩
          · simp only [List.map_append, List.map_cons, List.map_nil]
            rw [List.nodup_append]
            refine ⟨hok.nodup, by simp, ?_⟩
            intro a ha b hb e
            rw [List.mem_singleton] at hb
            obtain ⟨l, hl, rfl⟩ := List.mem_map.mp ha
            obtain ⟨q, hq⟩ := List.getElem?_of_mem hl
            exact hnone q l hq (e.trans hb)
          · intro el' q hq
            rcases List.mem_cons.mp hq with hq | hq
            · cases hq; exact ⟨_, hnew, rfl⟩
            · obtain ⟨l, h1, h2⟩ := hok.lines el' q hq
              exact ⟨l, by simp only; rw [List.getElem?_append_left (lt_of_getElem? h1)]; exact h1, h2⟩
          · intro q l hq
            rcases hget q l hq with hq | ⟨rfl, rfl⟩
            · obtain ⟨el', h1, h2⟩ := hok.all q l hq
              exact ⟨el', List.mem_cons_of_mem _ h1, h2⟩
            · exact ⟨l, List.mem_cons_self, rfl⟩
          · intro j q hj
            rcases List.mem_cons.mp hj with hj | hj
            · cases hj; exact ⟨el, hnew, hrn.symm, hnamed⟩
            · obtain ⟨l, h1, h2, h3⟩ := hok.rel j q hj
              exact ⟨l, by simp only; rw [List.getElem?_append_left (lt_of_getElem? h1)]; exact h1, h2, h3⟩
          · intro q l hq
            rcases hget q l hq with hq | ⟨rfl, rfl⟩
            · obtain ⟨hnm, a, j, b, e, c1, c2, c3⟩ := hok.first q l hq
              exact ⟨hnm, a, j, b ++ [i], by rw [e]; simp, c1, c2, c3⟩
            · refine ⟨hnamed, seen, i, [], rfl, hrn, hrc, ?_⟩
              intro j hj he
              obtain ⟨q, l', h1, h2⟩ := hok.known j hj (he ▸ hnamed)
              exact hnone q l' h1 (h2.trans he)
          · intro j hj hnm
            rcases List.mem_append.mp hj with hj | hj
            · obtain ⟨q, l, h1, h2⟩ := hok.known j hj hnm
              exact ⟨q, l, by simp only; rw [List.getElem?_append_left (lt_of_getElem? h1)]; exact h1, h2⟩
            · rw [List.mem_singleton] at hj; subst hj; exact ⟨_, el, hnew, hrn.symm⟩

theorem run_spec : ∀ (calls rets : List (List Nat)) (seen : List Nat) (st : St)
    (nss : List (List (Str × Str × Str))), (∀ ids ∈ calls, ∀ i ∈ ids, i < rels.length) → Ok noColor o rels seen st →
    rets.map (fun ps => ps.map (fun p => st.heap[p]?.map namesOf)) = nss.map (·.map some) →
    ∃ rets' st', run noColor o rels calls rets st = some (rets', st') ∧ Ok noColor o rels (seen ++ calls.flatten) st' ∧
      rets'.map (fun ps => ps.map (fun p => st'.heap[p]?.map namesOf)) =
        (nss ++ calls.map fun ids => (ids.map (relNames noColor o rels)).filter (fun n => Named n)).map (·.map some) := by
  intro calls
  induction calls with
  | nil =>
    intro rets seen st nss _ hok h
    exact ⟨rets, st, rfl, by simpa using hok, by simpa using h⟩
  | cons ids calls ih =>
    intro rets seen st nss hlt hok h
    obtain ⟨ret, st1, e, a1, a2, a3⟩ := getLines_spec ids [] seen st [] (hlt ids List.mem_cons_self) hok rfl
    have h1 : (rets ++ [ret]).map (fun ps => ps.map (fun p => st1.heap[p]?.map namesOf)) =
        (nss ++ [(ids.map (relNames noColor o rels)).filter (fun n => Named n)]).map (·.map some) := by
      rw [List.map_append, List.map_append]
      congr 1
      · rw [← h]
        apply List.map_congr_left
        intro ps hps
        have : (fun ps => ps.map (fun p => st.heap[p]?.map namesOf)) ps ∈ nss.map (·.map some) := by
          rw [← h]; exact List.mem_map.mpr ⟨ps, hps, rfl⟩
        obtain ⟨ns, _, hns⟩ := List.mem_map.mp this
        have hP : Points st.heap ps ns := hns.symm
        exact (hP.mono a2).trans hns
      · simp only [List.map_cons, List.map_nil]
        unfold Points at a3
        rw [a3]
        simp
    obtain ⟨rets', st', e', b1, b2⟩ := ih (rets ++ [ret]) (seen ++ ids) st1 _ (fun ids hi => hlt ids (List.mem_cons_of_mem _ hi)) a1 h1
    refine ⟨rets', st', by rw [run, e]; exact e', by simpa using b1, ?_⟩
    rw [b2]
    simp

/-- C52. For any sequence of lookups (one list of relations per way): what is returned for a way are the objects of
those of its relations that have a name, in order; each object has the names of the relation; different
objects have different names; and the colour of an object is that of the relation with these names that was
looked up first. `names i` and `color i` are those described by the attributes of relation `i`. -/
theorem C52_interned (noColor : Nat) (o : Opts K) (rels : List (List (K × Str))) (calls : List (List Nat))
    (hkeys : ∀ r ∈ rels, (r.map (·.1)).Nodup) (hvalid : ∀ ids ∈ calls, ∀ i ∈ ids, i < rels.length) :
    ∃ (rets : List (List Nat)) (st : St) (names : Nat → Str × Str × Str) (color : Nat → Nat),
      run noColor o rels calls [] ⟨[], [], []⟩ = some (rets, st) ∧
      (∀ (i : Nat) attrs, rels[i]? = some attrs → Describes noColor o attrs (names i) (color i)) ∧
      rets.map (·.map fun p => st.heap[p]?.map namesOf) =
        calls.map (fun ids => ((ids.map names).filter (fun n => Named n)).map some) ∧
      (∀ (p q : Nat) (k l : Line), st.heap[p]? = some k → st.heap[q]? = some l → namesOf k = namesOf l → p = q) ∧
      (∀ (p : Nat) l, st.heap[p]? = some l → ∃ a i b, calls.flatten = a ++ i :: b ∧ names i = namesOf l ∧
        color i = l.color ∧ ∀ j ∈ a, names j ≠ namesOf l) := by
  have hok0 : Ok noColor o rels [] ⟨[], [], []⟩ :=
    ⟨List.nodup_nil, (fun _ _ h => by cases h), (fun _ _ h => by simp at h), (fun _ _ h => by cases h),
      (fun _ _ h => by simp at h), (fun _ h => by cases h)⟩
  obtain ⟨rets, st, e, hok, h⟩ := run_spec calls [] [] ⟨[], [], []⟩ [] hvalid hok0 rfl
  refine ⟨rets, st, relNames noColor o rels, relColor noColor o rels, e, ?_, ?_, ?_, ?_⟩
  · intro i attrs hi
    simp only [relNames, relColor, hi, Option.getD_some]
    exact lineOf_spec noColor o (hkeys attrs (List.mem_of_getElem? hi))
  · rw [h]; simp
  · intro p q k l hp hq he
    have h1 : (st.heap.map namesOf)[p]? = some (namesOf l) := by rw [List.getElem?_map, hp, Option.map_some, he]
    have h2 : (st.heap.map namesOf)[q]? = some (namesOf l) := by rw [List.getElem?_map, hq]; rfl
    exact (List.getElem?_inj (by simpa using lt_of_getElem? hp) hok.nodup).mp (h1.trans h2.symm)
  · intro p l hp
    obtain ⟨_, a, i, b, e, c1, c2, c3⟩ := hok.first p l hp
    exact ⟨a, i, b, by simpa using e, c1, c2, c3⟩

/-! ### example -/

def exOpts : Opts Nat := ⟨[0, 1], [2], [3], [4], id, id, id⟩

/-- Relations 0 and 2 have the same names but different colours, relation 1 differs in its destination,
relation 3 has no names. -/
def exRels : List (List (Nat × Str)) :=
  [[(1, [53]), (2, [65]), (3, [66]), (4, Color.bytes "#ff0000")], [(0, [53]), (2, [65]), (3, [67])],
   [(3, [66]), (0, [53]), (2, [65]), (4, Color.bytes "#00ff00")], [(4, [])]]

example : (run 16777216 exOpts exRels [[1, 2], [3], [0, 1, 0]] [] ⟨[], [], []⟩).map (fun r => (r.1, r.2.heap)) =
    some ([[0, 1], [], [1, 0, 1]], [⟨[65], [67], [53], 16777216⟩, ⟨[65], [66], [53], 0xff00⟩]) := by
  decide +kernel

/-- Limit: the colour depends on the order of the ways. -/
theorem C52_limit_color : (run 16777216 exOpts exRels [[0], [2]] [] ⟨[], [], []⟩).map (fun r => r.2.heap.map (·.color)) =
      some [0xff0000] ∧
    (run 16777216 exOpts exRels [[2], [0]] [] ⟨[], [], []⟩).map (fun r => r.2.heap.map (·.color)) = some [0xff00] := by
  decide +kernel

end Verif.Intern
