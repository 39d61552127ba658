import Verif.Line.ColSpec
import Verif.Line.Props

/-!
# Colour of a shape (lemmas)
-/

set_option linter.unusedSectionVars false

namespace Verif.Line
open Verif.Router (Hop HopEnd)
variable {E Pt : Type} [DecidableEq E]

theorem lenGo_eq (geo : Geo Pt) : ∀ l, lenGo geo l = lineLen geo.dist l := by
  intro l
  induction l with
  | nil => simp [lenGo, lineLen]
  | cons a l ih =>
    cases l with
    | nil => simp [lenGo, lineLen]
    | cons b l =>
      rw [lenGo, ih]
      simp [lineLen]

theorem length_eq {geo : Geo Pt} {g : Edges E Pt} {e : E} (h : g.geom e ≠ none) :
    length geo g e = some (edgeLen geo g e) := by
  obtain ⟨l, hl⟩ := Option.ne_none_iff_exists'.mp h
  simp [length, hl, edgeLen, lenGo_eq]

/-! ### the map of colours -/

/-- The value of a colour. -/
def Cols.val (m : Cols) (c : Nat) : Rat := (m.map fun p => if p.1 = c then p.2 else 0).sum

def Cols.Sorted (m : Cols) : Prop := m.Pairwise fun p q => p.1 < q.1

theorem val_cons (p : Nat × Rat) (m : Cols) (c : Nat) :
    Cols.val (p :: m) c = (if p.1 = c then p.2 else 0) + Cols.val m c := by
  simp [Cols.val]

theorem val_add (x : Rat) (c c' : Nat) : ∀ m : Cols, (m.add c x).val c' = m.val c' + if c = c' then x else 0 := by
  intro m
  induction m with
  | nil => simp [Cols.add, Cols.val]; grind
  | cons p m ih =>
    unfold Cols.add
    split
    · simp only [val_cons]; grind
    · split
      · rename_i h
        subst h
        simp only [val_cons]; grind
      · simp only [val_cons, ih]; grind

theorem mem_add {m : Cols} {c : Nat} {x : Rat} {q : Nat × Rat} (h : q ∈ m.add c x) : q.1 = c ∨ ∃ y, (q.1, y) ∈ m := by
  induction m with
  | nil => simp [Cols.add] at h; rw [h]; exact .inl rfl
  | cons p m ih =>
    unfold Cols.add at h
    split at h
    · rcases List.mem_cons.mp h with rfl | h
      · exact .inl rfl
      · exact .inr ⟨q.2, h⟩
    · split at h
      · rcases List.mem_cons.mp h with rfl | h
        · exact .inr ⟨p.2, List.mem_cons_self⟩
        · exact .inr ⟨q.2, List.mem_cons_of_mem _ h⟩
      · rcases List.mem_cons.mp h with rfl | h
        · exact .inr ⟨q.2, List.mem_cons_self⟩
        · rcases ih h with h | ⟨y, h⟩
          · exact .inl h
          · exact .inr ⟨y, List.mem_cons_of_mem _ h⟩

theorem sorted_add {m : Cols} (h : m.Sorted) (c : Nat) (x : Rat) : (m.add c x).Sorted := by
  induction m with
  | nil => simp [Cols.add, Cols.Sorted]
  | cons p m ih =>
    simp only [Cols.Sorted, List.pairwise_cons] at h
    unfold Cols.add
    split
    · rename_i hc
      simp only [Cols.Sorted, List.pairwise_cons]
      refine ⟨?_, h⟩
      intro q hq
      rcases List.mem_cons.mp hq with rfl | hq
      · exact hc
      · exact Nat.lt_trans hc (h.1 q hq)
    · split
      · simp only [Cols.Sorted, List.pairwise_cons]; exact h
      · simp only [Cols.Sorted, List.pairwise_cons]
        refine ⟨?_, ih h.2⟩
        intro q hq
        rcases mem_add hq with e | ⟨y, hy⟩
        · rw [e]; omega
        · exact h.1 (q.1, y) hy

theorem val_of_mem {m : Cols} (h : m.Sorted) {c : Nat} {x : Rat} (hm : (c, x) ∈ m) : m.val c = x := by
  induction m with
  | nil => simp at hm
  | cons p m ih =>
    simp only [Cols.Sorted, List.pairwise_cons] at h
    rw [val_cons]
    have hz : ∀ m' : Cols, (∀ q ∈ m', q.1 ≠ c) → Cols.val m' c = 0 := by
      intro m'
      induction m' with
      | nil => intro _; rfl
      | cons q m' ih' =>
        intro hq
        rw [val_cons, if_neg (hq q List.mem_cons_self), ih' (fun r hr => hq r (List.mem_cons_of_mem _ hr))]
        grind
    rcases List.mem_cons.mp hm with rfl | hm
    · rw [if_pos rfl, hz m (fun q hq => by have := h.1 q hq; simp only at this; omega)]
      grind
    · have := h.1 _ hm
      simp only at this
      rw [if_neg (by omega), ih h.2 hm]
      grind

theorem mem_of_val {m : Cols} {c : Nat} (h : m.val c ≠ 0) : ∃ x, (c, x) ∈ m := by
  induction m with
  | nil => exact absurd rfl h
  | cons p m ih =>
    rw [val_cons] at h
    by_cases e : p.1 = c
    · exact ⟨p.2, by rw [← e]; exact List.mem_cons_self⟩
    · rw [if_neg e] at h
      obtain ⟨x, hx⟩ := ih (by grind)
      exact ⟨x, List.mem_cons_of_mem _ hx⟩

theorem val_addAll {x : Rat} {c : Nat} : ∀ (cs : List Nat) (m : Cols), cs.Nodup →
    (m.addAll cs x).val c = m.val c + if c ∈ cs then x else 0 := by
  intro cs
  induction cs with
  | nil => intro m _; simp [Cols.addAll]; grind
  | cons d cs ih =>
    intro m hn
    simp only [List.nodup_cons] at hn
    have := ih (m.add d x) hn.2
    unfold Cols.addAll at this ⊢
    rw [List.foldl_cons, this, val_add]
    simp only [List.mem_cons]
    by_cases e : c = d
    · subst e; rw [if_pos rfl, if_neg hn.1, if_pos (.inl rfl)]; grind
    · have e' : ¬ d = c := fun h => e h.symm
      rw [if_neg e']
      by_cases h : c ∈ cs
      · rw [if_pos h, if_pos (.inr h)]; grind
      · rw [if_neg h, if_neg (by rintro (h' | h') <;> contradiction)]; grind

theorem sorted_addAll {x : Rat} : ∀ (cs : List Nat) (m : Cols), m.Sorted → (m.addAll cs x).Sorted := by
  intro cs
  induction cs with
  | nil => intro m h; exact h
  | cons d cs ih => intro m h; exact ih _ (sorted_add h d x)

/-! ### contributions of the hops -/

/-- `m'` is `m` plus `f`. -/
def Adds (m m' : Cols) (f : Nat → Rat) : Prop := (m.Sorted → m'.Sorted) ∧ ∀ c, m'.val c = m.val c + f c

theorem Adds.refl (m : Cols) : Adds m m (fun _ => 0) := ⟨id, fun c => by grind⟩

theorem Adds.trans {a b c : Cols} {f f' : Nat → Rat} (h : Adds a b f) (h' : Adds b c f') :
    Adds a c (fun x => f x + f' x) := ⟨fun s => h'.1 (h.1 s), fun x => by rw [h'.2, h.2]; grind⟩

theorem adds_addAll {geo : Geo Pt} {g : Edges E Pt} {e : E} (hn : (g.cols e).Nodup) (m : Cols) (x : Rat) :
    Adds m (m.addAll (g.cols e) (edgeLen geo g e * x)) (fun c => onEdge geo g c e x) :=
  ⟨sorted_addAll _ _, fun c => by rw [val_addAll _ _ hn]; rfl⟩

theorem Adds.congr {a b : Cols} {f f' : Nat → Rat} (h : Adds a b f) (e : ∀ c, f c = f' c) : Adds a b f' :=
  ⟨h.1, fun c => by rw [h.2, e]⟩

theorem midGo_cols {geo : Geo Pt} {g : Edges E Pt} (hn : ∀ e, (g.cols e).Nodup) (edges : List E)
    (hg : ∀ e ∈ edges, g.geom e ≠ none) : ∀ (j : Nat) (s r : List Pt × Cols), midGo geo g edges j s = some r →
    Adds s.2 r.2 (fun c => (((edges.drop 1).take j).map fun e => onEdge geo g c e 1).sum) := by
  intro j
  induction j with
  | zero => intro s r h; cases h; exact (Adds.refl _).congr (fun c => by simp)
  | succ j ih =>
    intro s r h
    unfold midGo at h
    cases he : edges[j + 1]? with
    | none => rw [he] at h; cases h
    | some e =>
      simp only [he] at h
      have hm := List.mem_of_getElem? he
      rw [length_eq (hg e hm)] at h
      simp only at h
      have h1 := adds_addAll (geo := geo) (hn e) s.2 1
      have e1 : edgeLen geo g e * 1 = edgeLen geo g e := by grind
      rw [e1] at h1
      refine (h1.trans (ih _ _ h)).congr (fun c => ?_)
      have : (edges.drop 1).take (j + 1) = (edges.drop 1).take j ++ [e] := by
        rw [List.take_add_one, List.getElem?_drop, Nat.add_comm, he]; rfl
      rw [this]
      simp only [List.map_append, List.map_cons, List.map_nil, List.sum_append, List.sum_cons, List.sum_nil]
      grind

theorem sum_reverse_rat (l : List Rat) : l.reverse.sum = l.sum := by
  induction l with
  | nil => rfl
  | cons a l ih => rw [List.reverse_cons, List.sum_append, ih]; simp; grind

theorem onRest_append (geo : Geo Pt) (g : Edges E Pt) (c : Nat) (b : Rat) (en : E) : ∀ es : List E,
    onRest geo g c b (es ++ [en]) = (es.map fun e => onEdge geo g c e 1).sum + onEdge geo g c en b := by
  intro es
  induction es with
  | nil => simp [onRest]; grind
  | cons e es ih =>
    cases es with
    | nil => simp [onRest]; grind
    | cons e' es =>
      have : onRest geo g c b (e :: e' :: es ++ [en]) = onEdge geo g c e 1 + onRest geo g c b (e' :: es ++ [en]) := rfl
      rw [this, ih]
      simp only [List.map_cons, List.sum_cons]
      grind

theorem onEdge_zero (geo : Geo Pt) (g : Edges E Pt) (c : Nat) (e : E) : onEdge geo g c e 0 = 0 := by
  unfold onEdge; split <;> grind

theorem hopLine_cols {geo : Geo Pt} {g : Edges E Pt} (hn : ∀ e, (g.cols e).Nodup) (edges : List E)
    (hg : ∀ e ∈ edges, g.geom e ≠ none) (hne : 1 < edges.length) {st en : E} (hs : edges.getLast? = some st)
    (he : edges.head? = some en) {ps pe : Rat} (h0 : 0 ≤ ps) (h2 : 0 ≤ pe) {cols : Cols} {r : List Pt × Cols}
    (h : hopLine geo g edges st en ps pe cols = some r) :
    Adds cols r.2 (fun c => onEdges geo g c ps pe edges.reverse) := by
  have hstm : st ∈ edges := List.mem_of_getLast? hs
  have henm : en ∈ edges := List.mem_of_mem_head? he
  obtain ⟨m, hm⟩ := two_ends hne he hs
  unfold hopLine at h
  rw [if_neg (by omega), if_neg (fun h => by omega)] at h
  simp only [length_eq (hg _ hstm), length_eq (hg _ henm)] at h
  have hj : (if edges.length > 1 then edges.length - 2 else 0) = m.length := by
    rw [if_pos hne, hm]; simp
  rw [hj] at h
  have htake : (edges.drop 1).take m.length = m := by rw [hm]; simp
  generalize hS : (if ps > 0 then
        ((geo.seg (edgeLine g st) ps 1, cols.addAll (g.cols st) (edgeLen geo g st * (1 - ps))) : List Pt × Cols)
      else (edgeLine g st, cols.addAll (g.cols st) (edgeLen geo g st))) = S at h
  have a1 : Adds cols S.2 (fun c => onEdge geo g c st (1 - ps)) := by
    by_cases hp : ps > 0
    · rw [if_pos hp] at hS; subst hS
      exact adds_addAll (hn st) cols _
    · rw [if_neg hp] at hS; subst hS
      have := adds_addAll (geo := geo) (hn st) cols (1 - ps)
      have e0 : ps = 0 := by grind
      have e1 : edgeLen geo g st * (1 - ps) = edgeLen geo g st := by rw [e0]; grind
      rw [e1] at this
      exact this
  cases hM : midGo geo g edges m.length S with
  | none => rw [hM] at h; cases h
  | some M =>
    rw [hM] at h
    have a2 := midGo_cols hn edges hg m.length S M hM
    rw [htake] at a2
    have hrev : edges.reverse = st :: (m.reverse ++ [en]) := by rw [hm]; simp
    have key : ∀ (r2 : Cols), Adds M.2 r2 (fun c => onEdge geo g c en pe) →
        Adds cols r2 (fun c => onEdges geo g c ps pe edges.reverse) := by
      intro r2 a3
      refine ((a1.trans a2).trans a3).congr (fun c => ?_)
      rw [hrev]
      have e : onEdges geo g c ps pe (st :: (m.reverse ++ [en])) =
          onEdge geo g c st (1 - ps) + onRest geo g c pe (m.reverse ++ [en]) := by
        cases hx : m.reverse ++ [en] with
        | nil => simp at hx
        | cons a l => rfl
      rw [e, onRest_append, ← sum_reverse_rat (m.map _), ← List.map_reverse]
      grind
    by_cases hp : pe > 0
    · simp only [if_pos hp, Option.some.injEq] at h
      subst h
      exact key _ (adds_addAll (hn en) _ _)
    · simp only [if_neg hp, Option.some.injEq] at h
      subst h
      refine key _ ((Adds.refl _).congr (fun c => ?_))
      have e0 : pe = 0 := by grind
      rw [e0, onEdge_zero]

theorem oneLine_cols {geo : Geo Pt} {g : Edges E Pt} (hn : ∀ e, (g.cols e).Nodup) {h : LHop E Pt} (hok : HopOk g h)
    (h1 : h.edges.length ≠ 1) {cols : Cols} {r : List Pt × Cols} (hr : oneLine geo g h cols = some r) :
    Adds cols r.2 (fun c => onHop geo g c h) := by
  unfold oneLine at hr
  cases hfr : h.fr with
  | free x =>
    have e0 : ∀ c, onHop geo g c h = 0 := by intro c; unfold onHop; rw [hfr]
    simp only [hfr] at hr
    refine Adds.congr ?_ (fun c => (e0 c).symm)
    cases hto : h.to with
    | free y => simp only [hto] at hr; cases hr; exact Adds.refl _
    | onEdge e y =>
      simp only [hto] at hr
      split at hr
      · cases hr; exact Adds.refl _
      · cases hr
  | onEdge s x =>
    simp only [hfr] at hr
    cases hto : h.to with
    | free y =>
      have e0 : ∀ c, onHop geo g c h = 0 := by intro c; unfold onHop; rw [hfr, hto]
      refine Adds.congr ?_ (fun c => (e0 c).symm)
      simp only [hto] at hr
      split at hr
      · cases hr; exact Adds.refl _
      · cases hr
    | onEdge e y =>
      simp only [hto] at hr
      have e0 : ∀ c, onHop geo g c h = onEdges geo g c x.1.progr y.1.progr h.edges.reverse := by
        intro c; unfold onHop; rw [hfr, hto]
      refine Adds.congr ?_ (fun c => (e0 c).symm)
      by_cases hnil : h.edges = []
      · rw [hnil] at hr ⊢
        simp only [hopLine, List.length_nil, if_true] at hr
        split at hr
        · cases hr; exact Adds.refl _
        · cases hr
      · have : h.edges.length ≠ 0 := by simpa using hnil
        exact hopLine_cols hn h.edges hok.geom (by omega) (hok.start s x hfr hnil) (hok.stop e y hto hnil)
          (hok.fr s x hfr).1 (hok.to e y hto).1 hr

theorem geomGo_cols {geo : Geo Pt} {g : Edges E Pt} (hn : ∀ e, (g.cols e).Nodup) (hops : List (LHop E Pt))
    (hok : ∀ h ∈ hops, HopOk g h) (h1 : ∀ h ∈ hops, h.edges.length ≠ 1) :
    ∀ (i : Nat) (s r : List (List Pt) × Cols), geomGo geo g hops i s = some r →
      Adds s.2 r.2 (fun c => onHops geo g c (hops.take i)) := by
  intro i
  induction i with
  | zero => intro s r h; cases h; exact (Adds.refl _).congr (fun c => by simp [onHops])
  | succ i ih =>
    intro s r h
    unfold geomGo at h
    cases hh : hops[i]? with
    | none => rw [hh] at h; cases h
    | some hp =>
      simp only [hh] at h
      have hm := List.mem_of_getElem? hh
      cases ho : oneLine geo g hp s.2 with
      | none => rw [ho] at h; cases h
      | some l =>
        simp only [ho] at h
        refine ((oneLine_cols hn (hok hp hm) (h1 hp hm) ho).trans (ih _ _ h)).congr (fun c => ?_)
        unfold onHops
        rw [List.take_add_one, hh]
        simp only [Option.toList_some, List.map_append, List.map_cons, List.map_nil, List.sum_append, List.sum_cons, List.sum_nil]
        grind

/-! ### the choice -/

def bestStep (tot : Rat) (b : Share × Option Nat) (c : Nat × Rat) : Share × Option Nat :=
  if (share c.2 tot).gt (.fin (9 / 10)) && (share c.2 tot).gt b.1 then (share c.2 tot, some c.1) else b

theorem bestColor_eq (cols : Cols) (tot : Rat) : bestColor cols tot = (cols.foldl (bestStep tot) (Share.fin 0, none)).2 :=
  rfl

/-- Invariant of the loop. -/
def BestInv (tot : Rat) (seen : Cols) (b : Share × Option Nat) : Prop :=
  (∃ v, b.1 = .fin v ∧ 0 ≤ v ∧ (∀ p ∈ seen, p.2 / tot ≤ v ∨ p.2 / tot ≤ 9 / 10) ∧
    (∀ c, b.2 = some c → ∃ x, (c, x) ∈ seen ∧ v = x / tot ∧ 9 / 10 < v) ∧ (b.2 = none → v = 0)) ∧
  (b.2 = none → ∀ p ∈ seen, p.2 / tot ≤ 9 / 10)

theorem best_inv {tot : Rat} (ht : 0 < tot) : ∀ (cols seen : Cols) (b : Share × Option Nat), BestInv tot seen b →
    BestInv tot (seen ++ cols) (cols.foldl (bestStep tot) b) := by
  intro cols
  induction cols with
  | nil => intro seen b h; simpa using h
  | cons p cols ih =>
    intro seen b h
    rw [List.foldl_cons]
    have e : seen ++ p :: cols = (seen ++ [p]) ++ cols := by simp
    rw [e]
    apply ih
    obtain ⟨⟨v, hv, hv0, h1, h2, h4⟩, h3⟩ := h
    have hs : share p.2 tot = .fin (p.2 / tot) := by unfold share; rw [if_neg (by grind)]
    unfold bestStep
    rw [hs, hv]
    simp only [Share.gt, Bool.and_eq_true, decide_eq_true_eq, gt_iff_lt]
    by_cases hc : 9 / 10 < p.2 / tot ∧ v < p.2 / tot
    · rw [if_pos hc]
      refine ⟨⟨_, rfl, by grind, ?_, ?_, by simp⟩, by simp⟩
      · intro q hq
        rcases List.mem_append.mp hq with hq | hq
        · rcases h1 q hq with h | h <;> grind
        · rw [List.mem_singleton.mp hq]; grind
      · intro c hcc
        simp only [Option.some.injEq] at hcc
        exact ⟨p.2, by rw [← hcc]; simp, rfl, hc.1⟩
    · rw [if_neg hc]
      refine ⟨⟨v, hv, hv0, ?_, ?_, h4⟩, ?_⟩
      · intro q hq
        rcases List.mem_append.mp hq with hq | hq
        · exact h1 q hq
        · rw [List.mem_singleton.mp hq]; grind
      · intro c hcc
        obtain ⟨x, hx, hx'⟩ := h2 c hcc
        exact ⟨x, List.mem_append_left _ hx, hx'⟩
      · intro hb q hq
        rcases List.mem_append.mp hq with hq | hq
        · exact h3 hb q hq
        · rw [List.mem_singleton.mp hq]
          have := h4 hb
          grind

end Verif.Line
