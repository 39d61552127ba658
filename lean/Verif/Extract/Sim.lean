import Verif.Extract.Lines

/-!
# The same graph from alike ways and nodes (lemmas)
-/

set_option linter.unusedSectionVars false
set_option linter.unusedSimpArgs false

namespace Verif.Extract
open Verif.Names (Str)
open Verif.Osm Verif.Whole Verif.Turns Verif.Payload
open Verif.Restrictor (Raw Op)

variable {P S T D : Type} {W : Nat → Bool}

/-! ### turn restrictions -/

/-- Restrictions at the node are the same. -/
def AgreeAt (q q' : Rests) (v : Nat) : Prop := (q.pos.get v).getD [] = (q'.pos.get v).getD [] ∧ (q.neg.get v).getD [] = (q'.neg.get v).getD []

theorem agree_push {q q' : Rests} {v u : Nat} (x : Raw Nat) (h : AgreeAt q q' v) :
    AgreeAt { q with pos := pushRaw q.pos u x } { q' with pos := pushRaw q'.pos u x } v ∧
    AgreeAt { q with neg := pushRaw q.neg u x } { q' with neg := pushRaw q'.neg u x } v := by
  unfold AgreeAt pushRaw
  constructor
  · simp only [FMap.get_put]
    by_cases e : v = u
    · subst e; simp [h.1, h.2]
    · simp [e, h.1, h.2]
  · simp only [FMap.get_put]
    by_cases e : v = u
    · subst e; simp [h.1, h.2]
    · simp [e, h.1, h.2]

theorem push_other (q : Rests) {v u : Nat} (x : Raw Nat) (h : v ≠ u) :
    AgreeAt q { q with pos := pushRaw q.pos u x } v ∧ AgreeAt q { q with neg := pushRaw q.neg u x } v := by
  unfold AgreeAt pushRaw
  simp [FMap.get_put, h]

theorem viaOf_mem {l : List (Nat × Str)} (h : viaOf l ≠ 0) : ∃ m ∈ l, m.2 = sVia ∧ m.1 = viaOf l := by
  induction l with
  | nil => exact absurd rfl h
  | cons m l ih =>
    rw [viaOf] at h ⊢
    split
    · rename_i e
      exact ⟨m, List.mem_cons_self, e, rfl⟩
    · rename_i e
      rw [if_neg e] at h
      obtain ⟨m', h1, h2⟩ := ih h
      exact ⟨m', List.mem_cons_of_mem _ h1, h2⟩

theorem viaOf_filter {N : Nat → Bool} {l : List (Nat × Str)} (h : ∀ m ∈ l, m.2 = sVia → N m.1 = true) : viaOf (l.filter fun m => N m.1) = viaOf l := by
  induction l with
  | nil => rfl
  | cons m l ih =>
    have ih := ih fun m' h' => h m' (List.mem_cons_of_mem _ h')
    rw [List.filter_cons]
    cases hN : N m.1 with
    | true => simp only [if_true, viaOf, ih]
    | false =>
      have : ¬ m.2 = sVia := fun e => by rw [h m List.mem_cons_self e] at hN; cases hN
      simp only [Bool.false_eq_true, if_false]
      rw [ih, viaOf, if_neg this]

theorem endsOf_filter {l : List (Nat × Str)} (h : ∀ m ∈ l, m.2 = sFrom ∨ m.2 = sTo → W m.1 = true) : ∀ a b,
    endsOf (l.filter fun m => W m.1) a b = endsOf l a b := by
  induction l with
  | nil => intro a b; rfl
  | cons m l ih =>
    have ih := ih fun m' h' => h m' (List.mem_cons_of_mem _ h')
    intro a b
    rw [List.filter_cons]
    cases hW : W m.1 with
    | true => simp only [if_true, endsOf, ih]
    | false =>
      have : ¬ (m.2 = sFrom ∨ m.2 = sTo) := fun e => by rw [h m List.mem_cons_self e] at hW; cases hW
      simp only [not_or] at this
      simp only [Bool.false_eq_true, if_false]
      rw [ih, endsOf, if_neg this.1, if_neg this.2]

/-- A turn restriction of the rules. -/
def IsRestr (o : Osm.Opts) (r : Rel) : Prop := FMap.get r.attrs sType = some sRestriction ∧ ¬ (fPosRestr o r.attrs = 0 ∧ fNegRestr o r.attrs = 0)

/-- A relation without restriction at `v`. -/
theorem readRestr_off (o : Osm.Opts) (q : Rests) (r : Rel) {v : Nat} (h : IsRestr o r → ∀ m ∈ r.nodes, m.2 = sVia → m.1 ≠ v) :
    AgreeAt q (readRestr o q r) v := by
  have triv : AgreeAt q q v := ⟨rfl, rfl⟩
  unfold readRestr
  split
  · exact triv
  · rename_i h1
    split
    · exact triv
    · rename_i h2
      cases endsOf r.ways 0 0 with
      | none => exact triv
      | some ab =>
        obtain ⟨a, b⟩ := ab
        simp only
        split
        · rename_i h3
          obtain ⟨m, hm, h4, h5⟩ := viaOf_mem h3.2.2
          have := h ⟨Decidable.not_not.1 h1, h2⟩ m hm h4
          rw [h5] at this
          split
          · exact (push_other q _ (Ne.symm this)).1
          · exact (push_other q _ (Ne.symm this)).2
        · exact triv

theorem agree_trans {a b c : Rests} {v : Nat} (h : AgreeAt a b v) (h' : AgreeAt b c v) : AgreeAt a c v := ⟨h.1.trans h'.1, h.2.trans h'.2⟩
theorem agree_symm {a b : Rests} {v : Nat} (h : AgreeAt a b v) : AgreeAt b a v := ⟨h.1.symm, h.2.symm⟩

theorem restr_same {o : Osm.Opts} (ho : FlaggedOpts o) {a b : Osm.Attrs} (h : Same a b) :
    (fPosRestr o a = 0 ↔ fPosRestr o b = 0) ∧ (fNegRestr o a = 0 ↔ fNegRestr o b = 0) := by
  obtain ⟨_, _, _, _, _, _, _, h1, h2, _⟩ := C28_order o ho a b h.mem
  exact ⟨by rw [← Decidable.not_iff_not]; exact h2, by rw [← Decidable.not_iff_not]; exact h1⟩

theorem cut_rests {N : Nat → Bool} {o : Osm.Opts} (ho : FlaggedOpts o) (A : Nat → Prop) (hA : ∀ v, A v → N v = true) {rs rs' : List Rel}
    (h : Cut W N rs rs') (hi : ∀ r ∈ rs, IsRestr o r → (∃ m ∈ r.nodes, m.2 = sVia ∧ A m.1) →
      (∀ m ∈ r.ways, m.2 = sFrom ∨ m.2 = sTo → W m.1 = true) ∧ ∀ m ∈ r.nodes, m.2 = sVia → N m.1 = true) :
    ∀ (q q' : Rests), (∀ v, A v → AgreeAt q q' v) → ∀ v, A v → AgreeAt (rs.foldl (readRestr o) q) (rs'.foldl (readRestr o) q') v := by
  induction h with
  | nil => intro q q' h; exact h
  | @drop r l l' h1 h2 _ ih =>
    intro q q' hq v hv
    rw [List.foldl_cons]
    refine ih (fun r hr => hi r (List.mem_cons_of_mem _ hr)) _ _ (fun u hu => ?_) v hv
    refine agree_trans (agree_symm (readRestr_off o q r fun _ m hm _ e => ?_)) (hq u hu)
    have := h2 m hm
    rw [e, hA u hu] at this
    cases this
  | @keep r r' l l' hr _ ih =>
    intro q q' hq v hv
    rw [List.foldl_cons, List.foldl_cons]
    refine ih (fun r hr => hi r (List.mem_cons_of_mem _ hr)) _ _ (fun u hu => ?_) v hv
    have hq := hq u hu
    obtain ⟨s1, s2⟩ := restr_same ho hr.attrs
    by_cases hc : IsRestr o r ∧ ∃ m ∈ r.nodes, m.2 = sVia ∧ A m.1
    · obtain ⟨i1, i2⟩ := hi r List.mem_cons_self hc.1 hc.2
      unfold readRestr
      rw [hr.attrs.get, hr.ways, hr.nodes, endsOf_filter i1, viaOf_filter i2]
      have t : fPosRestr o r.attrs = 0 ∧ fNegRestr o r.attrs = 0 ↔ fPosRestr o r'.attrs = 0 ∧ fNegRestr o r'.attrs = 0 := by
        rw [s1, s2]
      split
      · exact hq
      · by_cases g : fPosRestr o r.attrs = 0 ∧ fNegRestr o r.attrs = 0
        · rw [if_pos g, if_pos (t.1 g)]; exact hq
        · rw [if_neg g, if_neg (fun g' => g (t.2 g'))]
          cases endsOf r.ways 0 0 with
          | none => exact hq
          | some ab =>
            obtain ⟨a, b⟩ := ab
            simp only
            split
            · by_cases g : fPosRestr o r.attrs = 0
              · rw [if_neg (fun x => x g), if_neg (fun x => x (s1.1 g))]
                exact (agree_push _ hq).2
              · rw [if_pos g, if_pos (fun x => g (s1.2 x))]
                exact (agree_push _ hq).1
            · exact hq
    · refine agree_trans (agree_symm (readRestr_off o q r ?_)) (agree_trans hq (readRestr_off o q' r' ?_))
      · intro g m hm h1 h2
        exact hc ⟨g, m, hm, h1, h2 ▸ hu⟩
      · intro g m hm h1 h2
        rw [hr.nodes] at hm
        refine hc ⟨⟨(hr.attrs.get _).trans g.1, fun x => g.2 ⟨s1.1 x.1, s2.1 x.2⟩⟩, m, (List.mem_filter.1 hm).1, h1, h2 ▸ hu⟩

/-! ### ways -/

/-- Edges that are alike. -/
structure ESim (W : Nat → Bool) (e e' : GEdge) : Prop where
  src : e'.src = e.src
  dst : e'.dst = e.dst
  way : Alike W e.way e'.way

/-- Graphs that are alike. -/
structure GSim (W : Nat → Bool) (s s' : GSt P) : Prop where
  next : s'.next = s.next
  nodes : s'.nodes = s.nodes
  multi : s'.multi = s.multi
  geom : s'.geom = s.geom
  orphans : s'.orphans = s.orphans
  edges : Match (ESim W) s.edges s'.edges

/-- Ids in use. -/
structure Uses (box : Nat → Bool) (U : Nat → Prop) (s : GSt P) : Prop where
  nodes : ∀ i n, s.nodes.get i = some n → U i ∧ box i = true
  multi : ∀ i l, s.multi.get i = some l → U i

theorem ndFor_sim {nohup box nohup' box' : Nat → Bool} {s s' : GSt P} (h : GSim W s s') (i : Nat) (h1 : nohup' i = nohup i) (h2 : box' i = box i) :
    (ndFor nohup' box' s' i).1 = (ndFor nohup box s i).1 ∧ GSim W (ndFor nohup box s i).2 (ndFor nohup' box' s' i).2 := by
  obtain ⟨nx, nd, mu, es, ge, op⟩ := s
  obtain ⟨nx', nd', mu', es', ge', op'⟩ := s'
  obtain ⟨e1, e2, e3, e4, e5, e6⟩ := h
  simp only at e1 e2 e3 e4 e5 e6
  subst e1 e2 e3 e4 e5
  unfold ndFor
  rw [h1, h2]
  split
  · exact ⟨rfl, ⟨rfl, rfl, rfl, rfl, rfl, e6⟩⟩
  · simp only
    cases nd'.get i with
    | none =>
      simp only
      split
      · exact ⟨rfl, ⟨rfl, rfl, rfl, rfl, rfl, e6⟩⟩
      · exact ⟨rfl, ⟨rfl, rfl, rfl, rfl, rfl, e6⟩⟩
    | some n => exact ⟨rfl, ⟨rfl, rfl, rfl, rfl, rfl, e6⟩⟩

theorem ndFor_uses {nohup box : Nat → Bool} {U : Nat → Prop} {s : GSt P} (h : Uses box U s) {i : Nat} (hi : U i) :
    Uses box U (ndFor nohup box s i).2 ∧ (∀ n, (ndFor nohup box s i).1 = some n → nohup i = true ∨ box i = true) := by
  unfold ndFor
  split
  · rename_i hn
    refine ⟨⟨h.nodes, fun j l hl => ?_⟩, fun _ _ => .inl hn⟩
    simp only [pushTo, FMap.get_put] at hl
    split at hl
    · rename_i e; rw [e]; exact hi
    · exact h.multi j l hl
  · cases hg : s.nodes.get i with
    | none =>
      simp only
      split
      · rename_i hb
        refine ⟨⟨fun j l hl => ?_, h.multi⟩, fun _ _ => .inr hb⟩
        simp only [FMap.get_put] at hl
        split at hl
        · rename_i e; rw [e]; exact ⟨hi, hb⟩
        · exact h.nodes j l hl
      · exact ⟨h, fun n hn => by cases hn⟩
    | some n => exact ⟨h, fun _ _ => .inr (h.nodes i n hg).2⟩

theorem gsim_push {s s' : GSt P} (h : GSim W s s') (l n : Nat) {w w' : Way} (hw : Alike W w w') :
    GSim W { s with edges := s.edges ++ [⟨l, n, w⟩] } { s' with edges := s'.edges ++ [⟨l, n, w'⟩] } :=
  ⟨h.next, h.nodes, h.multi, h.geom, h.orphans, h.edges.append (.cons ⟨rfl, rfl, hw⟩ .nil)⟩

theorem uses_push {box : Nat → Bool} {U : Nat → Prop} {s : GSt P} (h : Uses box U s) (es : List GEdge) : Uses box U { s with edges := es } :=
  ⟨h.nodes, h.multi⟩

theorem edgesGo_sim {nohup box nohup' box' : Nat → Bool} {U : Nat → Prop} {w w' : Way} (hw : Alike W w w') (nids : List Nat)
    (hU : ∀ i ∈ nids, U i) (hb : ∀ i ∈ nids, nohup' i = nohup i ∧ box' i = box i) : ∀ (s s' : GSt P) (last : Option Nat), GSim W s s' → Uses box U s →
    GSim W (edgesGo nohup box w nids s last) (edgesGo nohup' box' w' nids s' last) ∧ Uses box U (edgesGo nohup box w nids s last) := by
  induction nids with
  | nil => intro s s' last h hu; exact ⟨h, hu⟩
  | cons i nids ih =>
    intro s s' last h hu
    have ih := ih (fun j hj => hU j (List.mem_cons_of_mem _ hj)) (fun j hj => hb j (List.mem_cons_of_mem _ hj))
    obtain ⟨b1, b2⟩ := hb i List.mem_cons_self
    obtain ⟨e1, e2⟩ := ndFor_sim h i b1 b2
    obtain ⟨u1, _⟩ := ndFor_uses (nohup := nohup) hu (hU i List.mem_cons_self)
    rw [edgesGo, edgesGo]
    generalize ndFor nohup box s i = x at *
    generalize ndFor nohup' box' s' i = y at *
    obtain ⟨x1, x2⟩ := x
    obtain ⟨y1, y2⟩ := y
    simp only at e1 e2 u1
    subst e1
    cases y1 with
    | none => exact ih _ _ _ e2 u1
    | some n =>
      cases last with
      | none => exact ih _ _ _ e2 u1
      | some l => exact ih _ _ _ (gsim_push e2 l n hw) (uses_push u1 _)

theorem addWays_sim {nohup box nohup' box' : Nat → Bool} {U : Nat → Prop} {ws ws' : List Way} (hm : Match (Alike W) ws ws')
    (hU : ∀ w ∈ ws, ∀ i ∈ w.nodes, U i) (hb : ∀ w ∈ ws, ∀ i ∈ w.nodes, nohup' i = nohup i ∧ box' i = box i) : ∀ (s s' : GSt P), GSim W s s' → Uses box U s →
    GSim W (ws.foldl (addWay nohup box) s) (ws'.foldl (addWay nohup' box') s') ∧ Uses box U (ws.foldl (addWay nohup box) s) := by
  induction hm with
  | nil => intro s s' h hu; exact ⟨h, hu⟩
  | @cons w w' ws ws' hw _ ih =>
    intro s s' h hu
    obtain ⟨a, b⟩ := edgesGo_sim hw w.nodes (hU w List.mem_cons_self) (hb w List.mem_cons_self) s s' none h hu
    refine ih (fun x hx => hU x (List.mem_cons_of_mem _ hx)) (fun x hx => hb x (List.mem_cons_of_mem _ hx)) _ _ ?_ b
    unfold addWay
    rw [hw.nodes]
    exact a

/-! ### turns -/

structure TSim {E : Type} (W : Nat → Bool) (s s' : TSt P E) : Prop where
  g : GSim W s.g s'.g
  ops : s'.ops = s.ops
  flags : s'.flags = s.flags

theorem turnOps_same {E : Type} {q q' : Rests} {v : Nat} (h : AgreeAt q q' v) (wid : Nat) (e : E) (n : Nat) : turnOps q' v wid e n = turnOps q v wid e n := by
  unfold turnOps
  rw [h.1, h.2]

theorem marks_same {q q' : Rests} {v : Nat} (h : AgreeAt q q' v) (wid : Nat) : marks q' v wid = marks q v wid := by
  unfold marks
  rw [h.1, h.2]

theorem turnGo_sim {q q' : Rests} {nohup box nohup' box' : Nat → Bool} {U : Nat → Prop} {w w' : Way} (hw : Alike W w w') (nids : List Nat)
    (hU : ∀ i ∈ nids, U i) (hb : ∀ i ∈ nids, nohup' i = nohup i ∧ box' i = box i)
    (hq : ∀ i, U i → nohup i = true ∨ box i = true → AgreeAt q q' i) :
    ∀ (s s' : TSt P (Nat × Nat)) (last : Option (Nat × Nat)), TSim W s s' → Uses box U s.g → (∀ l, last = some l → AgreeAt q q' l.2) →
    TSim W (turnGo q (fun _ g => (g.src, g.dst)) nohup box w nids s last) (turnGo q' (fun _ g => (g.src, g.dst)) nohup' box' w' nids s' last) ∧
    Uses box U (turnGo q (fun _ g => (g.src, g.dst)) nohup box w nids s last).g := by
  induction nids with
  | nil => intro s s' last h hu _; exact ⟨h, hu⟩
  | cons i nids ih =>
    intro s s' last h hu hl
    have ih := ih (fun j hj => hU j (List.mem_cons_of_mem _ hj)) (fun j hj => hb j (List.mem_cons_of_mem _ hj))
    obtain ⟨b1, b2⟩ := hb i List.mem_cons_self
    obtain ⟨e1, e2⟩ := ndFor_sim h.g i b1 b2
    obtain ⟨u1, u2⟩ := ndFor_uses (nohup := nohup) hu (hU i List.mem_cons_self)
    rw [turnGo, turnGo]
    generalize ndFor nohup box s.g i = x at *
    generalize ndFor nohup' box' s'.g i = y at *
    obtain ⟨x1, x2⟩ := x
    obtain ⟨y1, y2⟩ := y
    simp only at e1 e2 u1 u2
    subst e1
    cases y1 with
    | none => exact ih _ _ _ ⟨e2, h.ops, h.flags⟩ u1 hl
    | some n =>
      have ag := hq i (hU i List.mem_cons_self) (u2 n rfl)
      cases last with
      | none =>
        refine ih _ _ _ ⟨e2, h.ops, h.flags⟩ u1 ?_
        rintro l e
        cases e
        exact ag
      | some l =>
        obtain ⟨l, lid⟩ := l
        have ag' := hl _ rfl
        simp only at ag'
        simp only
        refine ih _ _ _ ⟨gsim_push e2 l n hw, ?_, ?_⟩ (uses_push u1 _) ?_
        · simp only
          rw [h.ops, hw.id, turnOps_same ag, turnOps_same ag']
        · simp only
          rw [h.flags, hw.id, marks_same ag, marks_same ag']
        · rintro l e
          cases e
          exact ag

theorem turnWays_sim {q q' : Rests} {nohup box nohup' box' : Nat → Bool} {U : Nat → Prop} {ws ws' : List Way} (hm : Match (Alike W) ws ws')
    (hU : ∀ w ∈ ws, ∀ i ∈ w.nodes, U i) (hb : ∀ w ∈ ws, ∀ i ∈ w.nodes, nohup' i = nohup i ∧ box' i = box i)
    (hq : ∀ i, U i → nohup i = true ∨ box i = true → AgreeAt q q' i) : ∀ (s s' : TSt P (Nat × Nat)), TSim W s s' → Uses box U s.g →
    TSim W (ws.foldl (turnWay q (fun _ g => (g.src, g.dst)) nohup box) s) (ws'.foldl (turnWay q' (fun _ g => (g.src, g.dst)) nohup' box') s') := by
  induction hm with
  | nil => intro s s' h _; exact h
  | @cons w w' ws ws' hw _ ih =>
    intro s s' h hu
    obtain ⟨a, b⟩ := turnGo_sim hw w.nodes (hU w List.mem_cons_self) (hb w List.mem_cons_self) hq s s' none h hu (fun l e => by cases e)
    refine ih (fun x hx => hU x (List.mem_cons_of_mem _ hx)) (fun x hx => hb x (List.mem_cons_of_mem _ hx)) _ _ ?_ b
    unfold turnWay
    rw [hw.nodes]
    exact a

/-! ### nodes -/

structure NSim (n n' : Nod P) : Prop where
  id : n'.id = n.id
  pos : n'.pos = n.pos
  attrs : Same n.attrs n'.attrs

theorem ite_congr_iff {α : Type} {c d : Prop} [Decidable c] [Decidable d] (h : c ↔ d) (a b : α) : (if c then a else b) = if d then a else b := by
  by_cases e : c
  · rw [if_pos e, if_pos (h.1 e)]
  · rw [if_neg e, if_neg (fun x => e (h.2 x))]

theorem nodeStep_sim {p p' : Par P S T D} (ho : FlaggedOpts p.o) (hpo : p'.o = p.o) {c c' : GSt P × NState Nat S} (h : GSim W c.1 c'.1) (h2 : c'.2 = c.2)
    {n n' : Nod P} (hn : NSim n n') (hi : p'.info n' = p.info n) : GSim W (nodeStep p c n).1 (nodeStep p' c' n').1 ∧ (nodeStep p' c' n').2 = (nodeStep p c n).2 := by
  obtain ⟨_, _, _, _, o1, o2, o3, _, _, _⟩ := C28_order p.o ho n.attrs n'.attrs hn.attrs.mem
  have m : ∀ pl k, Whole.mark p' n' pl k = Whole.mark p n pl k := by
    intro pl k
    unfold Whole.mark
    rw [hpo, hi, ite_congr_iff o1, ite_congr_iff o2, ite_congr_iff o3]
  have b : (fStation p'.o n'.attrs != 0) = (fStation p.o n.attrs != 0) := by
    rw [hpo, Bool.eq_iff_iff]
    simp only [bne_iff_ne]
    exact o1.symm
  obtain ⟨⟨nx, nd, mu, es, ge, op⟩, pl⟩ := c
  obtain ⟨⟨nx', nd', mu', es', ge', op'⟩, pl'⟩ := c'
  obtain ⟨e1, e2, e3, e4, e5, e6⟩ := h
  simp only at e1 e2 e3 e4 e5 e6 h2
  subst e1 e2 e3 e4 e5 h2
  refine ⟨?_, ?_⟩
  · unfold nodeStep addNode
    simp only [hn.id, hn.pos, b, hi]
    cases nd'.get n.id with
    | some g => exact ⟨rfl, rfl, rfl, rfl, rfl, e6⟩
    | none =>
      cases mu'.get n.id with
      | some l => exact ⟨rfl, rfl, rfl, rfl, rfl, e6⟩
      | none =>
        simp only
        split
        · exact ⟨rfl, rfl, rfl, rfl, rfl, e6⟩
        · exact ⟨rfl, rfl, rfl, rfl, rfl, e6⟩
  · unfold nodeStep payNode
    have m' : Whole.mark p' n' = Whole.mark p n := funext fun a => funext fun k => m a k
    simp only [hn.id, hi, m', hpo, ite_congr_iff o1]

theorem nodes_sim {p p' : Par P S T D} (ho : FlaggedOpts p.o) (hpo : p'.o = p.o) {ns ns' : List (Nod P)}
    (hm : Match (fun n n' => NSim n n' ∧ p'.info n' = p.info n) ns ns') : ∀ {c c' : GSt P × NState Nat S}, GSim W c.1 c'.1 → c'.2 = c.2 →
    GSim W (ns.foldl (nodeStep p) c).1 (ns'.foldl (nodeStep p') c').1 ∧ (ns'.foldl (nodeStep p') c').2 = (ns.foldl (nodeStep p) c).2 := by
  induction hm with
  | nil => intro c c' h h2; exact ⟨h, h2⟩
  | cons hn _ ih =>
    intro c c' h h2
    obtain ⟨a, b⟩ := nodeStep_sim ho hpo h h2 hn.1 hn.2
    exact ih a b

/-! ### payload of edges -/

theorem readEdge_sim {p p' : Par P S T D} (ho : FlaggedOpts p.o) (hpo : p'.o = p.o) {es es' : List GEdge}
    (hm : Match (fun e e' => ESim W e e' ∧ p'.lines e'.way = p.lines e.way) es es') : ∀ l, es'.foldl (readEdge p') l = es.foldl (readEdge p) l := by
  induction hm with
  | nil => intro l; rfl
  | @cons e e' es es' he _ ih =>
    intro l
    rw [List.foldl_cons, List.foldl_cons, ih]
    congr 1
    unfold readEdge
    rw [he.1.src, he.1.dst]
    apply List.map_congr_left
    intro x _
    split
    · unfold wayOn
      obtain ⟨_, _, o1, o2, _, _, _, _, _, o3⟩ := C28_order p.o ho e.way.attrs e'.way.attrs he.1.way.attrs.mem
      rw [hpo, he.2, o3, ← ite_congr_iff o1, ← ite_congr_iff o2]
    · rfl

theorem tracks_sim {p p' : Par P S T D} {es es' : List GEdge} (hm : Match (fun e e' => ESim W e e' ∧ p'.track e'.way = p.track e.way) es es') :
    edgeTracks p' es' = edgeTracks p es := by
  unfold edgeTracks
  generalize ([] : FMap (Nat × Nat) T) = m
  induction hm generalizing m with
  | nil => rfl
  | cons he _ ih =>
    rw [List.foldl_cons, List.foldl_cons, he.2, he.1.src, he.1.dst, ih]

end Verif.Extract
