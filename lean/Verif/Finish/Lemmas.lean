import Verif.Finish.Model
import Verif.Snap.Props

/-!
# From the raw graph to the routing graph (lemmas)
-/

set_option linter.unusedSectionVars false
set_option linter.unusedSimpArgs false

namespace Verif.Finish
open Verif.Collapse Verif.Payload Verif.Restrictor Verif.Snap

variable {P S W D : Type} [DecidableEq W]

/-! ### specification -/

/-- There are no two edges between the same nodes in opposite directions. -/
def NoOpp (es : List (Edg Nat P)) : Prop := ∀ e ∈ es, ∀ f ∈ es, f.src = e.dst → f.dst = e.src → f = e

/-- The edge `x` is in the graph, at `v`, and marked as having turn rules. -/
def Marked (es : List (Edg Nat P)) (v : Nat) (x : Nat × Nat) : Prop :=
  ∃ e ∈ es, (e.src, e.dst) = x ∧ e.a.restr = true ∧ (v = e.src ∨ v = e.dst)

/-- The rules of a node are about marked edges at this node. -/
def RulesIn (es : List (Edg Nat P)) (res : R Nat (Nat × Nat) W) : Prop :=
  ∀ v r, r ∈ res.pos v ∨ r ∈ res.neg v → Marked es v r.1 ∧ ∀ x, r.2 = some x → Marked es v x

/-- One may arrive at `w`, leave `w`, by the edge. -/
def In (e : Edg Nat P) (w : Nat) : Prop := (e.dst = w ∧ e.a.oneWay ≠ 2) ∨ (e.src = w ∧ e.a.oneWay ≠ 1)
def Out (e : Edg Nat P) (w : Nat) : Prop := (e.src = w ∧ e.a.oneWay ≠ 2) ∨ (e.dst = w ∧ e.a.oneWay ≠ 1)

/-- Travel along directed edges without those against a one-way street. -/
inductive Drive (es : List (Edg Nat P)) : Nat → Nat → Prop
  | refl (u) : Drive es u u
  | step {u w} : Drive es u w → ∀ e ∈ es, e.src = w → e.a.oneWay ≠ 2 → Drive es u e.dst

/-! ### changes of costs and geometries -/

/-- A function that changes nothing but costs and geometries. -/
structure Mild (f : Edg Nat P → Edg Nat P) : Prop where
  src : ∀ e, (f e).src = e.src
  dst : ∀ e, (f e).dst = e.dst
  way : ∀ e, (f e).a.oneWay = e.a.oneWay
  restr : ∀ e, (f e).a.restr = e.a.restr
  lvl : ∀ e, (f e).a.lvl = e.a.lvl
  lines : ∀ e, (f e).lines = e.lines

theorem mild_geom (c : Cfg P S W D) (pos : Nat → P) : Mild (writeGeom c pos) :=
  ⟨fun _ => rfl, fun _ => rfl, fun _ => rfl, fun _ => rfl, fun _ => rfl, fun _ => rfl⟩
theorem mild_simplify (c : Cfg P S W D) : Mild (simplifyGeom c) :=
  ⟨fun _ => rfl, fun _ => rfl, fun _ => rfl, fun _ => rfl, fun _ => rfl, fun _ => rfl⟩
theorem mild_pen (c : Cfg P S W D) : Mild (writePen c) :=
  ⟨fun _ => rfl, fun _ => rfl, fun _ => rfl, fun _ => rfl, fun _ => rfl, fun _ => rfl⟩

theorem Mild.comp {f g : Edg Nat P → Edg Nat P} (hf : Mild f) (hg : Mild g) : Mild (g ∘ f) :=
  ⟨fun e => (hg.src _).trans (hf.src e), fun e => (hg.dst _).trans (hf.dst e), fun e => (hg.way _).trans (hf.way e),
    fun e => (hg.restr _).trans (hf.restr e), fun e => (hg.lvl _).trans (hf.lvl e), fun e => (hg.lines _).trans (hf.lines e)⟩

section
variable {f : Edg Nat P → Edg Nat P} (hf : Mild f) (es : List (Edg Nat P))
include hf

theorem Mild.uniq (h : Uniq es) : Uniq (es.map f) := by
  unfold Uniq at *
  rw [List.pairwise_map]
  refine h.imp ?_
  intro a b hab
  rw [hf.src, hf.src, hf.dst, hf.dst]
  exact hab

theorem Mild.marks (h : Marks es) : Marks (es.map f) := by
  intro e he g hg
  obtain ⟨x, hx, rfl⟩ := List.mem_map.1 he
  obtain ⟨y, hy, rfl⟩ := List.mem_map.1 hg
  rw [hf.way, hf.way, hf.src, hf.src, hf.dst, hf.dst]
  exact h x hx y hy

theorem Mild.noOpp (h : NoOpp es) : NoOpp (es.map f) := by
  intro e he g hg
  obtain ⟨x, hx, rfl⟩ := List.mem_map.1 he
  obtain ⟨y, hy, rfl⟩ := List.mem_map.1 hg
  rw [hf.src, hf.src, hf.dst, hf.dst]
  intro h1 h2
  rw [h x hx y hy h1 h2]

theorem Mild.permits (e : Edg Nat P) (u w : Nat) : Permits (f e) u w ↔ Permits e u w := by
  unfold Permits
  rw [hf.src, hf.dst, hf.way]

theorem Mild.reach (u w : Nat) : Reach (es.map f) u w ↔ Reach es u w := by
  constructor
  · intro h
    induction h with
    | refl => exact .refl _
    | step _ h ih =>
      obtain ⟨e, he, hp⟩ := h
      obtain ⟨x, hx, rfl⟩ := List.mem_map.1 he
      exact .step ih ⟨x, hx, (hf.permits x _ _).1 hp⟩
  · intro h
    induction h with
    | refl => exact .refl _
    | step _ h ih =>
      obtain ⟨e, he, hp⟩ := h
      exact .step ih ⟨f e, List.mem_map.2 ⟨e, he, rfl⟩, (hf.permits e _ _).2 hp⟩

theorem Mild.touched (u : Nat) : Touched (es.map f) u ↔ Touched es u := by
  constructor
  · rintro ⟨e, he, h⟩
    obtain ⟨x, hx, rfl⟩ := List.mem_map.1 he
    rw [hf.src, hf.dst] at h
    exact ⟨x, hx, h⟩
  · rintro ⟨e, he, h⟩
    refine ⟨f e, List.mem_map.2 ⟨e, he, rfl⟩, ?_⟩
    rw [hf.src, hf.dst]
    exact h

theorem Mild.drive (u w : Nat) : Drive (es.map f) u w ↔ Drive es u w := by
  constructor
  · intro h
    induction h with
    | refl => exact .refl _
    | step _ e he h1 h2 ih =>
      obtain ⟨x, hx, rfl⟩ := List.mem_map.1 he
      rw [hf.dst]
      rw [hf.src] at h1
      rw [hf.way] at h2
      exact .step ih x hx h1 h2
  · intro h
    induction h with
    | refl => exact .refl _
    | step _ e he h1 h2 ih =>
      rw [← hf.dst]
      exact .step ih (f e) (List.mem_map.2 ⟨e, he, rfl⟩) (by rw [hf.src]; exact h1) (by rw [hf.way]; exact h2)

theorem Mild.rulesIn {res : R Nat (Nat × Nat) W} (h : RulesIn es res) : RulesIn (es.map f) res := by
  have hm : ∀ v x, Marked es v x → Marked (es.map f) v x := by
    rintro v x ⟨e, he, h1, h2, h3⟩
    exact ⟨f e, List.mem_map.2 ⟨e, he, rfl⟩, by rw [hf.src, hf.dst]; exact h1, by rw [hf.restr]; exact h2,
      by rw [hf.src, hf.dst]; exact h3⟩
  intro v r hr
  exact ⟨hm v _ (h v r hr).1, fun x hx => hm v x ((h v r hr).2 x hx)⟩
end

/-! ### splitting -/

theorem noOpp_split (v : Env P S W D) (o : Nat) (st : St P S W) (hI : Inv st) (e : Edg Nat P) (he : e ∈ st.es) (g : P)
    (h : NoOpp st.es) : NoOpp (split v o st e g).es := by
  have hm := mem_split v o st hI e he g
  have hl := hI.lt e he
  have hne := hI.loop e he
  intro x hx y hy h1 h2
  rcases (hm x).1 hx with ⟨hx, _⟩ | rfl | rfl <;> rcases (hm y).1 hy with ⟨hy, _⟩ | rfl | rfl
  · exact h x hx y hy h1 h2
  · have h1 : e.src = x.dst := h1
    have h2 : st.next = x.src := h2
    have := hI.lt x hx
    omega
  · have h1 : st.next = x.dst := h1
    have := hI.lt x hx
    omega
  · have h1 : y.src = st.next := h1
    have := hI.lt y hy
    omega
  · rfl
  · have h2 : e.dst = e.src := h2
    exact absurd h2.symm hne
  · have h2 : y.dst = st.next := h2
    have := hI.lt y hy
    omega
  · have h1 : e.src = e.dst := h1
    exact absurd h1 hne
  · rfl

theorem marks_split (v : Env P S W D) (o : Nat) (st : St P S W) (hI : Inv st) (e : Edg Nat P) (he : e ∈ st.es) (g : P)
    (h : Marks st.es) : Marks (split v o st e g).es := by
  have hlt := hI.lt
  -- old edges
  have hold : ∀ x ∈ st.es, ∀ y, y ∈ (split v o st e g).es → (x.src = y.src ∨ x.src = y.dst ∨ x.dst = y.src ∨ x.dst = y.dst) →
      x.a.oneWay ≠ 0 → y.a.oneWay ≠ 0 → x.a.oneWay = y.a.oneWay := by
    intro x hx y hy hs
    have hx' := hlt x hx
    rcases (mem_split v o st hI e he g y).1 hy with ⟨hy, _⟩ | rfl | rfl
    · exact h x hx y hy hs
    · refine h x hx e he ?_
      have hs : x.src = e.src ∨ x.src = st.next ∨ x.dst = e.src ∨ x.dst = st.next := hs
      rcases hs with k | k | k | k
      · exact Or.inl k
      · omega
      · exact Or.inr (Or.inr (Or.inl k))
      · omega
    · refine h x hx e he ?_
      have hs : x.src = st.next ∨ x.src = e.dst ∨ x.dst = st.next ∨ x.dst = e.dst := hs
      rcases hs with k | k | k | k
      · omega
      · exact Or.inr (Or.inl k)
      · omega
      · exact Or.inr (Or.inr (Or.inr k))
  intro x hx y hy hs h1 h2
  rcases (mem_split v o st hI e he g x).1 hx with ⟨hx', _⟩ | hxe
  · exact hold x hx' y hy hs h1 h2
  · rcases (mem_split v o st hI e he g y).1 hy with ⟨hy', _⟩ | hye
    · refine (hold y hy' x hx ?_ h2 h1).symm
      rcases hs with k | k | k | k <;> simp [k]
    · have hxw : x.a.oneWay = e.a.oneWay := by rcases hxe with rfl | rfl <;> rfl
      have hyw : y.a.oneWay = e.a.oneWay := by rcases hye with rfl | rfl <;> rfl
      rw [hxw, hyw]

theorem rulesIn_split (v : Env P S W D) (o : Nat) (st : St P S W) (hI : Inv st) (e : Edg Nat P) (he : e ∈ st.es) (g : P)
    (h : RulesIn st.es st.res) : RulesIn (split v o st e g).es (split v o st e g).res := by
  have hm := mem_split v o st hI e he g
  have hloop := hI.loop e he
  have hne : ∀ w x, Marked st.es w x → x ≠ (e.src, e.dst) → Marked (split v o st e g).es w x := by
    rintro w x ⟨f, hf, h1, h2, h3⟩ hx
    exact ⟨f, (hm f).2 (Or.inl ⟨hf, by rintro rfl; exact hx h1.symm⟩), h1, h2, h3⟩
  -- a rule at one of the ends
  have hat : ∀ w new, (w = e.src ∧ new = (e.src, st.next)) ∨ (w = e.dst ∧ new = (st.next, e.dst)) → ∀ x, Marked st.es w x →
      Marked (split v o st e g).es w (if x = (e.src, e.dst) then new else x) := by
    intro w new hw x hx
    by_cases hxe : x = (e.src, e.dst)
    · rw [if_pos hxe]
      obtain ⟨f, hf, h1, h2, _⟩ := hx
      have hfe : f = e := by
        rw [hxe] at h1
        exact uniq_eq hI.uniq hf he (Prod.mk.inj h1).1 (Prod.mk.inj h1).2
      subst hfe
      rcases hw with ⟨rfl, rfl⟩ | ⟨rfl, rfl⟩
      · exact ⟨neOf v st f g, (hm _).2 (Or.inr (Or.inl rfl)), rfl, h2, Or.inl rfl⟩
      · exact ⟨nfOf v st f g, (hm _).2 (Or.inr (Or.inr rfl)), rfl, h2, Or.inr rfl⟩
    · rw [if_neg hxe]
      exact hne w x hx hxe
  have hin : ∀ w new, (w = e.src ∧ new = (e.src, st.next)) ∨ (w = e.dst ∧ new = (st.next, e.dst)) → ∀ rs : RuleVec (Nat × Nat),
      (∀ r ∈ rs, Marked st.es w r.1 ∧ ∀ x, r.2 = some x → Marked st.es w x) → ∀ r ∈ replaceIn (e.src, e.dst) new rs,
      Marked (split v o st e g).es w r.1 ∧ ∀ x, r.2 = some x → Marked (split v o st e g).es w x := by
    intro w new hw rs hrs r hr
    unfold replaceIn at hr
    obtain ⟨r0, hr0, rfl⟩ := List.mem_map.1 hr
    obtain ⟨k1, k2⟩ := hrs r0 hr0
    refine ⟨hat w new hw _ k1, ?_⟩
    intro x hx
    simp only at hx
    by_cases h2 : r0.2 = some (e.src, e.dst)
    · rw [if_pos h2] at hx
      have := hat w new hw _ (k2 _ h2)
      rw [if_pos rfl] at this
      cases hx
      exact this
    · rw [if_neg h2] at hx
      have := hat w new hw x (k2 x hx)
      rwa [if_neg (by rintro rfl; exact h2 hx)] at this
  intro w r hr
  have hr : r ∈ (st.res.replaceEdge ends (e.src, e.dst) (e.src, st.next) (st.next, e.dst)).pos w ∨
      r ∈ (st.res.replaceEdge ends (e.src, e.dst) (e.src, st.next) (st.next, e.dst)).neg w := hr
  obtain ⟨k1, k2⟩ := replaceEdge_pos st.res e.src e.dst st.next hloop w
  rw [k1, k2] at hr
  by_cases h1 : w = e.src
  · rw [if_pos h1, if_pos h1] at hr
    rcases hr with hr | hr
    · exact hin w _ (Or.inl ⟨h1, rfl⟩) _ (fun r hr => h w r (Or.inl hr)) r hr
    · exact hin w _ (Or.inl ⟨h1, rfl⟩) _ (fun r hr => h w r (Or.inr hr)) r hr
  · rw [if_neg h1, if_neg h1] at hr
    by_cases h2 : w = e.dst
    · rw [if_pos h2, if_pos h2] at hr
      rcases hr with hr | hr
      · exact hin w _ (Or.inr ⟨h2, rfl⟩) _ (fun r hr => h w r (Or.inl hr)) r hr
      · exact hin w _ (Or.inr ⟨h2, rfl⟩) _ (fun r hr => h w r (Or.inr hr)) r hr
    · rw [if_neg h2, if_neg h2] at hr
      have hx : ∀ x, Marked st.es w x → x ≠ (e.src, e.dst) := by
        rintro x ⟨f, hf, q1, q2, q3⟩ rfl
        obtain ⟨q4, q5⟩ := Prod.mk.inj q1
        rcases q3 with q3 | q3
        · exact h1 (q3.trans q4)
        · exact h2 (q3.trans q5)
      obtain ⟨m1, m2⟩ := h w r hr
      exact ⟨hne w _ m1 (hx _ m1), fun x hxx => hne w x (m2 x hxx) (hx x (m2 x hxx))⟩

/-! ### collapsing -/

structure Coll (es es' : List (Edg Nat P)) (part : Nat × Nat → Nat → Nat × Nat) : Prop where
  touched : ∀ x, Touched es' x → Touched es x
  cont : ∀ e ∈ es, ∀ w, w = e.src ∨ w = e.dst → Touched es' w → ∃ f ∈ es', part (e.src, e.dst) w = (f.src, f.dst) ∧
    (w = f.src ∨ w = f.dst) ∧ f.lines = e.lines ∧ f.a.lvl = e.a.lvl ∧ f.a.restr = e.a.restr ∧ (e.a.restr = true → f = e) ∧
    (In e w → In f w) ∧ (Out e w → Out f w)
  onto : ∀ f ∈ es', ∀ w, w = f.src ∨ w = f.dst → ∃ e ∈ es, (w = e.src ∨ w = e.dst) ∧ part (e.src, e.dst) w = (f.src, f.dst)
  rest : ∀ e ∈ es, e.a.restr = true → e ∈ es'
  back : ∀ f ∈ es', f.a.restr = true → f ∈ es

theorem Coll.refl (es : List (Edg Nat P)) : Coll es es (fun x _ => x) :=
  ⟨fun _ h => h, fun e he w hw _ => ⟨e, he, rfl, hw, rfl, rfl, rfl, fun _ => rfl, id, id⟩, fun f hf w hw => ⟨f, hf, hw, rfl⟩,
    fun _ h _ => h, fun _ h _ => h⟩

theorem Coll.trans {es es' es'' : List (Edg Nat P)} {c c' : Nat × Nat → Nat → Nat × Nat} (h : Coll es es' c) (h' : Coll es' es'' c') :
    Coll es es'' (fun x w => c' (c x w) w) := by
  refine ⟨fun x hx => h.touched x (h'.touched x hx), ?_, ?_, fun e he hr => h'.rest e (h.rest e he hr) hr,
    fun f hf hr => h.back f (h'.back f hf hr) hr⟩
  · intro e he w hw ht
    obtain ⟨f, hf, a1, a2, a3, a4, a5, a6, a7, a8⟩ := h.cont e he w hw (h'.touched w ht)
    obtain ⟨g, hg, b1, b2, b3, b4, b5, b6, b7, b8⟩ := h'.cont f hf w a2 ht
    refine ⟨g, hg, by simp only [a1, b1], b2, b3.trans a3, b4.trans a4, b5.trans a5, fun hr => ?_, fun k => b7 (a7 k), fun k => b8 (a8 k)⟩
    rw [b6 (by rw [a5]; exact hr), a6 hr]
  · intro g hg w hw
    obtain ⟨f, hf, b1, b2⟩ := h'.onto g hg w hw
    obtain ⟨e, he, a1, a2⟩ := h.onto f hf w b1
    exact ⟨e, he, a1, by simp only [a2, b2]⟩

theorem coll_step {g : Nodes Nat P} {es es' : List (Edg Nat P)} {n : Nat} {p q : Edg Nat P} (Sp : Step g es n p q es')
    (hm : Marks es) :
    Coll es es' (fun x _ => if x = (p.src, p.dst) ∨ x = (q.src, q.dst) then (p.oth n, q.oth n) else x) := by
  have hmm : merged g.pos n p q ∈ es' := (Sp.mem _).2 (Or.inl rfl)
  have hp : p.src = n ∨ p.dst = n := by rcases Sp.pe with h | h; exact Or.inl h.1; exact Or.inr h.1
  have hq : q.src = n ∨ q.dst = n := by rcases Sp.qe with h | h; exact Or.inl h.1; exact Or.inr h.1
  have hway := Sp.eqWay hm
  have hend : ∀ (x : Edg Nat P) (w : Nat), ((x.src = n ∧ x.dst ≠ n) ∨ (x.dst = n ∧ x.src ≠ n)) → w ≠ n → (w = x.src ∨ w = x.dst) → w = x.oth n := by
    intro x w hx hwn hw
    rcases hx with ⟨h1, h2⟩ | ⟨h1, h2⟩
    · rw [oth_src h1]
      rcases hw with h | h
      · exact absurd (h.trans h1) hwn
      · exact h
    · rw [oth_dst h2]
      rcases hw with h | h
      · exact h
      · exact absurd (h.trans h1) hwn
  refine ⟨?_, ?_, ?_, ?_, ?_⟩
  · intro x hx
    have : x ≠ n := by rintro rfl; exact Sp.gone hx
    exact (Sp.touched x this).1 hx
  · intro e he w hw ht
    have hwn : w ≠ n := by rintro rfl; exact Sp.gone ht
    by_cases hn : e.src = n ∨ e.dst = n
    · have hms : (merged g.pos n p q).src = p.oth n := rfl
      have hmd : (merged g.pos n p q).dst = q.oth n := rfl
      have hma : (merged g.pos n p q).a = p.a := rfl
      have hml : (merged g.pos n p q).lines = p.lines := rfl
      have hkey : (if (e.src, e.dst) = (p.src, p.dst) ∨ (e.src, e.dst) = (q.src, q.dst) then (p.oth n, q.oth n) else (e.src, e.dst)) =
          (p.oth n, q.oth n) := by
        rw [if_pos]
        rcases Sp.all e he hn with rfl | rfl
        · exact Or.inl rfl
        · exact Or.inr rfl
      have hin : w = p.oth n ∨ w = q.oth n := by
        rcases Sp.all e he hn with rfl | rfl
        · exact Or.inl (hend _ w Sp.pe hwn hw)
        · exact Or.inr (hend _ w Sp.qe hwn hw)
      have h0 : p.a.oneWay = 0 → In (merged g.pos n p q) w ∧ Out (merged g.pos n p q) w := by
        intro h0
        unfold In Out
        rw [hms, hmd, hma, h0]
        rcases hin with h | h
        · exact ⟨Or.inr ⟨h.symm, by decide⟩, Or.inl ⟨h.symm, by decide⟩⟩
        · exact ⟨Or.inl ⟨h.symm, by decide⟩, Or.inr ⟨h.symm, by decide⟩⟩
      have h1 : p.a.oneWay ≠ 0 → p.dst = n ∧ p.oth n = p.src ∧ q.src = n ∧ q.oth n = q.dst := by
        intro h1
        obtain ⟨d1, d2⟩ := Sp.dir h1
        refine ⟨d1, ?_, d2, oth_src d2⟩
        rcases Sp.pe with h | h
        · exact absurd d1 h.2
        · exact oth_dst h.2
      refine ⟨_, hmm, hkey, hin.imp (fun h => h) (fun h => h), ?_, ?_, ?_, ?_, ?_, ?_⟩
      · rw [hml]
        rcases Sp.all e he hn with rfl | rfl
        · rfl
        · exact Sp.lines
      · rw [hma]
        rcases Sp.all e he hn with rfl | rfl
        · rfl
        · exact Sp.lvl
      · rw [hma, Sp.restr.1]
        rcases Sp.all e he hn with rfl | rfl
        · exact Sp.restr.1.symm
        · exact Sp.restr.2.symm
      · intro hr
        rcases Sp.all e he hn with rfl | rfl
        · rw [Sp.restr.1] at hr; cases hr
        · rw [Sp.restr.2] at hr; cases hr
      · intro hI
        by_cases k : p.a.oneWay = 0
        · exact (h0 k).1
        · obtain ⟨k1, k2, k3, k4⟩ := h1 k
          rcases Sp.all e he hn with rfl | rfl
          · rcases hI with ⟨h, _⟩ | ⟨h, h'⟩
            · exact absurd (h.symm.trans k1) hwn
            · exact Or.inr ⟨by rw [hms, k2]; exact h, h'⟩
          · rcases hI with ⟨h, h'⟩ | ⟨h, _⟩
            · exact Or.inl ⟨by rw [hmd, k4]; exact h, by rw [hma, hway]; exact h'⟩
            · exact absurd (h.symm.trans k3) hwn
      · intro hO
        by_cases k : p.a.oneWay = 0
        · exact (h0 k).2
        · obtain ⟨k1, k2, k3, k4⟩ := h1 k
          rcases Sp.all e he hn with rfl | rfl
          · rcases hO with ⟨h, h'⟩ | ⟨h, _⟩
            · exact Or.inl ⟨by rw [hms, k2]; exact h, h'⟩
            · exact absurd (h.symm.trans k1) hwn
          · rcases hO with ⟨h, _⟩ | ⟨h, h'⟩
            · exact absurd (h.symm.trans k3) hwn
            · exact Or.inr ⟨by rw [hmd, k4]; exact h, by rw [hma, hway]; exact h'⟩
    · refine ⟨e, (Sp.mem e).2 (Or.inr ⟨he, fun h => hn (Or.inl h), fun h => hn (Or.inr h)⟩), ?_, hw, rfl, rfl, rfl, fun _ => rfl, id, id⟩
      rw [if_neg]
      rintro (h | h)
      · obtain ⟨k1, k2⟩ := Prod.mk.inj h
        rw [← k1, ← k2] at hp
        exact hn hp
      · obtain ⟨k1, k2⟩ := Prod.mk.inj h
        rw [← k1, ← k2] at hq
        exact hn hq
  · intro f hf w hw
    rcases (Sp.mem f).1 hf with rfl | ⟨hf, h1, h2⟩
    · rcases hw with h | h
      · have h : w = p.oth n := h
        refine ⟨p, Sp.pm, ?_, by rw [if_pos (Or.inl rfl)]; rfl⟩
        rcases Sp.pe with ⟨k1, k2⟩ | ⟨k1, k2⟩
        · rw [oth_src k1] at h; exact Or.inr h
        · rw [oth_dst k2] at h; exact Or.inl h
      · have h : w = q.oth n := h
        refine ⟨q, Sp.qm, ?_, by rw [if_pos (Or.inr rfl)]; rfl⟩
        rcases Sp.qe with ⟨k1, k2⟩ | ⟨k1, k2⟩
        · rw [oth_src k1] at h; exact Or.inr h
        · rw [oth_dst k2] at h; exact Or.inl h
    · refine ⟨f, hf, hw, ?_⟩
      rw [if_neg]
      rintro (h | h)
      · obtain ⟨k1, k2⟩ := Prod.mk.inj h
        rw [← k1, ← k2] at hp
        exact hp.elim h1 h2
      · obtain ⟨k1, k2⟩ := Prod.mk.inj h
        rw [← k1, ← k2] at hq
        exact hq.elim h1 h2
  · intro e he hr
    refine (Sp.mem e).2 (Or.inr ⟨he, ?_, ?_⟩)
    · intro h
      rcases Sp.all e he (Or.inl h) with rfl | rfl
      · rw [Sp.restr.1] at hr; cases hr
      · rw [Sp.restr.2] at hr; cases hr
    · intro h
      rcases Sp.all e he (Or.inr h) with rfl | rfl
      · rw [Sp.restr.1] at hr; cases hr
      · rw [Sp.restr.2] at hr; cases hr
  · intro f hf hr
    rcases (Sp.mem f).1 hf with rfl | h
    · have hr : p.a.restr = true := hr
      rw [Sp.restr.1] at hr; cases hr
    · exact h.1

theorem noOpp_step {g : Nodes Nat P} {es es' : List (Edg Nat P)} {n : Nat} {p q : Edg Nat P} (Sp : Step g es n p q es')
    (h : NoOpp es) : NoOpp es' := by
  intro x hx y hy h1 h2
  rcases (Sp.mem x).1 hx with rfl | ⟨hx, _⟩ <;> rcases (Sp.mem y).1 hy with rfl | ⟨hy, _⟩
  · rfl
  · exact absurd ⟨h1, h2⟩ (Sp.free y hy).2
  · exact absurd ⟨h2.symm, h1.symm⟩ (Sp.free x hx).2
  · exact h x hx y hy h1 h2

theorem collapse_coll (g : Nodes Nat P) (nds : List Nat) (es : List (Edg Nat P)) (hu : Uniq es) (hm : Marks es) (ho : NoOpp es) :
    Uniq (nds.foldl (collapseAt g) es) ∧ Marks (nds.foldl (collapseAt g) es) ∧ NoOpp (nds.foldl (collapseAt g) es) ∧
    ∃ part, Coll es (nds.foldl (collapseAt g) es) part := by
  induction nds generalizing es with
  | nil => exact ⟨hu, hm, ho, _, .refl es⟩
  | cons n nds ih =>
    rw [List.foldl_cons]
    rcases collapseAt_spec g es hu n with h | ⟨p, q, Sp⟩
    · rw [h]; exact ih es hu hm ho
    · obtain ⟨i1, i2, i3, part, i4⟩ := ih _ Sp.uniq (Sp.marks hm) (noOpp_step Sp ho)
      exact ⟨i1, i2, i3, _, (coll_step Sp hm).trans i4⟩

theorem Coll.rulesIn {es es' : List (Edg Nat P)} {part : Nat × Nat → Nat → Nat × Nat} (h : Coll es es' part) {res : R Nat (Nat × Nat) W}
    (hr : RulesIn es res) : RulesIn es' res := by
  have hm : ∀ v x, Marked es v x → Marked es' v x := by
    rintro v x ⟨e, he, h1, h2, h3⟩
    exact ⟨e, h.rest e he h2, h1, h2, h3⟩
  intro v r hr'
  exact ⟨hm v _ (hr v r hr').1, fun x hx => hm v x ((hr v r hr').2 x hx)⟩

/-! ### edges without rules -/

theorem mayPos_nofrom {fr to : Nat × Nat} {rs : RuleVec (Nat × Nat)} (h : ∀ r ∈ rs, r.1 ≠ fr) : mayPos fr to rs = none := by
  induction rs with
  | nil => rfl
  | cons r rs ih =>
    have h1 := h r (by simp)
    simp only [mayPos, h1, false_and, if_false]
    exact ih (fun x hx => h x (by simp [hx]))

theorem mayNeg_nofrom {fr to : Nat × Nat} {rs : RuleVec (Nat × Nat)} (h : ∀ r ∈ rs, r.1 ≠ fr) : mayNeg fr to rs = true := by
  induction rs with
  | nil => rfl
  | cons r rs ih =>
    have h1 := h r (by simp)
    simp only [mayNeg, h1, false_and, if_false]
    exact ih (fun x hx => h x (by simp [hx]))

theorem mayPos_noto {fr to to' : Nat × Nat} {rs : RuleVec (Nat × Nat)} (h : ∀ r ∈ rs, r.2 ≠ some to ∧ r.2 ≠ some to') :
    mayPos fr to rs = mayPos fr to' rs := by
  induction rs with
  | nil => rfl
  | cons r rs ih =>
    obtain ⟨h1, h2⟩ := h r (by simp)
    simp only [mayPos, h1, h2, ne_eq, not_false_eq_true, and_true, and_false, if_false]
    rw [ih (fun x hx => h x (by simp [hx]))]

theorem mayNeg_noto {fr to to' : Nat × Nat} {rs : RuleVec (Nat × Nat)} (h : ∀ r ∈ rs, r.2 ≠ some to ∧ r.2 ≠ some to') :
    mayNeg fr to rs = mayNeg fr to' rs := by
  induction rs with
  | nil => rfl
  | cons r rs ih =>
    obtain ⟨h1, h2⟩ := h r (by simp)
    simp only [mayNeg, h1, h2, and_false, if_false]
    exact ih (fun x hx => h x (by simp [hx]))

theorem may_nofrom {res : R Nat (Nat × Nat) W} {es : List (Edg Nat P)} (hr : RulesIn es res) {w : Nat} {fr to : Nat × Nat}
    (h : ¬ Marked es w fr) : res.may fr to w = true := by
  have h1 : ∀ r ∈ res.pos w, r.1 ≠ fr := fun r hr' hh => h (hh ▸ (hr w r (Or.inl hr')).1)
  have h2 : ∀ r ∈ res.neg w, r.1 ≠ fr := fun r hr' hh => h (hh ▸ (hr w r (Or.inr hr')).1)
  unfold R.may
  rw [mayPos_nofrom h1]
  exact mayNeg_nofrom h2

theorem may_noto {res : R Nat (Nat × Nat) W} {es : List (Edg Nat P)} (hr : RulesIn es res) {w : Nat} {fr to to' : Nat × Nat}
    (h : ¬ Marked es w to) (h' : ¬ Marked es w to') : res.may fr to w = res.may fr to' w := by
  have h1 : ∀ r ∈ res.pos w, r.2 ≠ some to ∧ r.2 ≠ some to' := fun r hr' =>
    ⟨fun hh => h ((hr w r (Or.inl hr')).2 _ hh), fun hh => h' ((hr w r (Or.inl hr')).2 _ hh)⟩
  have h2 : ∀ r ∈ res.neg w, r.2 ≠ some to ∧ r.2 ≠ some to' := fun r hr' =>
    ⟨fun hh => h ((hr w r (Or.inr hr')).2 _ hh), fun hh => h' ((hr w r (Or.inr hr')).2 _ hh)⟩
  unfold R.may
  rw [mayPos_noto h1, mayNeg_noto h2]

theorem not_marked {es : List (Edg Nat P)} (hu : Uniq es) {e : Edg Nat P} (he : e ∈ es) (h : e.a.restr = false) (w : Nat) :
    ¬ Marked es w (e.src, e.dst) := by
  rintro ⟨f, hf, h1, h2, _⟩
  have := uniq_eq hu hf he (Prod.mk.inj h1).1 (Prod.mk.inj h1).2
  subst this
  rw [h] at h2
  cases h2

theorem Coll.turns {es es' : List (Edg Nat P)} {part : Nat × Nat → Nat → Nat × Nat} (h : Coll es es' part) {res : R Nat (Nat × Nat) W}
    (hr : RulesIn es res) (hu : Uniq es) (hu' : Uniq es') (w : Nat) (ht : Touched es' w) (e f : Edg Nat P) (he : e ∈ es) (hf : f ∈ es)
    (hwe : w = e.src ∨ w = e.dst) (hwf : w = f.src ∨ w = f.dst) :
    res.may (part (e.src, e.dst) w) (part (f.src, f.dst) w) w = res.may (e.src, e.dst) (f.src, f.dst) w := by
  have hr' := h.rulesIn hr
  obtain ⟨e', he', a1, _, _, _, a5, a6, _, _⟩ := h.cont e he w hwe ht
  obtain ⟨f', hf', b1, _, _, _, b5, b6, _, _⟩ := h.cont f hf w hwf ht
  rw [a1, b1]
  cases hre : e.a.restr with
  | false =>
    rw [may_nofrom hr (not_marked hu he hre w), may_nofrom hr' (not_marked hu' he' (a5.trans hre) w)]
  | true =>
    rw [a6 hre]
    cases hrf : f.a.restr with
    | true => rw [b6 hrf]
    | false =>
      refine (may_noto hr (not_marked hu hf hrf w) ?_).symm
      rintro ⟨x, hx, h1, h2, h3⟩
      exact not_marked hu' hf' (b5.trans hrf) w ⟨x, h.rest x hx h2, h1, h2, h3⟩


/-! ### reverse edges -/

theorem oDir_fst (c : List (Edg Nat P) × R Nat (Nat × Nat) W) (e : Edg Nat P) : (oDir c e).1 = oDirEdge c.1 e := by
  unfold oDir oDirEdge
  cases getEdg c.1 e.dst e.src <;> rfl

/-- The edge to arrive at `v` by, to leave `v` by, if there is one in the opposite direction of `k` in `es`. -/
def arrE (es : List (Edg Nat P)) (v : Nat) (k : Nat × Nat) : Nat × Nat :=
  if k.2 ≠ v ∧ (getEdg es k.2 k.1).isSome = true then (k.2, k.1) else k
def leaE (es : List (Edg Nat P)) (v : Nat) (k : Nat × Nat) : Nat × Nat :=
  if k.1 ≠ v ∧ (getEdg es k.2 k.1).isSome = true then (k.2, k.1) else k

/-- All rules rewritten for the reverse edges in `es`. -/
def tw (es : List (Edg Nat P)) (v : Nat) (r : (Nat × Nat) × Option (Nat × Nat)) : (Nat × Nat) × Option (Nat × Nat) :=
  (arrE es v r.1, r.2.map (leaE es v))

structure Dup (es0 : List (Edg Nat P)) (r0 : R Nat (Nat × Nat) W) (c : List (Edg Nat P) × R Nat (Nat × Nat) W) : Prop where
  twins : Twins es0 c.1
  pos : ∀ v, c.2.pos v = (r0.pos v).map (tw c.1 v)
  neg : ∀ v, c.2.neg v = (r0.neg v).map (tw c.1 v)

theorem dupEdge_pos (r : R Nat (Nat × Nat) W) (a b : Nat) (hab : a ≠ b) (v : Nat) :
    (r.duplicateEdge ends (a, b) (b, a)).pos v = (if v = a ∨ v = b then duplicateIn ends (a, b) v (b, a) (r.pos v) else r.pos v) ∧
    (r.duplicateEdge ends (a, b) (b, a)).neg v = (if v = a ∨ v = b then duplicateIn ends (a, b) v (b, a) (r.neg v) else r.neg v) := by
  unfold R.duplicateEdge R.duplicateAt
  simp only [ends, Restrictor.upd]
  by_cases h1 : v = a
  · subst h1; simp [hab]
  · by_cases h2 : v = b
    · subst h2; simp [h1]
    · simp [h1, h2]

theorem dup_step {es0 : List (Edg Nat P)} {r0 : R Nat (Nat × Nat) W} (hu : Uniq es0) (hr : RulesIn es0 r0)
    (c : List (Edg Nat P) × R Nat (Nat × Nat) W) (h : Dup es0 r0 c) (e : Edg Nat P) (he : e ∈ c.1) : Dup es0 r0 (oDir c e) := by
  have ht : Twins es0 (oDir c e).1 := by
    rw [oDir_fst]
    exact (oDir_step h.twins e he).1
  cases hg : getEdg c.1 e.dst e.src with
  | some x =>
    have : oDir c e = c := by unfold oDir; rw [hg]
    rw [this]; exact h
  | none =>
    have hno : ∀ x ∈ c.1, ¬ (x.src = e.dst ∧ x.dst = e.src) := by
      intro x hx hh
      have : (getEdg c.1 e.dst e.src).isSome = true := getEdg_isSome.mpr ⟨x, hx, hh⟩
      rw [hg] at this; cases this
    obtain ⟨new, hn, hnew⟩ := h.twins.kept
    have hsub : ∀ x ∈ es0, x ∈ c.1 := fun x hx => by rw [hn]; exact List.mem_append_left _ hx
    have he0 : e ∈ es0 := by
      rw [hn] at he
      rcases List.mem_append.1 he with he | he
      · exact he
      · obtain ⟨d, hd, rfl, _⟩ := hnew e he
        exact absurd ⟨rfl, rfl⟩ (hno d (hsub d hd))
    have hloop : e.src ≠ e.dst := fun hl => hno e he ⟨hl, hl.symm⟩
    have hc : oDir c e = (c.1 ++ [e.rev], if e.a.restr then c.2.duplicateEdge ends (e.src, e.dst) (e.dst, e.src) else c.2) := by
      unfold oDir
      rw [hg]
      have : addEdg c.1 e.rev = c.1 ++ [e.rev] := by
        unfold addEdg
        rw [show getEdg c.1 e.rev.src e.rev.dst = none from hg]
      simp only [this]
    have hsome : ∀ k : Nat × Nat, k ≠ (e.src, e.dst) → (getEdg (c.1 ++ [e.rev]) k.2 k.1).isSome = (getEdg c.1 k.2 k.1).isSome := by
      intro k hk
      rw [Bool.eq_iff_iff, getEdg_isSome, getEdg_isSome]
      constructor
      · rintro ⟨x, hx, h1, h2⟩
        rcases List.mem_append.1 hx with hx | hx
        · exact ⟨x, hx, h1, h2⟩
        · rw [List.mem_singleton.1 hx] at h1 h2
          exact absurd (Prod.ext h2.symm h1.symm) hk
      · rintro ⟨x, hx, h1⟩
        exact ⟨x, List.mem_append_left _ hx, h1⟩
    have hthis : (getEdg (c.1 ++ [e.rev]) e.dst e.src).isSome = true := getEdg_isSome.mpr ⟨e.rev, by simp, rfl, rfl⟩
    -- what the pass does to a marked edge
    have hrest : ∀ v k, Marked es0 v k → ¬ (e.a.restr = true ∧ (v = e.src ∨ v = e.dst)) → k ≠ (e.src, e.dst) := by
      rintro v k ⟨x, hx, h1, h2, h3⟩ hnot rfl
      have hxe := uniq_eq hu hx he0 (Prod.mk.inj h1).1 (Prod.mk.inj h1).2
      subst hxe
      exact hnot ⟨h2, h3⟩
    have hswap : ∀ v k, Marked es0 v k → (k.2, k.1) ≠ (e.src, e.dst) := by
      rintro v k ⟨x, hx, h1, _, _⟩ hk
      obtain ⟨k1, k2⟩ := Prod.mk.inj hk
      exact hno x (hsub x hx) ⟨by rw [← h1] at k2; exact k2, by rw [← h1] at k1; exact k1⟩
    have hA : ∀ v k, Marked es0 v k → e.a.restr = true → (v = e.src ∨ v = e.dst) →
        arrive ends (e.src, e.dst) (e.dst, e.src) v (arrE c.1 v k) = arrE (c.1 ++ [e.rev]) v k ∧
        leave ends (e.src, e.dst) (e.dst, e.src) v (leaE c.1 v k) = leaE (c.1 ++ [e.rev]) v k := by
      intro v k hk hre hv
      by_cases hke : k = (e.src, e.dst)
      · subst hke
        unfold arrE leaE arrive leave
        simp only [hg, hthis, ends, Option.isSome_none, Bool.false_eq_true, and_false, if_false, true_and, and_true]
      · have h1 : arrE (c.1 ++ [e.rev]) v k = arrE c.1 v k := by unfold arrE; rw [hsome k hke]
        have h2 : leaE (c.1 ++ [e.rev]) v k = leaE c.1 v k := by unfold leaE; rw [hsome k hke]
        rw [h1, h2]
        have h3 : arrE c.1 v k ≠ (e.src, e.dst) := by
          unfold arrE; split
          · exact hswap v k hk
          · exact hke
        have h4 : leaE c.1 v k ≠ (e.src, e.dst) := by
          unfold leaE; split
          · exact hswap v k hk
          · exact hke
        unfold arrive leave
        rw [if_neg (fun h => h3 h.1), if_neg (fun h => h4 h.1)]
        exact ⟨rfl, rfl⟩
    have hB : ∀ v k, Marked es0 v k → ¬ (e.a.restr = true ∧ (v = e.src ∨ v = e.dst)) →
        arrE c.1 v k = arrE (c.1 ++ [e.rev]) v k ∧ leaE c.1 v k = leaE (c.1 ++ [e.rev]) v k := by
      intro v k hk hv
      have hke := hrest v k hk hv
      unfold arrE leaE
      rw [hsome k hke]
      exact ⟨rfl, rfl⟩
    -- one list of rules
    have hL : ∀ v (rs : RuleVec (Nat × Nat)), (∀ r ∈ rs, Marked es0 v r.1 ∧ ∀ x, r.2 = some x → Marked es0 v x) →
        (if e.a.restr = true ∧ (v = e.src ∨ v = e.dst) then duplicateIn ends (e.src, e.dst) v (e.dst, e.src) (rs.map (tw c.1 v))
          else rs.map (tw c.1 v)) = rs.map (tw (c.1 ++ [e.rev]) v) := by
      intro v rs hrs
      by_cases hcond : e.a.restr = true ∧ (v = e.src ∨ v = e.dst)
      · rw [if_pos hcond, duplicateIn_eq, List.map_map]
        apply List.map_congr_left
        rintro ⟨a, b⟩ hr
        obtain ⟨m1, m2⟩ := hrs _ hr
        simp only [Function.comp, tw, (hA v a m1 hcond.1 hcond.2).1]
        cases b with
        | none => rfl
        | some x => simp only [Option.map, (hA v x (m2 x rfl) hcond.1 hcond.2).2]
      · rw [if_neg hcond]
        apply List.map_congr_left
        rintro ⟨a, b⟩ hr
        obtain ⟨m1, m2⟩ := hrs _ hr
        simp only [tw, ← (hB v a m1 hcond).1]
        cases b with
        | none => rfl
        | some x => simp only [Option.map, ← (hB v x (m2 x rfl) hcond).2]
    refine ⟨ht, ?_, ?_⟩
    · intro v
      rw [hc, ← hL v (r0.pos v) (fun r hr' => hr v r (Or.inl hr')), ← h.pos v]
      by_cases hre : e.a.restr = true
      · simp only [hre, if_true, true_and]
        exact (dupEdge_pos c.2 e.src e.dst hloop v).1
      · simp [hre]
    · intro v
      rw [hc, ← hL v (r0.neg v) (fun r hr' => hr v r (Or.inr hr')), ← h.neg v]
      by_cases hre : e.a.restr = true
      · simp only [hre, if_true, true_and]
        exact (dupEdge_pos c.2 e.src e.dst hloop v).2
      · simp [hre]

theorem dup_inner {es0 : List (Edg Nat P)} {r0 : R Nat (Nat × Nat) W} (hu : Uniq es0) (hr : RulesIn es0 r0) (l : List (Edg Nat P))
    (c : List (Edg Nat P) × R Nat (Nat × Nat) W) (h : Dup es0 r0 c) (hl : ∀ e ∈ l, e ∈ c.1) :
    Dup es0 r0 (l.foldl oDir c) := by
  induction l generalizing c with
  | nil => exact h
  | cons e l ih =>
    rw [List.foldl_cons]
    refine ih _ (dup_step hu hr c h e (hl e (by simp))) fun x hx => ?_
    rw [oDir_fst]
    exact (oDir_step h.twins e (hl e (by simp))).2.2.1 x (hl x (by simp [hx]))

theorem dup_outer {es0 : List (Edg Nat P)} {r0 : R Nat (Nat × Nat) W} (hu : Uniq es0) (hr : RulesIn es0 r0) (nds : List Nat)
    (c : List (Edg Nat P) × R Nat (Nat × Nat) W) (h : Dup es0 r0 c) : Dup es0 r0 (writeODirR nds c) := by
  unfold writeODirR
  induction nds generalizing c with
  | nil => exact h
  | cons n nds ih =>
    rw [List.foldl_cons]
    exact ih _ (dup_inner hu hr (outs c.1 n) c h (fun e he => (mem_outs.1 he).1))

theorem inner_fst (l : List (Edg Nat P)) (c : List (Edg Nat P) × R Nat (Nat × Nat) W) : (l.foldl oDir c).1 = l.foldl oDirEdge c.1 := by
  induction l generalizing c with
  | nil => rfl
  | cons e l ih => rw [List.foldl_cons, List.foldl_cons, ih, oDir_fst]

theorem writeODirR_fst (nds : List Nat) (c : List (Edg Nat P) × R Nat (Nat × Nat) W) :
    (writeODirR nds c).1 = nds.foldl (fun es n => (outs es n).foldl oDirEdge es) c.1 := by
  unfold writeODirR
  induction nds generalizing c with
  | nil => rfl
  | cons n nds ih => rw [List.foldl_cons, List.foldl_cons, ih, inner_fst]

/-- The graph after the pass. -/
structure Pass (es es' : List (Edg Nat P)) : Prop where
  twins : Twins es es'
  opp : ∀ e ∈ es', ∃ f ∈ es', f.src = e.dst ∧ f.dst = e.src

theorem writeODirR_pass (nds : List Nat) (es : List (Edg Nat P)) (res : R Nat (Nat × Nat) W) (hu : Uniq es)
    (hn : ∀ e ∈ es, e.src ∈ nds) : Pass es (writeODirR nds (es, res)).1 := by
  have T0 : Twins es es := ⟨⟨[], by simp, fun f hf => by cases hf⟩, hu⟩
  obtain ⟨T, k2, k3⟩ := oDir_outer nds es T0
  rw [writeODirR_fst]
  refine ⟨T, ?_⟩
  obtain ⟨new, hnew, hn'⟩ := T.kept
  intro e he
  have he' := he
  rw [hnew] at he'
  rcases List.mem_append.1 he' with h | h
  · exact k3 e h (hn e h)
  · obtain ⟨e0, h0, rfl, _⟩ := hn' e h
    exact ⟨e0, k2 e0 h0, rfl, rfl⟩

theorem noOpp_swap {es : List (Edg Nat P)} (ho : NoOpp es) {v : Nat} {k : Nat × Nat} (hk : ∃ e ∈ es, (e.src, e.dst) = k) :
    arrE es v k = k ∧ leaE es v k = k := by
  obtain ⟨e, he, rfl⟩ := hk
  have h : (getEdg es e.dst e.src).isSome = true → (e.dst, e.src) = (e.src, e.dst) := by
    intro h
    obtain ⟨f, hf, h1, h2⟩ := getEdg_isSome.1 h
    have := ho e he f hf h1 h2
    subst this
    rw [h1, ← h1]
  unfold arrE leaE
  constructor
  · split
    · exact h (by assumption : _ ∧ _).2
    · rfl
  · split
    · exact h (by assumption : _ ∧ _).2
    · rfl

theorem writeODirR_dup (nds : List Nat) (es : List (Edg Nat P)) (res : R Nat (Nat × Nat) W) (hu : Uniq es) (ho : NoOpp es)
    (hr : RulesIn es res) : Dup es res (writeODirR nds (es, res)) := by
  have T0 : Twins es es := ⟨⟨[], by simp, fun f hf => by cases hf⟩, hu⟩
  have hL : ∀ v (rs : RuleVec (Nat × Nat)), (∀ r ∈ rs, Marked es v r.1 ∧ ∀ x, r.2 = some x → Marked es v x) →
      rs = rs.map (tw es v) := by
    intro v rs hrs
    have : rs.map (tw es v) = rs.map id := by
      apply List.map_congr_left
      rintro ⟨a, b⟩ hr
      obtain ⟨⟨e, he, h1, _⟩, m2⟩ := hrs _ hr
      simp only [tw, (noOpp_swap ho ⟨e, he, h1⟩ : arrE es v a = a ∧ _).1, id]
      cases b with
      | none => rfl
      | some x =>
        obtain ⟨f, hf, h2, _⟩ := m2 x rfl
        simp only [Option.map, (noOpp_swap ho ⟨f, hf, h2⟩ : arrE es v x = x ∧ _).2]
    rw [this, List.map_id]
  have D0 : Dup es res (es, res) :=
    ⟨T0, fun v => hL v _ (fun r hr' => hr v r (Or.inl hr')), fun v => hL v _ (fun r hr' => hr v r (Or.inr hr'))⟩
  exact dup_outer hu hr nds (es, res) D0

section
variable {es : List (Edg Nat P)} {res : R Nat (Nat × Nat) W} {es' : List (Edg Nat P)}

theorem Pass.sub (h : Pass es es') : ∀ e ∈ es, e ∈ es' := by
  obtain ⟨new, hn, _⟩ := h.twins.kept
  intro e he
  rw [hn]
  exact List.mem_append_left _ he

theorem Pass.mem (h : Pass es es') : ∀ f ∈ es', f ∈ es ∨ ∃ e ∈ es, f = e.rev ∧ ∀ x ∈ es, ¬ (x.src = e.dst ∧ x.dst = e.src) := by
  obtain ⟨new, hn, hnew⟩ := h.twins.kept
  intro f hf
  rw [hn] at hf
  exact (List.mem_append.1 hf).imp id (hnew f)

theorem rev_way (e : Edg Nat P) : e.rev.a.oneWay ≠ 2 ↔ e.a.oneWay ≠ 1 := by
  simp only [Edg.rev, Attrs.reversed]
  have : ∀ w : _root_.Fin 4, (if w = 1 then (2 : _root_.Fin 4) else if w = 2 then 1 else w) ≠ 2 ↔ w ≠ 1 := by decide
  exact this _

/-- Travel in the new graph is the travel the edges permitted. -/
theorem Pass.drive (h : Pass es es') (hu : Uniq es) (hm : NoOpp es ∨ ∀ e ∈ es, e.a.oneWay ≠ 2) (u w : Nat) : Drive es' u w ↔ Reach es u w := by
  constructor
  · intro hd
    induction hd with
    | refl => exact .refl _
    | step _ f hf h1 h2 ih =>
      rcases h.mem f hf with he | ⟨e, he, rfl, _⟩
      · exact .step ih ⟨f, he, Or.inl ⟨h1, rfl, h2⟩⟩
      · exact .step ih ⟨e, he, Or.inr ⟨h1, rfl, (rev_way e).1 h2⟩⟩
  · intro hd
    induction hd with
    | refl => exact .refl _
    | step _ hp ih =>
      obtain ⟨e, he, hp⟩ := hp
      rcases hp with ⟨h1, h2, h3⟩ | ⟨h1, h2, h3⟩
      · rw [← h2]
        exact .step ih e (h.sub e he) h1 h3
      · obtain ⟨f, hf, f1, f2⟩ := h.opp e (h.sub e he)
        rw [← h2, ← f2]
        rcases h.mem f hf with hf' | ⟨d, hd, rfl, _⟩
        · rcases hm with hm | hm
          · have := hm e he f hf' f1 f2
            subst this
            rw [h1]; exact ih
          · exact .step ih f hf (f1.trans h1) (hm f hf')
        · have : d = e := uniq_eq hu hd he f2 f1
          subst this
          exact .step ih d.rev hf (f1.trans h1) ((rev_way d).2 h3)

/-- The edge to arrive by. -/
theorem Pass.arrives (h : Pass es es') (hu : Uniq es) (ho : NoOpp es) (e : Edg Nat P) (he : e ∈ es) (w : Nat)
    (hw : w = e.src ∨ w = e.dst) : ∃ a ∈ es', arrE es' w (e.src, e.dst) = (a.src, a.dst) ∧ a.dst = w ∧ a.lines = e.lines ∧
      a.a.lvl = e.a.lvl ∧ (e.src ≠ e.dst → In e w → a.a.oneWay ≠ 2) ∧ a.a.restr = e.a.restr := by
  by_cases hd : e.dst = w
  · refine ⟨e, h.sub e he, ?_, hd, rfl, rfl, fun hl hI => ?_, rfl⟩
    · unfold arrE; rw [if_neg (fun h => h.1 hd)]
    · rcases hI with ⟨_, k⟩ | ⟨k, _⟩
      · exact k
      · exact absurd (k.trans hd.symm) hl
  · have hs : e.src = w := by
      rcases hw with h | h
      · exact h.symm
      · exact absurd h.symm hd
    obtain ⟨f, hf, f1, f2⟩ := h.opp e (h.sub e he)
    refine ⟨f, hf, ?_, f2.trans hs, ?_⟩
    · unfold arrE
      rw [if_pos ⟨hd, getEdg_isSome.2 ⟨f, hf, f1, f2⟩⟩, f1, f2]
    rcases h.mem f hf with hf | ⟨d, hd', rfl, _⟩
    · have := ho e he f hf f1 f2
      subst this
      exact absurd (f2.trans hs) hd
    · have : d = e := uniq_eq hu hd' he f2 f1
      subst this
      refine ⟨rfl, rfl, fun _ hI => (rev_way d).2 ?_, rfl⟩
      rcases hI with ⟨k, _⟩ | ⟨_, k⟩
      · exact absurd k hd
      · exact k

/-- The edge to leave by. -/
theorem Pass.leaves (h : Pass es es') (hu : Uniq es) (ho : NoOpp es) (e : Edg Nat P) (he : e ∈ es) (w : Nat)
    (hw : w = e.src ∨ w = e.dst) : ∃ a ∈ es', leaE es' w (e.src, e.dst) = (a.src, a.dst) ∧ a.src = w ∧ a.lines = e.lines ∧
      a.a.lvl = e.a.lvl ∧ (e.src ≠ e.dst → Out e w → a.a.oneWay ≠ 2) := by
  by_cases hd : e.src = w
  · refine ⟨e, h.sub e he, ?_, hd, rfl, rfl, fun hl hI => ?_⟩
    · unfold leaE; rw [if_neg (fun h => h.1 hd)]
    · rcases hI with ⟨_, k⟩ | ⟨k, _⟩
      · exact k
      · exact absurd (hd.trans k.symm) hl
  · have hs : e.dst = w := by
      rcases hw with h | h
      · exact absurd h.symm hd
      · exact h.symm
    obtain ⟨f, hf, f1, f2⟩ := h.opp e (h.sub e he)
    refine ⟨f, hf, ?_, f1.trans hs, ?_⟩
    · unfold leaE
      rw [if_pos ⟨hd, getEdg_isSome.2 ⟨f, hf, f1, f2⟩⟩, f1, f2]
    rcases h.mem f hf with hf | ⟨d, hd', rfl, _⟩
    · have := ho e he f hf f1 f2
      subst this
      exact absurd (f1.trans hs) hd
    · have : d = e := uniq_eq hu hd' he f2 f1
      subst this
      refine ⟨rfl, rfl, fun _ hI => (rev_way d).2 ?_⟩
      rcases hI with ⟨k, _⟩ | ⟨_, k⟩
      · exact absurd k hd
      · exact k

/-- All edges come from old ones. -/
theorem Pass.onto (h : Pass es es') (a : Edg Nat P) (ha : a ∈ es') :
    (∃ e ∈ es, (a.dst = e.src ∨ a.dst = e.dst) ∧ arrE es' a.dst (e.src, e.dst) = (a.src, a.dst)) ∧
    ∃ e ∈ es, (a.src = e.src ∨ a.src = e.dst) ∧ leaE es' a.src (e.src, e.dst) = (a.src, a.dst) := by
  rcases h.mem a ha with he | ⟨e, he, rfl, hx⟩
  · refine ⟨⟨a, he, Or.inr rfl, ?_⟩, a, he, Or.inl rfl, ?_⟩
    · unfold arrE; rw [if_neg (fun h => h.1 rfl)]
    · unfold leaE; rw [if_neg (fun h => h.1 rfl)]
  · have hl : e.src ≠ e.dst := fun hl => hx e he ⟨hl, hl.symm⟩
    have hg : (getEdg es' e.dst e.src).isSome = true := getEdg_isSome.2 ⟨_, ha, rfl, rfl⟩
    refine ⟨⟨e, he, Or.inl rfl, ?_⟩, e, he, Or.inr rfl, ?_⟩
    · unfold arrE; rw [if_pos ⟨fun k => hl k.symm, hg⟩]; rfl
    · unfold leaE; rw [if_pos ⟨fun k => hl k, hg⟩]; rfl

theorem Dup.turns {c : List (Edg Nat P) × R Nat (Nat × Nat) W} (h : Dup es res c) (ho : NoOpp es) (hr : RulesIn es res) (w : Nat) (e f : Edg Nat P) (he : e ∈ es) (hf : f ∈ es) :
    c.2.may (arrE c.1 w (e.src, e.dst)) (leaE c.1 w (f.src, f.dst)) w = res.may (e.src, e.dst) (f.src, f.dst) w := by
  have hsw : ∀ x ∈ es, ∀ y ∈ es, (x.dst, x.src) = (y.src, y.dst) → (x.src, x.dst) = (y.src, y.dst) := by
    intro x hx y hy hxy
    obtain ⟨k1, k2⟩ := Prod.mk.inj hxy
    rw [ho x hx y hy k1.symm k2.symm]
  have hinj : ∀ (p q : Prop) [Decidable p] [Decidable q] (x y : Edg Nat P), x ∈ es → y ∈ es →
      (if p then (x.dst, x.src) else (x.src, x.dst)) = (if q then (y.dst, y.src) else (y.src, y.dst)) → (x.src, x.dst) = (y.src, y.dst) := by
    intro p q _ _ x y hx hy hxy
    split at hxy <;> split at hxy
    · obtain ⟨k1, k2⟩ := Prod.mk.inj hxy
      rw [k1, k2]
    · exact hsw x hx y hy hxy
    · exact (hsw y hy x hx hxy.symm).symm
    · exact hxy
  have ha : ∀ k, Marked es w k → ∀ y ∈ es, arrE c.1 w k = arrE c.1 w (y.src, y.dst) → k = (y.src, y.dst) := by
    rintro k ⟨x, hx, rfl, _⟩ y hy hxy
    exact hinj _ _ x y hx hy hxy
  have hl : ∀ k, Marked es w k → ∀ y ∈ es, leaE c.1 w k = leaE c.1 w (y.src, y.dst) → k = (y.src, y.dst) := by
    rintro k ⟨x, hx, rfl, _⟩ y hy hxy
    exact hinj _ _ x y hx hy hxy
  unfold R.may
  rw [h.pos w, h.neg w]
  unfold tw
  rw [mayPos_map, mayNeg_map]
  · intro r hr' hh; exact ha _ (hr w r (Or.inr hr')).1 e he hh
  · intro r hr' t ht hh; exact hl _ ((hr w r (Or.inr hr')).2 t ht) f hf hh
  · intro r hr' hh; exact ha _ (hr w r (Or.inl hr')).1 e he hh
  · intro r hr' t ht hh; exact hl _ ((hr w r (Or.inl hr')).2 t ht) f hf hh
end

/-! ### self edges -/

/-- What the self edges do to the graph: only loops are changed and added, and these at stations with one edge. -/
structure Selfs (pl : NState Nat S) (es es' : List (Edg Nat P)) : Prop where
  sub : ∀ e ∈ es, e.src ≠ e.dst → e ∈ es'
  ends : ∀ e ∈ es, ∃ f ∈ es', f.src = e.src ∧ f.dst = e.dst
  back : ∀ f ∈ es', f ∈ es ∨ (f.src = f.dst ∧ isStat pl f.src = true ∧ f.a.cost = u32max ∧ (∃ a ∈ es, a.src = f.src) ∧
    ∀ a ∈ es, ∀ b ∈ es, a.src = f.src → b.src = f.src → a.dst = b.dst)
  uniq : Uniq es'
  line : ∀ e ∈ es, ∀ l, e.geom = some l → ∃ f ∈ es', f.src = e.src ∧ f.dst = e.dst ∧ ∃ ext, f.geom = some (l ++ ext)

theorem Selfs.trans {pl : NState Nat S} {es es' es'' : List (Edg Nat P)} (h : Selfs pl es es') (h' : Selfs pl es' es'') :
    Selfs pl es es'' := by
  refine ⟨fun e he hl => h'.sub e (h.sub e he hl) hl, ?_, ?_, h'.uniq, ?_⟩
  rotate_left 2
  · intro e he l hl
    obtain ⟨f, hf, a1, a2, x, hx⟩ := h.line e he l hl
    obtain ⟨g, hg, b1, b2, y, hy⟩ := h'.line f hf _ hx
    exact ⟨g, hg, b1.trans a1, b2.trans a2, x ++ y, by rw [hy, List.append_assoc]⟩
  · intro e he
    obtain ⟨f, hf, a1, a2⟩ := h.ends e he
    obtain ⟨g, hg, b1, b2⟩ := h'.ends f hf
    exact ⟨g, hg, b1.trans a1, b2.trans a2⟩
  · intro f hf
    rcases h'.back f hf with hf | ⟨h1, h2, h3, ⟨a, ha, h4⟩, h5⟩
    · exact h.back f hf
    · refine Or.inr ⟨h1, h2, h3, ?_, ?_⟩
      · rcases h.back a ha with k | ⟨_, _, _, ⟨b, hb, k⟩, _⟩
        · exact ⟨a, k, h4⟩
        · exact ⟨b, hb, k.trans h4⟩
      · intro x hx y hy k1 k2
        obtain ⟨x', hx', a1, a2⟩ := h.ends x hx
        obtain ⟨y', hy', b1, b2⟩ := h.ends y hy
        rw [← a2, ← b2]
        exact h5 x' hx' y' hy' (a1.trans k1) (b1.trans k2)

theorem selfEdg_selfs (pl : NState Nat S) (pos : Nat → P) (es : List (Edg Nat P)) (hu : Uniq es) (n : Nat) (hs : isStat pl n = true)
    (ho : (outs es n).length = 1) : Selfs pl es (selfEdg pos es n) ∧ ∃ f ∈ selfEdg pos es n, f.src = n ∧ f.dst = n := by
  have hmem : ∀ e, e ∈ addEdg es (⟨n, n, attrs0, [], none⟩ : Edg Nat P) → e ∈ es ∨ (e.src = n ∧ e.dst = n) := by
    intro e he
    unfold addEdg at he
    cases hg : getEdg es (⟨n, n, attrs0, [], none⟩ : Edg Nat P).src (⟨n, n, attrs0, [], none⟩ : Edg Nat P).dst with
    | some x => rw [hg] at he; exact Or.inl he
    | none =>
      rw [hg] at he
      rcases List.mem_append.1 he with he | he
      · exact Or.inl he
      · rw [List.mem_singleton.1 he]; exact Or.inr ⟨rfl, rfl⟩
  have hsub : ∀ e ∈ es, e ∈ addEdg es (⟨n, n, attrs0, [], none⟩ : Edg Nat P) := by
    intro e he
    unfold addEdg
    split
    · exact he
    · exact List.mem_append_left _ he
  have hun : Uniq (addEdg es (⟨n, n, attrs0, [], none⟩ : Edg Nat P)) := by
    unfold addEdg
    cases hg : getEdg es (⟨n, n, attrs0, [], none⟩ : Edg Nat P).src (⟨n, n, attrs0, [], none⟩ : Edg Nat P).dst with
    | some x => exact hu
    | none =>
      unfold Uniq at *
      rw [List.pairwise_append]
      refine ⟨hu, by simp, ?_⟩
      intro a ha b hb
      rw [List.mem_singleton.1 hb]
      intro hh
      have : (getEdg es n n).isSome = true := getEdg_isSome.2 ⟨a, ha, hh.1, hh.2⟩
      have hg : getEdg es n n = none := hg
      rw [hg] at this; cases this
  have hex : ∃ x ∈ addEdg es (⟨n, n, attrs0, [], none⟩ : Edg Nat P), x.src = n ∧ x.dst = n := by
    unfold addEdg
    cases hg : getEdg es (⟨n, n, attrs0, [], none⟩ : Edg Nat P).src (⟨n, n, attrs0, [], none⟩ : Edg Nat P).dst with
    | some x => exact getEdg_isSome.1 (by rw [show getEdg es n n = some x from hg]; rfl)
    | none => exact ⟨_, List.mem_append_right _ List.mem_cons_self, rfl, rfl⟩
  have hlp : ∀ e ∈ es, ∃ f ∈ selfEdg pos es n, f.src = e.src ∧ f.dst = e.dst := by
    intro e he
    refine ⟨_, List.mem_map.2 ⟨e, hsub e he, rfl⟩, ?_⟩
    split <;> exact ⟨rfl, rfl⟩
  refine ⟨?_, ?_⟩
  rotate_left
  · obtain ⟨x, hx, h1, h2⟩ := hex
    refine ⟨_, List.mem_map.2 ⟨x, hx, rfl⟩, ?_⟩
    split <;> exact ⟨h1, h2⟩
  unfold selfEdg at hlp ⊢
  refine ⟨?_, hlp, ?_, ?_, ?_⟩
  rotate_left 3
  · intro e he l hl
    refine ⟨_, List.mem_map.2 ⟨e, hsub e he, rfl⟩, ?_⟩
    split
    · exact ⟨rfl, rfl, [pos n, pos n], by rw [hl]; rfl⟩
    · exact ⟨rfl, rfl, [], by rw [hl, List.append_nil]⟩
  · intro e he hl
    refine List.mem_map.2 ⟨e, hsub e he, ?_⟩
    rw [if_neg]
    rintro ⟨h1, h2⟩
    exact hl (h1.trans h2.symm)
  · intro f hf
    obtain ⟨e, he, rfl⟩ := List.mem_map.1 hf
    by_cases h : e.src = n ∧ e.dst = n
    · rw [if_pos h]
      refine Or.inr ⟨h.1.trans h.2.symm, ?_, rfl, ?_⟩
      · show isStat pl e.src = true
        rw [h.1]; exact hs
      · obtain ⟨a, ha⟩ := len1 ho
        refine ⟨⟨a, (mem_outs.1 (by rw [ha]; simp : a ∈ outs es n)).1, ?_⟩, ?_⟩
        · show a.src = e.src
          rw [h.1]; exact (mem_outs.1 (by rw [ha]; simp : a ∈ outs es n)).2
        · intro x hx y hy h1 h2
          have h1 : x.src = e.src := h1
          have h2 : y.src = e.src := h2
          rw [h.1] at h1 h2
          have k1 : x ∈ outs es n := mem_outs.2 ⟨hx, h1⟩
          have k2 : y ∈ outs es n := mem_outs.2 ⟨hy, h2⟩
          rw [ha] at k1 k2
          rw [List.mem_singleton.1 k1, List.mem_singleton.1 k2]
    · rw [if_neg h]
      exact (hmem e he).imp id (fun k => absurd k h)
  · unfold Uniq at *
    rw [List.pairwise_map]
    refine hun.imp ?_
    intro a b hab
    split <;> split <;> exact hab

/-- Whoever arrives at `n` need not go back. -/
def Rest (es : List (Edg Nat P)) (n : Nat) : Prop := ∀ e ∈ es, e.dst = n → e.src ≠ n → ∃ f ∈ es, f.src = n ∧ f.dst ≠ e.src

def Opp (es : List (Edg Nat P)) : Prop := ∀ e ∈ es, ∃ f ∈ es, f.src = e.dst ∧ f.dst = e.src

theorem Selfs.rest {pl : NState Nat S} {es es' : List (Edg Nat P)} (h : Selfs pl es es') {n : Nat} (hr : Rest es n) : Rest es' n := by
  intro e he h1 h2
  rcases h.back e he with k | k
  · obtain ⟨f, hf, f1, f2⟩ := hr e k h1 h2
    obtain ⟨g, hg, g1, g2⟩ := h.ends f hf
    exact ⟨g, hg, g1.trans f1, by rw [g2]; exact f2⟩
  · exact absurd (k.1.trans h1) h2

theorem Selfs.opp {pl : NState Nat S} {es es' : List (Edg Nat P)} (h : Selfs pl es es') (hr : Opp es) : Opp es' := by
  intro e he
  rcases h.back e he with k | k
  · obtain ⟨f, hf, f1, f2⟩ := hr e k
    obtain ⟨g, hg, g1, g2⟩ := h.ends f hf
    exact ⟨g, hg, g1.trans f1, g2.trans f2⟩
  · exact ⟨e, he, k.1, k.1.symm⟩

theorem rest_or {es : List (Edg Nat P)} (hu : Uniq es) (ho : Opp es) (n : Nat) (hl : (outs es n).length ≠ 1) : Rest es n := by
  intro e he h1 h2
  obtain ⟨f, hf, f1, f2⟩ := ho e he
  have hfo : f ∈ outs es n := mem_outs.2 ⟨hf, f1.trans h1⟩
  have huo : (outs es n).Pairwise fun a b => ¬ (a.src = b.src ∧ a.dst = b.dst) := by
    unfold Uniq at hu
    unfold outs
    exact List.Pairwise.filter _ hu
  match hh : outs es n with
  | [] => rw [hh] at hfo; cases hfo
  | [a] => rw [hh] at hl; exact absurd rfl hl
  | a :: b :: l =>
    have ha := mem_outs.1 (by rw [hh]; simp : a ∈ outs es n)
    have hb := mem_outs.1 (by rw [hh]; simp : b ∈ outs es n)
    rw [hh] at huo
    have hab := (List.pairwise_cons.1 huo).1 b (by simp)
    by_cases k : a.dst = e.src
    · refine ⟨b, hb.1, hb.2, fun k' => hab ⟨ha.2.trans hb.2.symm, k.trans k'.symm⟩⟩
    · exact ⟨a, ha.1, ha.2, k⟩

theorem writeSelfEdgs_selfs (pl : NState Nat S) (pos : Nat → P) (nds : List Nat) (es : List (Edg Nat P)) (hu : Uniq es) (ho : Opp es) :
    Selfs pl es (writeSelfEdgs pl pos nds es) ∧ ∀ n ∈ nds, isStat pl n = true → Rest (writeSelfEdgs pl pos nds es) n := by
  unfold writeSelfEdgs
  induction nds generalizing es with
  | nil => exact ⟨⟨fun _ h _ => h, fun e he => ⟨e, he, rfl, rfl⟩, fun _ h => Or.inl h, hu,
      fun e he l hl => ⟨e, he, rfl, rfl, [], by rw [hl, List.append_nil]⟩⟩, fun n hn => by cases hn⟩
  | cons n nds ih =>
    rw [List.foldl_cons]
    by_cases hc : isStat pl n = true ∧ (outs es n).length = 1
    · obtain ⟨h1, f, hf, f1, f2⟩ := selfEdg_selfs pl pos es hu n hc.1 hc.2
      have : (isStat pl n && decide ((outs es n).length = 1)) = true := by simp [hc]
      rw [if_pos this]
      obtain ⟨i1, i2⟩ := ih _ h1.uniq (h1.opp ho)
      refine ⟨h1.trans i1, ?_⟩
      intro m hm hs
      rcases List.mem_cons.1 hm with rfl | hm
      · refine i1.rest ?_
        intro e he k1 k2
        exact ⟨f, hf, f1, by rw [f2]; exact fun k => k2 k.symm⟩
      · exact i2 m hm hs
    · have : ¬ (isStat pl n && decide ((outs es n).length = 1)) = true := by simpa using hc
      rw [if_neg this]
      obtain ⟨i1, i2⟩ := ih _ hu ho
      refine ⟨i1, ?_⟩
      intro m hm hs
      rcases List.mem_cons.1 hm with rfl | hm
      · exact i1.rest (rest_or hu ho m (fun k => hc ⟨hs, k⟩))
      · exact i2 m hm hs

theorem Selfs.drive {pl : NState Nat S} {es es' : List (Edg Nat P)} (h : Selfs pl es es') (u w : Nat) : Drive es' u w ↔ Drive es u w := by
  constructor
  · intro hd
    induction hd with
    | refl => exact .refl _
    | step _ f hf h1 h2 ih =>
      rcases h.back f hf with k | k
      · exact .step ih f k h1 h2
      · rw [← k.1, h1]; exact ih
  · intro hd
    induction hd with
    | refl => exact .refl _
    | step _ f hf h1 h2 ih =>
      by_cases hl : f.src = f.dst
      · rw [← hl, h1]; exact ih
      · exact .step ih f (h.sub f hf hl) h1 h2

end Verif.Finish
