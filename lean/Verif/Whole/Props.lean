import Verif.Whole.Raw

/-!
# From the OSM file to the routing graph (properties)

C76: the routing graph shows the map of the file.
-/

set_option linter.unusedSectionVars false

namespace Verif.Whole
open Verif.Names (Str)
open Verif.Osm Verif.Collapse Verif.Payload Verif.Snap Verif.Turns
open Verif.Restrictor (run R Op)
open Verif.Finish (RulesIn Marked Drive Fin)

variable {P S T D : Type}

/-! ### specification -/

/-- A map without oddities: no piece leads from a place to itself; one-way streets that meet are all drawn in the direction of travel, or all
against it; there are no pieces between the same places in opposite directions, or no way is drawn against the direction of travel; the
places are known; no two ends of streets are near each other. -/
structure Tidy (p : Par P S T D) (d : Doc P) (ss : List Seg) : Prop where
  self : ∀ s ∈ ss, s.a ≠ s.b
  sense : ∀ s ∈ ss, ∀ t ∈ ss, Meet s t → OneWay p.o s → OneWay p.o t → (Against p.o s.way ↔ Against p.o t.way)
  opp : (∀ s ∈ ss, ∀ t ∈ ss, ¬ (t.a = s.b ∧ t.b = s.a)) ∨ ∀ s ∈ ss, ¬ Against p.o s.way
  known : ∀ s ∈ ss, ∀ q, q = s.a ∨ q = s.b → ∃ x ∈ d.nodes, x.id = q.node ∧ (noTurn p d x.id = false ∨ inArea p d x.id = true)
  apart : ∀ a b, Tip ss a → Tip ss b → a ≠ b → ∀ x ∈ d.nodes, ∀ y ∈ d.nodes, x.id = a.node → y.id = b.node → p.near y.pos x.pos = false

/-- The edge has the level of a way, and the lines of the ways, between the places. -/
def Carries (p : Par P S T D) (ss : List Seg) (x : Place × Place) (e : Edg Nat P) : Prop :=
  (∃ s ∈ ss, s.a = x.1 ∧ s.b = x.2 ∧ Level p.o s.way e.a.lvl) ∧ ∀ l, l ∈ e.lines ↔ ∃ t ∈ ss, t.a = x.1 ∧ t.b = x.2 ∧ l ∈ p.lines t.way

/-- The graph `g` shows the map; `at_` is the place a node stands for. -/
structure Shows (p : Par P S T D) (d : Doc P) (ss : List Seg) (at_ : Nat → Option Place) (g : Fin P S Nat) : Prop where
  /-- Nodes are where they are in the file. -/
  pos : ∀ u q, at_ u = some q → ∀ x ∈ d.nodes, x.id = q.node → noTurn p d x.id = false ∨ inArea p d x.id = true → g.pos u = x.pos
  /-- One can get from one place to another exactly if one can along the ways of the file. -/
  travel : ∀ u w a b, u ∈ g.nds → w ∈ g.nds → at_ u = some a → at_ w = some b → (Drive g.es u w ↔ Strict p.o ss a b)
  /-- Edges have the level of a way, and the lines of the ways between the same places. -/
  made : ∀ f ∈ g.es, f.src ≠ f.dst → ∃ x, Carries p ss x f
  /-- Edges run from the position of their start to that of their end. -/
  ends : ∀ e ∈ g.es, e.src ≠ e.dst → ∃ l, e.geom = some l ∧
      (if e.a.rev = true then l.reverse else l).head? = some (g.pos e.src) ∧
      (if e.a.rev = true then l.reverse else l).getLast? = some (g.pos e.dst)
  /-- Places do not get lost: they have a node, or are a point of the line of an edge, before it is simplified. -/
  rest : ∀ s ∈ ss, ∀ q, q = s.a ∨ q = s.b → ∃ u, at_ u = some q ∧ (u ∈ g.nds ∨ ∃ e ∈ g.es, ∃ l more, e.geom = some (p.cfg.simplify l ++ more) ∧
    ∃ x ∈ d.nodes, x.id = q.node ∧ x.pos ∈ l)

/-- The piece of the way `a`, given by its ends, at the place `q`. -/
def Piece (ss : List Seg) (a : Nat) (q : Place) (x : Place × Place) : Prop := ∃ s ∈ ss, s.way.id = a ∧ (s.a = q ∨ s.b = q) ∧ x = (s.a, s.b)

/-- The turns that are refused are those of the turn restrictions of the file (as in C70). -/
structure Obeys {X : Type} (o : Opts) (rels : List X) (rd : X → Rel) (used : X → Prop) (ss : List Seg)
    (refuse : Place × Place → Place × Place → Place → Bool) : Prop where
  /-- A refused turn has its reason in the file: a forbidden turn from the way of the one piece to that of the other, or another turn is
  demanded for the first piece. -/
  reason : ∀ x y q, refuse x y q = true → ∃ r ∈ rels, used r ∧ ∃ pos a b, TurnRule o (rd r) pos a b q.node ∧ Piece ss a q x ∧
    ∃ t, Piece ss b q t ∧ (if pos then t ≠ y else t = y)
  /-- A forbidden turn is refused, if the target way has one piece at the place and no turn is demanded for the first piece. -/
  forbid : ∀ r ∈ rels, used r → ∀ a b q, TurnRule o (rd r) false a b q.node → a ≠ b → ∀ x y, Piece ss a q x → Piece ss b q y →
    (∀ t, Piece ss b q t → t = y) →
    (∀ r' ∈ rels, used r' → ∀ a' b', TurnRule o (rd r') true a' b' q.node → Piece ss a' q x → ∀ t, ¬ Piece ss b' q t) → refuse x y q = true
  /-- If a turn is demanded for a piece, exactly the other turns are refused, if the target way has one piece at the place and no other turn
  is demanded. -/
  only : ∀ r ∈ rels, used r → ∀ a b q, TurnRule o (rd r) true a b q.node → a ≠ b → ∀ x y, Piece ss a q x → Piece ss b q y →
    (∀ t, Piece ss b q t → t = y) →
    (∀ r' ∈ rels, used r' → ∀ a' b', TurnRule o (rd r') true a' b' q.node → Piece ss a' q x → (∃ t, Piece ss b' q t) → b' = b) →
    ∀ c t, Piece ss c q t → (refuse x t q = true ↔ t ≠ y)

/-- One may arrive at `q`, leave `q`, by the piece with these ends. -/
def MayIn (o : Opts) (ss : List Seg) (x : Place × Place) (q : Place) : Prop :=
  (x.2 = q ∧ ∀ t ∈ ss, t.a = x.1 → t.b = x.2 → ¬ Against o t.way) ∨ (x.1 = q ∧ ∀ t ∈ ss, t.a = x.1 → t.b = x.2 → ¬ Along o t.way)
def MayOut (o : Opts) (ss : List Seg) (x : Place × Place) (q : Place) : Prop :=
  (x.1 = q ∧ ∀ t ∈ ss, t.a = x.1 → t.b = x.2 → ¬ Against o t.way) ∨ (x.2 = q ∧ ∀ t ∈ ss, t.a = x.1 → t.b = x.2 → ¬ Along o t.way)

/-- Which turns the graph refuses: `arr` is the edge to arrive at a place by, along a piece, and `lea` the edge to leave it by. All edges
that lead to another node are of this kind. -/
structure Turned (p : Par P S T D) (ss : List Seg) (at_ : Nat → Option Place) (g : Fin P S Nat)
    (refuse : Place × Place → Place × Place → Place → Bool) (arr lea : Place × Place → Place → Edg Nat P) : Prop where
  into : ∀ w q, w ∈ g.nds → at_ w = some q → ∀ a x, Piece ss a q x → arr x q ∈ g.es ∧ (arr x q).dst = w ∧
    ((arr x q).src ≠ w → Carries p ss x (arr x q) ∧ (MayIn p.o ss x q → (arr x q).a.oneWay ≠ 2))
  outof : ∀ w q, w ∈ g.nds → at_ w = some q → ∀ a x, Piece ss a q x → lea x q ∈ g.es ∧ (lea x q).src = w ∧
    ((lea x q).dst ≠ w → Carries p ss x (lea x q) ∧ (MayOut p.o ss x q → (lea x q).a.oneWay ≠ 2))
  allInto : ∀ w q, w ∈ g.nds → at_ w = some q → ∀ e ∈ g.es, e.dst = w → e.src ≠ w → ∃ a x, Piece ss a q x ∧ arr x q = e
  allOutof : ∀ w q, w ∈ g.nds → at_ w = some q → ∀ e ∈ g.es, e.src = w → e.dst ≠ w → ∃ a x, Piece ss a q x ∧ lea x q = e
  /-- What the router asks (Weights.cpp:147-148). -/
  asked : ∀ w q, w ∈ g.nds → at_ w = some q → ∀ a x b y, Piece ss a q x → Piece ss b q y →
    ((arr x q).a.restr && !g.res.may ((arr x q).src, (arr x q).dst) ((lea y q).src, (lea y q).dst) w) = refuse x y q

/-! ### proofs -/

theorem level_ok (o : Opts) (w : Way) : Level o w (Fin.ofNat 16 (fLevel o w.attrs)).val := by
  obtain ⟨h1, h2⟩ := C28_level o w.attrs
  by_cases hex : ∃ i, i < 8 ∧ PlainHits (o.levels i) w.attrs
  · obtain ⟨i, hi⟩ := hex
    have : ∃ i, (i < 8 ∧ PlainHits (o.levels i) w.attrs) ∧ ∀ j < i, ¬ PlainHits (o.levels j) w.attrs := by
      induction i using Nat.strongRecOn with
      | ind i ih =>
        by_cases hj : ∃ j, j < i ∧ PlainHits (o.levels j) w.attrs
        · obtain ⟨j, hj1, hj2⟩ := hj
          exact ih j hj1 ⟨by omega, hj2⟩
        · exact ⟨i, hi, fun j hj1 hj2 => hj ⟨j, hj1, hj2⟩⟩
    obtain ⟨i, ⟨hi1, hi2⟩, hi3⟩ := this
    rw [h1 i hi1 hi2 hi3]
    have : (Fin.ofNat 16 i).val = i := by simp [Fin.ofNat]; omega
    rw [this]
    exact Or.inl ⟨hi1, hi2, hi3⟩
  · have hall : ∀ i < 8, ¬ PlainHits (o.levels i) w.attrs := fun i hi hh => hex ⟨i, hi, hh⟩
    rw [h2 hall]
    exact Or.inr ⟨rfl, hall⟩

theorem Ties.carries {p : Par P S T D} {own : List Place} {es : List (Edg Nat P)} {ss : List Seg} (h : Ties p own es ss) (e f : Edg Nat P)
    (he : e ∈ es) (s : Seg) (s1 : own[e.src]? = some s.a) (s2 : own[e.dst]? = some s.b) (e1 : f.lines = e.lines) (e2 : f.a.lvl = e.a.lvl) :
    Carries p ss (s.a, s.b) f := by
  obtain ⟨r, hr, r1, r2, r3⟩ := h.back e he
  refine ⟨⟨r, hr, ?_, ?_, ?_⟩, fun x => ?_⟩
  · rw [s1] at r1; exact (Option.some.inj r1).symm
  · rw [s2] at r2; exact (Option.some.inj r2).symm
  · rw [e2, r3]; exact level_ok _ _
  · rw [e1, h.lines e he x]
    constructor
    · rintro ⟨t, h1, h2, h3, h4⟩
      rw [s1] at h2
      rw [s2] at h3
      exact ⟨t, h1, (Option.some.inj h2).symm, (Option.some.inj h3).symm, h4⟩
    · rintro ⟨t, h1, h2, h3, h4⟩
      simp only at h2 h3
      exact ⟨t, h1, by rw [h2]; exact s1, by rw [h3]; exact s2, h4⟩

section
variable {p : Par P S T D} (ho : FlaggedOpts p.o) {d : Doc P} {ways : List Way} {own : List Place} (h : Base p d ways own)
  (ht : Tidy p d (mapSegs p d ways))
include ho h ht

theorem Base.gaps : (Gaps.fixGaps (gapEnv p (raw p d.tags)) (raw p d.tags).es).es = (raw p d.tags).es := by
  refine (Gaps.C71_untouched _ _ fun a b hab ha hb => ?_).1
  obtain ⟨qa, hqa, ta⟩ := h.tip a ha
  obtain ⟨qb, hqb, tb⟩ := h.tip b hb
  have kn : ∀ u q, own[u]? = some q → Tip (mapSegs p d ways) q → ∃ x ∈ d.nodes, x.id = q.node ∧ (raw p d.tags).pos u = x.pos := by
    intro u q hq ⟨s, hs, hsq, _⟩
    obtain ⟨x, hx, hi, hc⟩ := ht.known s hs q (hsq.imp Eq.symm Eq.symm)
    exact ⟨x, hx, hi, h.pos x hx u q hq hi.symm hc⟩
  obtain ⟨x, hx, hxi, hxp⟩ := kn a qa hqa ta
  obtain ⟨y, hy, hyi, hyp⟩ := kn b qb hqb tb
  show p.near ((raw p d.tags).pos b) ((raw p d.tags).pos a) = false
  rw [hxp, hyp]
  refine ht.apart qa qb ta tb (fun he => hab ?_) x hx y hy hxi hyi
  subst he
  exact h.ties.inj _ _ _ hqa hqb

theorem Base.build : build p d.tags = Finish.finish { p.cfg with orphans := p.orphOrder (readMap p d.tags).1.orphans } (raw p d.tags) := by
  unfold Whole.build
  dsimp only
  rw [h.gaps ho ht]

theorem Base.opp : (∀ e ∈ (raw p d.tags).es, ∀ f ∈ (raw p d.tags).es, f.src = e.dst → f.dst = e.src → f = e) ∨
    ∀ e ∈ (raw p d.tags).es, e.a.oneWay ≠ 2 := by
  rcases ht.opp with k | k
  · left
    intro e he f hf h1 h2
    obtain ⟨s, hs, s1, s2, _⟩ := h.ties.back e he
    obtain ⟨t, ht', t1, t2, _⟩ := h.ties.back f hf
    rw [h1, s2] at t1
    rw [h2, s1] at t2
    exact absurd ⟨(Option.some.inj t1).symm, (Option.some.inj t2).symm⟩ (k s hs t ht')
  · right
    intro e he h2
    obtain ⟨s, hs, s1, s2, _⟩ := h.ties.back e he
    obtain ⟨t, ht', _, _, h3⟩ := (h.ties.mark ho ht.sense e he s s1 s2).1.1 h2
    exact k t ht' h3

theorem Base.shows (hord : ∀ x l, (p.cfg.snap.order x l).Perm l) (hn : ∀ n u, u ∈ p.cfg.nds n ↔ u < n)
    (hsi : ∀ l, (p.cfg.simplify l).head? = l.head? ∧ (p.cfg.simplify l).getLast? = l.getLast?) :
    Shows p d (mapSegs p d ways) (fun u => own[u]?) (Whole.build p d.tags) := by
  have hs := h.sane ht.self
  have hm := h.ties.marks ho ht.sense
  have hlt : ∀ u q, own[u]? = some q → u < (raw p d.tags).next := fun u q hq => Nat.lt_of_lt_of_le (List.getElem?_eq_some_iff.1 hq).1 h.len
  rw [h.build ho ht]
  let c : Finish.Cfg P S Nat D := { p.cfg with orphans := p.orphOrder (readMap p d.tags).1.orphans }
  have hm' : ∀ e ∈ (raw p d.tags).es, ∀ f ∈ (raw p d.tags).es, (e.src = f.src ∨ e.src = f.dst ∨ e.dst = f.src ∨ e.dst = f.dst) →
    e.a.oneWay ≠ 0 → f.a.oneWay ≠ 0 → e.a.oneWay = f.a.oneWay := fun e he f hf => hm e f he hf
  obtain ⟨t1, t2⟩ := Finish.C74_travel_partial c hord hn (raw p d.tags) hs hm' (h.opp ho ht)
  have t3 := Finish.C74_origin c hord hn (raw p d.tags) hs hm'
  obtain ⟨t4, t5⟩ := Finish.C74_lines_partial c hord hn (raw p d.tags) hs hm' (fun e he => (h.ties.plain e he).2)
    (fun e he => (h.ties.plain e he).1) hsi
  refine ⟨?_, ?_, ?_, ?_, ?_⟩
  · intro u q hq x hx hi hc
    rw [t1 u (hlt u q hq)]
    exact h.pos x hx u q hq hi.symm hc
  · intro u w a b hu hw ha hb
    rw [t2 u w hu hw (hlt u a ha) (hlt w b hb)]
    exact h.ties.reach ho ht.sense u w a b ha hb
  · intro f hf hne
    rcases t3 f hf with ⟨e, he, e1, e2⟩ | ⟨k, _⟩
    · obtain ⟨s, hs', s1, s2, _⟩ := h.ties.back e he
      exact ⟨_, h.ties.carries e f he s s1 s2 e1 e2⟩
    · exact absurd k hne
  · exact t4
  · intro s hs' q hq
    obtain ⟨e, he, e1, e2⟩ := h.ties.to s hs'
    obtain ⟨u, hu, hue⟩ : ∃ u, own[u]? = some q ∧ (e.src = u ∨ e.dst = u) := by
      rcases hq with rfl | rfl
      · exact ⟨e.src, e1, Or.inl rfl⟩
      · exact ⟨e.dst, e2, Or.inr rfl⟩
    refine ⟨u, hu, ?_⟩
    rcases t5 u (hlt u q hu) ⟨e, he, hue⟩ with k | ⟨e', he', l, more, h1, h2⟩
    · exact Or.inl k
    · obtain ⟨x, hx, hi, hc⟩ := ht.known s hs' q hq
      rw [h.pos x hx u q hu hi.symm hc] at h2
      exact Or.inr ⟨e', he', l, more, h1, x, hx, hi, h2⟩

end

/-! ### turns -/

/-- The number of a place. -/
def num (own : List Place) (q : Place) : Nat := own.idxOf q
def nums (own : List Place) (x : Place × Place) : Nat × Nat := (num own x.1, num own x.2)

theorem num_some {own : List Place} {q q' : Place} (h : own[num own q]? = some q') : q' = q := by
  obtain ⟨hl, he⟩ := List.getElem?_eq_some_iff.1 h
  unfold num at hl he
  rw [← he]
  exact List.getElem_idxOf hl

section
variable {own : List Place} (inj : ∀ (g g' : Nat) (p : Place), own[g]? = some p → own[g']? = some p → g = g')
include inj

theorem num_eq {q : Place} {u : Nat} (h : own[u]? = some q) : num own q = u := by
  have hm : q ∈ own := List.mem_of_getElem? h
  refine inj _ _ q ?_ h
  unfold num
  have hl := List.idxOf_lt_length_of_mem hm
  rw [List.getElem?_eq_getElem hl, List.getElem_idxOf hl]

theorem own_num {q : Place} {u : Nat} (h : own[u]? = some q) : own[num own q]? = some q := by
  rw [num_eq inj h]; exact h

end

/-- The turns that are refused, by places. -/
def refused (p : Par P S T D) (d : Doc P) (own : List Place) (x y : Place × Place) (q : Place) : Bool :=
  penalised (turns p d.tags) (nums own x) (nums own y) (num own q)

section
variable {p : Par P S T D} {d : Doc P} {ways : List Way} {own : List Place} (h : Base p d ways own)
include h

theorem Base.at_iff (a v g : Nat) (e : Nat × Nat) : At (fun _ g => (g.src, g.dst)) (turns p d.tags).g a v g e ↔
    ∃ q x, own[g]? = some q ∧ q.node = v ∧ Piece (mapSegs p d ways) a q x ∧ own[e.1]? = some x.1 ∧ own[e.2]? = some x.2 := by
  obtain ⟨g1, g2, g3⟩ := turns_graph p d.tags
  unfold At
  rw [← g1, ← g2, ← g3]
  constructor
  · rintro ⟨i, x, hx, rfl, rfl, hn, ho⟩
    obtain ⟨q, hq, hv⟩ := (h.owns g v).2 ho
    obtain ⟨s, hs, hi⟩ := match_to h.calls x (List.mem_of_getElem? hx)
    refine ⟨q, (s.a, s.b), hq, hv, ⟨s, hs, by rw [← hi.2.2], ?_, rfl⟩, hi.1, hi.2.1⟩
    rcases hn with hn | hn
    · left; rw [← hn, hi.1] at hq; exact Option.some.inj hq
    · right; rw [← hn, hi.2.1] at hq; exact Option.some.inj hq
  · rintro ⟨q, x, hq, hv, ⟨s, hs, hw, hsq, rfl⟩, h1, h2⟩
    obtain ⟨y, hy, hi⟩ := match_from h.calls s hs
    obtain ⟨i, hy'⟩ := List.mem_iff_getElem?.1 hy
    have e1 : y.src = e.1 := h.ties.inj _ _ _ hi.1 h1
    have e2 : y.dst = e.2 := h.ties.inj _ _ _ hi.2.1 h2
    refine ⟨i, y, hy', Prod.ext e1.symm e2.symm, by rw [hi.2.2]; exact hw, ?_, (h.owns g v).1 ⟨q, hq, hv⟩⟩
    rcases hsq with k | k
    · left; exact h.ties.inj _ _ _ (by rw [← k]; exact hi.1) hq
    · right; exact h.ties.inj _ _ _ (by rw [← k]; exact hi.2.1) hq

/-- The ends of pieces are nodes. -/
theorem Base.ends {a : Nat} {q : Place} {x : Place × Place} (hp : Piece (mapSegs p d ways) a q x) :
    own[num own q]? = some q ∧ own[num own x.1]? = some x.1 ∧ own[num own x.2]? = some x.2 := by
  obtain ⟨s, hs, _, hq, rfl⟩ := hp
  obtain ⟨e, _, e1, e2⟩ := h.ties.to s hs
  refine ⟨?_, own_num h.ties.inj e1, own_num h.ties.inj e2⟩
  rcases hq with rfl | rfl
  · exact own_num h.ties.inj e1
  · exact own_num h.ties.inj e2

theorem Base.at_of {a : Nat} {q : Place} {x : Place × Place} (hp : Piece (mapSegs p d ways) a q x) :
    At (fun _ g => (g.src, g.dst)) (turns p d.tags).g a q.node (num own q) (nums own x) :=
  (h.at_iff _ _ _ _).2 ⟨q, x, (h.ends hp).1, rfl, hp, (h.ends hp).2.1, (h.ends hp).2.2⟩

theorem Base.of_at {a v : Nat} {q : Place} {e : Nat × Nat} (hp : At (fun _ g => (g.src, g.dst)) (turns p d.tags).g a v (num own q) e) :
    v = q.node ∧ ∃ x, Piece (mapSegs p d ways) a q x ∧ e = nums own x := by
  obtain ⟨q', x, h1, h2, h3, h4, h5⟩ := (h.at_iff _ _ _ _).1 hp
  have := num_some h1
  subst this
  refine ⟨h2.symm, x, h3, ?_⟩
  obtain ⟨_, k1, k2⟩ := h.ends h3
  unfold nums
  rw [← h.ties.inj _ _ _ h4 k1, ← h.ties.inj _ _ _ h5 k2]

theorem Base.nums_inj {a : Nat} {q : Place} {x y : Place × Place} (hp : Piece (mapSegs p d ways) a q x) (he : nums own x = nums own y) : x = y := by
  obtain ⟨_, k1, k2⟩ := h.ends hp
  have e1 : num own x.1 = num own y.1 := congrArg Prod.fst he
  have e2 : num own x.2 = num own y.2 := congrArg Prod.snd he
  rw [e1] at k1
  rw [e2] at k2
  exact Prod.ext (num_some k1) (num_some k2)

theorem Base.obeys {o : Opts} {X : Type} {rels : List X} {rd : X → Rel} {used : X → Prop}
    (hh : Honours o (fun _ g => (g.src, g.dst)) rels rd used (turns p d.tags)) :
    Obeys o rels rd used (mapSegs p d ways) (refused p d own) := by
  refine ⟨?_, ?_, ?_⟩
  · intro x y q hr
    obtain ⟨r, hr1, hr2, pos, a, b, v, hrule, ha, t, hb, hc⟩ := hh.reason _ _ _ hr
    obtain ⟨rfl, x', hx, hx'⟩ := h.of_at ha
    obtain ⟨_, t', ht, ht'⟩ := h.of_at hb
    have := h.nums_inj hx hx'.symm
    subst this
    refine ⟨r, hr1, hr2, pos, a, b, hrule, hx, t', ht, ?_⟩
    subst ht'
    cases pos with
    | true =>
      rw [if_pos rfl] at hc ⊢
      rintro rfl
      exact hc rfl
    | false => exact h.nums_inj ht hc
  · intro r hr hu a b q hrule hab x y hx hy hone hno
    refine hh.forbid r hr hu a b q.node hrule hab _ _ _ (h.at_of hx) (h.at_of hy) ?_ ?_
    · intro e he
      obtain ⟨_, t, ht, rfl⟩ := h.of_at he
      rw [hone t ht]
    · intro r' hr' hu' a' b' hrule' ha' e he
      obtain ⟨_, x', hx', hx''⟩ := h.of_at ha'
      have := h.nums_inj hx' hx''.symm
      subst this
      obtain ⟨_, t, ht, rfl⟩ := h.of_at he
      exact hno r' hr' hu' a' b' hrule' hx' t ht
  · intro r hr hu a b q hrule hab x y hx hy hone hno c t ht
    refine (hh.only r hr hu a b q.node hrule hab _ _ _ (h.at_of hx) (h.at_of hy) ?_ ?_ _).trans ?_
    · intro e he
      obtain ⟨_, t, ht, rfl⟩ := h.of_at he
      rw [hone t ht]
    · rintro r' hr' hu' a' b' hrule' ha' ⟨e, he⟩
      obtain ⟨_, x', hx', hx''⟩ := h.of_at ha'
      have := h.nums_inj hx' hx''.symm
      subst this
      obtain ⟨_, t, ht, rfl⟩ := h.of_at he
      exact hno r' hr' hu' a' b' hrule' hx' ⟨t, ht⟩
    · constructor
      · rintro k rfl; exact k rfl
      · intro k hk; exact k (h.nums_inj ht hk)

end

theorem may_unmarked {es : List (Edg Nat P)} {res : R Nat (Nat × Nat) Nat} (hu : Uniq es) (hr : RulesIn es res) (e : Edg Nat P) (he : e ∈ es)
    (hm : e.a.restr = false) (y : Nat × Nat) (w : Nat) : res.may (e.src, e.dst) y w = true := by
  have no : ∀ x, x ∈ res.pos w ∨ x ∈ res.neg w → x.1 ≠ (e.src, e.dst) := by
    intro x hx h1
    obtain ⟨f, hf, f1, f2, _⟩ := (hr w x hx).1
    rw [h1] at f1
    have := uniq_eq hu hf he (congrArg Prod.fst f1) (congrArg Prod.snd f1)
    rw [this, hm] at f2
    cases f2
  rw [Restrictor.C19_meaning]
  refine Or.inr ⟨fun x hx hd => no x (Or.inl hx) hd.1, fun hx => no _ (Or.inr hx) rfl⟩

/-- The edge with these ends. -/
def edgeOf (es : List (Edg Nat P)) (x : Nat × Nat) : Edg Nat P :=
  (es.find? fun e => e.src == x.1 && e.dst == x.2).getD ⟨0, 0, attrs0, [], none⟩

theorem edgeOf_eq {es : List (Edg Nat P)} (hu : Uniq es) {e : Edg Nat P} (he : e ∈ es) {x : Nat × Nat} (hx : x = (e.src, e.dst)) :
    edgeOf es x = e := by
  subst hx
  unfold edgeOf
  cases hf : es.find? fun a => a.src == e.src && a.dst == e.dst with
  | none =>
    have := List.find?_eq_none.1 hf e he
    simp at this
  | some a =>
    have h1 := List.find?_some hf
    simp only [Bool.and_eq_true, beq_iff_eq] at h1
    exact uniq_eq hu (List.mem_of_find?_eq_some hf) he h1.1 h1.2

section
variable {p : Par P S T D} (ho : FlaggedOpts p.o) {d : Doc P} {ways : List Way} {own : List Place} (h : Base p d ways own)
  (ht : Tidy p d (mapSegs p d ways))
include ho h ht

theorem Base.turned (hord : ∀ x l, (p.cfg.snap.order x l).Perm l) (hn : ∀ n u, u ∈ p.cfg.nds n ↔ u < n)
    (hopp : ∀ s ∈ mapSegs p d ways, ∀ t ∈ mapSegs p d ways, ¬ (t.a = s.b ∧ t.b = s.a)) :
    ∃ arr lea, Turned p (mapSegs p d ways) (fun u => own[u]?) (Whole.build p d.tags) (refused p d own) arr lea := by
  have hs := h.sane ht.self
  have hm' : ∀ e ∈ (raw p d.tags).es, ∀ f ∈ (raw p d.tags).es, (e.src = f.src ∨ e.src = f.dst ∨ e.dst = f.src ∨ e.dst = f.dst) →
    e.a.oneWay ≠ 0 → f.a.oneWay ≠ 0 → e.a.oneWay = f.a.oneWay := fun e he f hf => h.ties.marks ho ht.sense e f he hf
  have hlt : ∀ u q, own[u]? = some q → u < (raw p d.tags).next := fun u q hq => Nat.lt_of_lt_of_le (List.getElem?_eq_some_iff.1 hq).1 h.len
  rw [h.build ho ht]
  have hno : ∀ e ∈ (raw p d.tags).es, ∀ f ∈ (raw p d.tags).es, f.src = e.dst → f.dst = e.src → f = e := by
    intro e he f hf h1 h2
    obtain ⟨s, hs, s1, s2, _⟩ := h.ties.back e he
    obtain ⟨t, ht', t1, t2, _⟩ := h.ties.back f hf
    rw [h1, s2] at t1
    rw [h2, s1] at t2
    exact absurd ⟨(Option.some.inj t1).symm, (Option.some.inj t2).symm⟩ (hopp s hs t ht')
  let c : Finish.Cfg P S Nat D := { p.cfg with orphans := p.orphOrder (readMap p d.tags).1.orphans }
  obtain ⟨arr, lea, T⟩ := Finish.C74_turns_partial c hord hn (raw p d.tags) hs hm' hno (raw_rules p d.tags)
  obtain ⟨_, _, gu, _⟩ := Finish.C74_graph c hord hn (raw p d.tags) hs hm'
  -- the edge of a piece
  have edge : ∀ {a q x w}, Piece (mapSegs p d ways) a q x → own[w]? = some q → ∃ e ∈ (raw p d.tags).es, (e.src, e.dst) = nums own x ∧
      (w = e.src ∨ w = e.dst) ∧ own[e.src]? = some x.1 ∧ own[e.dst]? = some x.2 ∧ num own q = w := by
    rintro a q x w ⟨s, hs, _, hsq, rfl⟩ hw
    obtain ⟨e, he, e1, e2⟩ := h.ties.to s hs
    refine ⟨e, he, ?_, ?_, e1, e2, num_eq h.ties.inj hw⟩
    · unfold nums; rw [num_eq h.ties.inj e1, num_eq h.ties.inj e2]
    · rcases hsq with k | k
      · left; rw [← k] at hw; exact h.ties.inj _ _ _ hw e1
      · right; rw [← k] at hw; exact h.ties.inj _ _ _ hw e2
  have hmark : ∀ (e : Edg Nat P), e ∈ (raw p d.tags).es → ∀ x : Place × Place, own[e.src]? = some x.1 → own[e.dst]? = some x.2 →
      ((∀ t ∈ mapSegs p d ways, t.a = x.1 → t.b = x.2 → ¬ Against p.o t.way) → e.a.oneWay ≠ 2) ∧
      ((∀ t ∈ mapSegs p d ways, t.a = x.1 → t.b = x.2 → ¬ Along p.o t.way) → e.a.oneWay ≠ 1) := by
    intro e he x e1 e2
    obtain ⟨m2, m1, _⟩ := h.ties.mark ho ht.sense e he ⟨x.1, x.2, ⟨0, [], []⟩⟩ e1 e2
    constructor
    · intro hall h2
      obtain ⟨t, h3, h4, h5, h6⟩ := m2.1 h2
      exact hall t h3 h4 h5 h6
    · intro hall h2
      obtain ⟨t, h3, h4, h5, h6⟩ := m1.1 h2
      exact hall t h3 h4 h5 h6
  refine ⟨fun x q => edgeOf (Finish.finish c (raw p d.tags)).es (arr (nums own x) (num own q)),
    fun x q => edgeOf (Finish.finish c (raw p d.tags)).es (lea (nums own x) (num own q)), ?_, ?_, ?_, ?_, ?_⟩
  · intro w q hw hq a x hx
    obtain ⟨e, he, e1, e2, e3, e4, e5⟩ := edge hx hq
    obtain ⟨f, hf, f1, f2, f3, _⟩ := (T w (hlt w q hq) hw).1 e he e2
    simp only
    rw [e5, ← e1, edgeOf_eq gu hf f1]
    refine ⟨hf, f2, fun hne => ?_⟩
    obtain ⟨k1, k2, k3⟩ := f3 hne
    refine ⟨h.ties.carries e f he ⟨x.1, x.2, ⟨0, [], []⟩⟩ e3 e4 k1 k2, fun hmay => k3 ?_⟩
    rcases hmay with ⟨m1, m2⟩ | ⟨m1, m2⟩
    · exact Or.inl ⟨h.ties.inj _ _ _ e4 (m1 ▸ hq), (hmark e he x e3 e4).1 m2⟩
    · exact Or.inr ⟨h.ties.inj _ _ _ e3 (m1 ▸ hq), (hmark e he x e3 e4).2 m2⟩
  · intro w q hw hq a x hx
    obtain ⟨e, he, e1, e2, e3, e4, e5⟩ := edge hx hq
    obtain ⟨f, hf, f1, f2, f3⟩ := (T w (hlt w q hq) hw).2.1 e he e2
    simp only
    rw [e5, ← e1, edgeOf_eq gu hf f1]
    refine ⟨hf, f2, fun hne => ?_⟩
    obtain ⟨k1, k2, k3⟩ := f3 hne
    refine ⟨h.ties.carries e f he ⟨x.1, x.2, ⟨0, [], []⟩⟩ e3 e4 k1 k2, fun hmay => k3 ?_⟩
    rcases hmay with ⟨m1, m2⟩ | ⟨m1, m2⟩
    · exact Or.inl ⟨h.ties.inj _ _ _ e3 (m1 ▸ hq), (hmark e he x e3 e4).1 m2⟩
    · exact Or.inr ⟨h.ties.inj _ _ _ e4 (m1 ▸ hq), (hmark e he x e3 e4).2 m2⟩
  · intro w q hw hq f hf h1 h2
    obtain ⟨e, he, e1, e2⟩ := (T w (hlt w q hq) hw).2.2.1 f hf h1 h2
    obtain ⟨s, hs', s1, s2, _⟩ := h.ties.back e he
    refine ⟨s.way.id, (s.a, s.b), ⟨s, hs', rfl, ?_, rfl⟩, ?_⟩
    · rcases e1 with k | k
      · left; rw [k, s1] at hq; exact Option.some.inj hq
      · right; rw [k, s2] at hq; exact Option.some.inj hq
    · simp only [nums]
      rw [num_eq h.ties.inj s1, num_eq h.ties.inj s2, num_eq h.ties.inj hq]
      exact edgeOf_eq gu hf e2
  · intro w q hw hq f hf h1 h2
    obtain ⟨e, he, e1, e2⟩ := (T w (hlt w q hq) hw).2.2.2.1 f hf h1 h2
    obtain ⟨s, hs', s1, s2, _⟩ := h.ties.back e he
    refine ⟨s.way.id, (s.a, s.b), ⟨s, hs', rfl, ?_, rfl⟩, ?_⟩
    · rcases e1 with k | k
      · left; rw [k, s1] at hq; exact Option.some.inj hq
      · right; rw [k, s2] at hq; exact Option.some.inj hq
    · simp only [nums]
      rw [num_eq h.ties.inj s1, num_eq h.ties.inj s2, num_eq h.ties.inj hq]
      exact edgeOf_eq gu hf e2
  · intro w q hw hq a x b y hx hy
    obtain ⟨e, he, e1, e2, e3, e4, e5⟩ := edge hx hq
    obtain ⟨e', he', e1', e2', _⟩ := edge hy hq
    obtain ⟨f, hf, f1, f2, _, f3⟩ := (T w (hlt w q hq) hw).1 e he e2
    obtain ⟨f', hf', f1', f2', _⟩ := (T w (hlt w q hq) hw).2.1 e' he' e2'
    have hmay := (T w (hlt w q hq) hw).2.2.2.2 e he e' he' e2 e2'
    simp only
    rw [e5, ← e1, ← e1', edgeOf_eq gu hf f1, edgeOf_eq gu hf' f1', ← f1, ← f1', hmay]
    have hfl : e.a.restr = (turns p d.tags).flags.contains (e.src, e.dst) := by
      obtain ⟨z, _, rfl⟩ := List.mem_map.1 he
      rfl
    have key : penalised (turns p d.tags) (e.src, e.dst) (e'.src, e'.dst) w =
        (e.a.restr && !(run (turns p d.tags).ops).may (e.src, e.dst) (e'.src, e'.dst) w) := by
      unfold penalised
      congr 1
      rw [Bool.eq_iff_iff, hfl]
      exact Iff.trans (by simp) List.contains_iff_mem.symm
    unfold refused
    rw [← e1, ← e1', e5, key]
    show (f.a.restr && !(raw p d.tags).res.may _ _ w) = (e.a.restr && !(raw p d.tags).res.may _ _ w)
    cases hr : e.a.restr with
    | true => rw [f3 hr]
    | false => rw [may_unmarked hs.one (raw_rules p d.tags) e he hr]; simp

end

/-- C76. The routing graph shows the map of the file, if the map is tidy: positions, travel, levels, lines and geometries. Turns are refused as the
turn restrictions of the file say, if there are no pieces between the same places in opposite directions. -/
theorem C76_map_partial (p : Par P S T D) (hf : p.f.Ok) (ho : FlaggedOpts p.o) (hord : ∀ x l, (p.cfg.snap.order x l).Perm l)
    (hn : ∀ n u, u ∈ p.cfg.nds n ↔ u < n) (hsi : ∀ l, (p.cfg.simplify l).head? = l.head? ∧ (p.cfg.simplify l).getLast? = l.getLast?)
    (d : Doc P) (hd : d.Ok) (hw : d.ways ≠ []) (hz : ∀ x ∈ d.rels, ∀ t, ∀ m ∈ kidMembers t x.kids, m.1 ≠ 0) :
    ∃ (ways : List Way) (at_ : Nat → Option Place) (br : DElem P → Rel) (refuse : Place × Place → Place × Place → Place → Bool),
      Kept p d ways ∧ (∀ u v q, at_ u = some q → at_ v = some q → u = v) ∧ (∀ x, ReadsRel p.keysR x (br x)) ∧
      Obeys p.o d.rels br (fun x => RelWanted p.f (br x)) (mapSegs p d ways) refuse ∧
      (Tidy p d (mapSegs p d ways) → Shows p d (mapSegs p d ways) at_ (build p d.tags) ∧
        ((∀ s ∈ mapSegs p d ways, ∀ t ∈ mapSegs p d ways, ¬ (t.a = s.b ∧ t.b = s.a)) →
          ∃ arr lea, Turned p (mapSegs p d ways) at_ (build p d.tags) refuse arr lea)) := by
  obtain ⟨ways, own, h⟩ := base hf d hd
  obtain ⟨br, hbr, hh⟩ := C70_turns_partial hf ho (fun _ g => (g.src, g.dst)) p.keysW p.keysR p.box p.hup p.bbox (fNohup p.o) d hd hw hz
    (turns p d.tags) rfl
  exact ⟨ways, fun u => own[u]?, br, refused p d own, h.kept, fun u v q => h.ties.inj u v q, hbr, h.obeys hh,
    fun ht => ⟨h.shows ho ht hord hn hsi, h.turned ho ht hord hn⟩⟩

/-- C76. If ways between the same places are all one-way in the same sense, or none of them is, the routing graph allows exactly what some way
allows. -/
theorem C76_strict (o : Opts) (ss : List Seg)
    (hs : ∀ s ∈ ss, ∀ t ∈ ss, s.a = t.a → s.b = t.b → (Against o s.way ↔ Against o t.way) ∧ (Along o s.way ↔ Along o t.way)) (a b : Place) :
    Strict o ss a b ↔ Travel o ss a b := by
  constructor
  · intro h
    induction h with
    | refl => exact .refl _
    | ahead _ h1 h2 ih => exact .ahead ih h1 (h2 _ h1 rfl rfl)
    | back _ h1 h2 ih => exact .back ih h1 (h2 _ h1 rfl rfl)
  · intro h
    induction h with
    | refl => exact .refl _
    | ahead _ h1 h2 ih => exact .ahead ih h1 fun t ht e1 e2 h3 => h2 ((hs t ht _ h1 e1 e2).1.1 h3)
    | back _ h1 h2 ih => exact .back ih h1 fun t ht e1 e2 h3 => h2 ((hs t ht _ h1 e1 e2).2.1 h3)

/-! ### examples -/

def kOne : Str := [21]
def vYes : Str := [22]

def exOpts : Opts := { exRules with oneway := [(kOne, [(vYes, 1)])], levels := fun n => if n = 2 then [(kHw, [(vHw, 1)])] else [] }

def exSnap : Snap.Env Nat Nat Nat Int where
  inRange := fun _ _ _ _ => true
  order := fun _ l => l
  proj := fun _ p _ => p
  eqS := fun _ _ _ _ _ => none
  blocked := fun _ _ _ _ => false
  half := fun a b => a == b
  five := fun _ _ => false
  cost := fun a b _ => a + b
  maxLvl := 7
  noTrack := fun _ => false
  copyTrack := fun a _ => a

def exPar : Par Nat Nat Nat Int where
  o := exOpts
  f := exKeep
  keysN := []
  keysW := [kHw, kOne]
  keysR := [sType, kTurn]
  box := exBox
  hup := exHup
  bbox := exIn
  p0 := 0
  info := fun _ => none
  lines := fun w => if w.id = 10 then [7] else []
  track := fun _ => none
  noTrack := fun _ => false
  setTrack := fun _ s => s
  trackOrder := id
  grid := fun _ _ => List.range 9
  near := fun a b => a == b
  orphOrder := id
  cfg := ⟨exSnap, [10], [], List.range, fun e => e.src + e.dst, id, fun e => e.a.cost + 1⟩

/-- A crossing 3 of the ways from 1 (with line 7), to 4 (one-way), and to 5; no turn from 1 to 5. -/
def exCross : Doc Nat where
  header := [⟨0, .other⟩, ⟨1, .other⟩]
  nodes := [⟨1, 1, []⟩, ⟨3, 2, []⟩, ⟨4, 3, []⟩, ⟨5, 4, []⟩]
  ways := [⟨10, [⟨3, .nd 1⟩, ⟨3, .nd 3⟩, ⟨3, .tag kHw vHw⟩]⟩, ⟨20, [⟨3, .nd 3⟩, ⟨3, .nd 4⟩, ⟨3, .tag kHw vHw⟩, ⟨3, .tag kOne vYes⟩]⟩,
    ⟨30, [⟨3, .nd 3⟩, ⟨3, .nd 5⟩, ⟨3, .tag kHw vHw⟩]⟩]
  rels := [exRel 1 10 30 vNo]

/-- Two ways between 1 and 3, the second one is one-way. -/
def exTwin : Doc Nat where
  header := [⟨0, .other⟩, ⟨1, .other⟩]
  nodes := [⟨1, 1, []⟩, ⟨3, 2, []⟩]
  ways := [⟨10, [⟨3, .nd 1⟩, ⟨3, .nd 3⟩, ⟨3, .tag kHw vHw⟩]⟩, ⟨20, [⟨3, .nd 1⟩, ⟨3, .nd 3⟩, ⟨3, .tag kHw vHw⟩, ⟨3, .tag kOne vYes⟩]⟩]
  rels := []

theorem exCross_ok : exCross.Ok := by
  refine ⟨⟨_, _, rfl, by simp [isNode]⟩, by simp [exCross], ?_, ?_, ?_, ?_, ?_⟩
  · exact ⟨by simp [exCross], by simp [exCross], by simp [exCross]⟩
  · exact ⟨by simp [exCross], by simp [exCross], by simp [exCross]⟩
  · exact ⟨by simp [exCross, exRel], by simp [exCross, exRel], by simp [exCross, exRel]⟩
  · simp [exCross, Plain, isNode, isWay, isRel]
  · simp [exCross, Plain, isNode, isWay, isRel, exRel]

theorem exTwin_ok : exTwin.Ok := by
  refine ⟨⟨_, _, rfl, by simp [isNode]⟩, by simp [exTwin], ?_, ?_, ?_, ?_, ?_⟩
  · exact ⟨by simp [exTwin], by simp [exTwin], by simp [exTwin]⟩
  · exact ⟨by simp [exTwin], by simp [exTwin], by simp [exTwin]⟩
  · exact ⟨by simp [exTwin], by simp [exTwin], by simp [exTwin]⟩
  · simp [exTwin, Plain, isNode, isWay, isRel]
  · simp [exTwin, Plain]

theorem exOpts_flagged : FlaggedOpts exOpts := by
  have nil : Flagged [] := fun k vals h => by cases h
  have one : ∀ k v, Flagged [(k, [(v, 1)])] := by
    intro k0 v k vals h r hr
    have := FMap.mem_of_get h
    simp at this
    rw [this.2] at hr
    simp at hr
    simp [hr]
  exact ⟨nil, nil, one _ _, nil, nil, nil, nil, nil, one _ _, one _ _, nil⟩

theorem exPar_kept (d : Doc Nat) (hw : ∀ x ∈ d.ways, 2 ≤ (kidRefs x.kids).length ∧ contained exKeep.keep WAY (readWay exPar.keysW x).attrs ≠ 0 ∧
    ∃ n ∈ kidRefs x.kids, inArea exPar d n = true) : Kept exPar d (d.ways.map (readWay exPar.keysW)) := by
  refine ⟨readRel exPar.keysR, readWay exPar.keysW, fun _ => true, readRel_spec _, readWay_spec _, fun x hx => ⟨fun _ => ?_, fun _ => rfl⟩,
    by rw [List.filter_eq_self.2 fun _ _ => rfl]⟩
  obtain ⟨h1, h2, h3⟩ := hw x hx
  have hr := (readWay_spec exPar.keysW x).nodes
  refine ⟨by rw [hr]; exact h1, Or.inr ((contained_iff exKeep_ok.keep WAY _).1 h2), ?_, ?_⟩
  · rintro ⟨_, _, vals, h, _⟩
    cases h
  · rw [hr]; exact h3

def wayA : Way := ⟨10, [1, 3], [(kHw, vHw)]⟩
def wayB : Way := ⟨20, [3, 4], [(kOne, vYes), (kHw, vHw)]⟩
def wayC : Way := ⟨30, [3, 5], [(kHw, vHw)]⟩
def wayD : Way := ⟨20, [1, 3], [(kOne, vYes), (kHw, vHw)]⟩

theorem exCross_ways : exCross.ways.map (readWay exPar.keysW) = [wayA, wayB, wayC] := by decide +kernel
theorem exTwin_ways : exTwin.ways.map (readWay exPar.keysW) = [wayA, wayD] := by decide +kernel

theorem exCross_segs : mapSegs exPar exCross [wayA, wayB, wayC] =
    [⟨.shared 1, .shared 3, wayA⟩, ⟨.shared 3, .shared 4, wayB⟩, ⟨.shared 3, .shared 5, wayC⟩] := by decide +kernel
theorem exTwin_segs : mapSegs exPar exTwin [wayA, wayD] = [⟨.shared 1, .shared 3, wayA⟩, ⟨.shared 1, .shared 3, wayD⟩] := by decide +kernel

theorem not_against (w : Way) (h : mk1 exOpts w ≠ 2) : ¬ Against exPar.o w := fun k => h ((mk1_iff exOpts_flagged w).1.2 k)

theorem exCross_tidy : Tidy exPar exCross (mapSegs exPar exCross [wayA, wayB, wayC]) := by
  have na : ∀ s ∈ mapSegs exPar exCross [wayA, wayB, wayC], ¬ Against exPar.o s.way := by
    intro s hs
    refine not_against _ ?_
    revert s
    rw [exCross_segs]
    decide +kernel
  refine ⟨?_, fun s hs t ht _ _ _ => iff_of_false (na s hs) (na t ht), Or.inr na, ?_, ?_⟩
  · rw [exCross_segs]; decide +kernel
  · rw [exCross_segs]
    intro s hs q hq
    simp only [List.mem_cons, List.not_mem_nil, or_false] at hs
    rcases hs with rfl | rfl | rfl <;> rcases hq with rfl | rfl <;> decide +kernel
  · rw [exCross_segs]
    have hne : ∀ x ∈ exCross.nodes, ∀ y ∈ exCross.nodes, x.id ≠ y.id → exPar.near y.pos x.pos = false := by decide +kernel
    intro a b ⟨s, hs, hsa, _⟩ ⟨t, ht, htb, _⟩ hab x hx y hy hxa hyb
    refine hne x hx y hy ?_
    rw [hxa, hyb]
    intro hn
    refine hab ?_
    simp only [List.mem_cons, List.not_mem_nil, or_false] at hs ht
    rcases hs with rfl | rfl | rfl <;> rcases hsa with rfl | rfl <;> rcases ht with rfl | rfl | rfl <;> rcases htb with rfl | rfl <;>
      first | rfl | (simp [Place.node] at hn)

theorem exTwin_tidy : Tidy exPar exTwin (mapSegs exPar exTwin [wayA, wayD]) := by
  have na : ∀ s ∈ mapSegs exPar exTwin [wayA, wayD], ¬ Against exPar.o s.way := by
    intro s hs
    refine not_against _ ?_
    revert s
    rw [exTwin_segs]
    decide +kernel
  refine ⟨?_, fun s hs t ht _ _ _ => iff_of_false (na s hs) (na t ht), Or.inr na, ?_, ?_⟩
  · rw [exTwin_segs]; decide +kernel
  · rw [exTwin_segs]
    intro s hs q hq
    simp only [List.mem_cons, List.not_mem_nil, or_false] at hs
    rcases hs with rfl | rfl <;> rcases hq with rfl | rfl <;> decide +kernel
  · rw [exTwin_segs]
    have hne : ∀ x ∈ exTwin.nodes, ∀ y ∈ exTwin.nodes, x.id ≠ y.id → exPar.near y.pos x.pos = false := by decide +kernel
    intro a b ⟨s, hs, hsa, _⟩ ⟨t, ht, htb, _⟩ hab x hx y hy hxa hyb
    refine hne x hx y hy ?_
    rw [hxa, hyb]
    intro hn
    refine hab ?_
    simp only [List.mem_cons, List.not_mem_nil, or_false] at hs ht
    rcases hs with rfl | rfl <;> rcases hsa with rfl | rfl <;> rcases ht with rfl | rfl <;> rcases htb with rfl | rfl <;>
      first | rfl | (simp [Place.node] at hn)

/-- The hypotheses of `C76_map_partial` hold for the crossing. Node 0 is the place 1, node 1 the place 3, and so on. The edges lead both ways, those
against the one-way street are marked with 2; the turn from (0, 1) to (1, 3) is refused. -/
example : exPar.f.Ok ∧ FlaggedOpts exPar.o ∧ (∀ x l, (exPar.cfg.snap.order x l).Perm l) ∧ (∀ n u, u ∈ exPar.cfg.nds n ↔ u < n) ∧
    (∀ l, (exPar.cfg.simplify l).head? = l.head? ∧ (exPar.cfg.simplify l).getLast? = l.getLast?) ∧ exCross.Ok ∧ exCross.ways ≠ [] ∧
    (∀ x ∈ exCross.rels, ∀ t, ∀ m ∈ kidMembers t x.kids, m.1 ≠ 0) ∧
    Kept exPar exCross [wayA, wayB, wayC] ∧ Tidy exPar exCross (mapSegs exPar exCross [wayA, wayB, wayC]) ∧
    ((build exPar exCross.tags).es.map fun e => (e.src, e.dst, e.a.oneWay.val, e.lines, e.a.lvl.val)) =
      [(0, 1, 0, [7], 2), (1, 2, 1, [], 2), (1, 3, 0, [], 2), (1, 0, 0, [7], 2), (2, 1, 2, [], 2), (3, 1, 0, [], 2)] ∧
    (build exPar exCross.tags).nds = [0, 1, 2, 3] ∧ (build exPar exCross.tags).res.may (0, 1) (1, 3) 1 = false := by
  refine ⟨exKeep_ok, exOpts_flagged, fun _ _ => .refl _, fun n u => List.mem_range, fun _ => ⟨rfl, rfl⟩, exCross_ok, by simp [exCross], ?_, ?_,
    exCross_tidy, by decide +kernel, by decide +kernel, by decide +kernel⟩
  · intro x hx t m hm
    simp only [exCross, List.mem_singleton] at hx
    subst hx
    cases t <;> revert m <;> decide +kernel
  · have := exPar_kept exCross (by decide +kernel)
    rwa [exCross_ways] at this

/-- C76, negation: of two ways between the same places the one-way way also decides about the other: one can travel back from 3 to 1 along the way
10, but not in the routing graph. -/
theorem C76_negation_overlap : Kept exPar exTwin [wayA, wayD] ∧ Tidy exPar exTwin (mapSegs exPar exTwin [wayA, wayD]) ∧
    Travel exPar.o (mapSegs exPar exTwin [wayA, wayD]) (.shared 3) (.shared 1) ∧
    (readMap exPar exTwin.tags).1.nodes.get 3 = some 1 ∧ (readMap exPar exTwin.tags).1.nodes.get 1 = some 0 ∧
    (build exPar exTwin.tags).nds = [0, 1] ∧ ¬ Drive (build exPar exTwin.tags).es 1 0 := by
  refine ⟨?_, exTwin_tidy, ?_, by decide +kernel, by decide +kernel, by decide +kernel, fun h => ?_⟩
  · have := exPar_kept exTwin (by decide +kernel)
    rwa [exTwin_ways] at this
  · rw [exTwin_segs]
    refine .back (s := ⟨.shared 1, .shared 3, wayA⟩) (.refl _) List.mem_cons_self fun k => ?_
    have := (mk1_iff exOpts_flagged wayA).2.2 k
    revert this
    decide +kernel
  · have := Finish.drive_stays (by decide +kernel) h
    cases this

end Verif.Whole
