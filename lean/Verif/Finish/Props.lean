import Verif.Finish.Lemmas

/-!
# C74: the routing graph and the map

The graph a router works on is what `OsmBuilder::read` leaves behind after placing stations, collapsing edges, dropping nodes and adding
reverse and self edges. Travel and turns in it are those of the map.
-/

set_option linter.unusedSectionVars false

namespace Verif.Finish
open Verif.Collapse Verif.Payload Verif.Restrictor Verif.Snap

variable {P S W D : Type} [DecidableEq W]

theorem isStat_iff (pl : NState Nat S) (n : Nat) : isStat pl n = true ↔ ∃ i, pl.getSI n = some (some i) := by
  unfold isStat
  cases h : pl.getSI n with
  | none => simp
  | some x => cases x <;> simp

theorem touched_iff (es : List (Edg Nat P)) (n : Nat) : (ins es n).length + (outs es n).length ≠ 0 ↔ Touched es n := by
  constructor
  · intro h
    match h1 : ins es n, h2 : outs es n with
    | [], [] => rw [h1, h2] at h; exact absurd rfl h
    | a :: l, _ =>
      have := mem_ins.1 (by rw [h1]; simp : a ∈ ins es n)
      exact ⟨a, this.1, Or.inr this.2⟩
    | [], a :: l =>
      have := mem_outs.1 (by rw [h2]; simp : a ∈ outs es n)
      exact ⟨a, this.1, Or.inl this.2⟩
  · rintro ⟨e, he, h | h⟩
    · have := List.length_pos_of_mem (mem_outs.2 ⟨he, h⟩)
      omega
    · have := List.length_pos_of_mem (mem_ins.2 ⟨he, h⟩)
      omega

theorem collapse_origin (g : Nodes Nat P) (nds : List Nat) (es : List (Edg Nat P)) (hu : Uniq es) :
    ∀ f ∈ nds.foldl (collapseAt g) es, ∃ e ∈ es, f.lines = e.lines ∧ f.a.lvl = e.a.lvl ∧ f.a.oneWay = e.a.oneWay := by
  induction nds generalizing es with
  | nil => intro f hf; exact ⟨f, hf, rfl, rfl, rfl⟩
  | cons n nds ih =>
    intro f hf
    rw [List.foldl_cons] at hf
    rcases collapseAt_spec g es hu n with k | ⟨p, q, Sp⟩
    · rw [k] at hf; exact ih es hu f hf
    · obtain ⟨x, hx, h1, h2⟩ := ih _ Sp.uniq f hf
      rcases (Sp.mem x).1 hx with rfl | ⟨hx, _⟩
      · exact ⟨p, Sp.pm, h1, h2⟩
      · exact ⟨x, hx, h1, h2⟩

theorem collapse_fits (g : Nodes Nat P) (nds : List Nat) (es : List (Edg Nat P)) (hu : Uniq es)
    (h : ∀ e ∈ es, e.a.rev = false ∧ (e.src ≠ e.dst → Fits g.pos e)) :
    ∀ f ∈ nds.foldl (collapseAt g) es, f.a.rev = false ∧ (f.src ≠ f.dst → Fits g.pos f) := by
  induction nds generalizing es with
  | nil => exact h
  | cons n nds ih =>
    rw [List.foldl_cons]
    rcases collapseAt_spec g es hu n with k | ⟨p, q, Sp⟩
    · rw [k]; exact ih es hu h
    · refine ih _ Sp.uniq fun x hx => ?_
      rcases (Sp.mem x).1 hx with rfl | ⟨hx, _⟩
      · refine ⟨(h p Sp.pm).1, fun hne => ?_⟩
        have hfp : Fits g.pos p := (h p Sp.pm).2 (by
          rcases Sp.pe with ⟨k1, k2⟩ | ⟨k1, k2⟩
          · rw [k1]; exact fun h => k2 h.symm
          · rw [k1]; exact k2)
        have hfq : Fits g.pos q := (h q Sp.qm).2 (by
          rcases Sp.qe with ⟨k1, k2⟩ | ⟨k1, k2⟩
          · rw [k1]; exact fun h => k2 h.symm
          · rw [k1]; exact k2)
        obtain ⟨m, hm, m1, m2, _, _, _, _, _, m3⟩ := step_geometry g es _ n p q Sp ⟨hfp, hfq⟩ hne
        have := uniq_eq Sp.uniq hm hx m1 m2
        rw [← this]; exact m3
      · exact h x hx

theorem mergeGeom_mem (pos : Nat → P) (a b : Edg Nat P) :
    (∀ x ∈ a.geom.getD [pos a.src, pos a.dst], x ∈ mergeGeom pos a b) ∧ ∀ l, b.geom = some l → ∀ x ∈ l, x ∈ mergeGeom pos a b := by
  unfold mergeGeom
  simp only
  cases hb : b.geom with
  | none =>
    refine ⟨fun x hx => ?_, fun l hl => by cases hl⟩
    split
    · exact List.mem_append_left _ hx
    · split
      · exact List.mem_append_left _ hx
      · split
        · exact List.mem_append_left _ (List.mem_reverse.2 hx)
        · exact List.mem_append_left _ (List.mem_reverse.2 hx)
  | some gb =>
    refine ⟨fun x hx => ?_, fun l hl x hx => ?_⟩
    · split
      · exact List.mem_append_left _ hx
      · split
        · exact List.mem_append_left _ hx
        · split
          · exact List.mem_append_left _ (List.mem_reverse.2 hx)
          · exact List.mem_append_left _ (List.mem_reverse.2 hx)
    · cases hl
      split
      · exact List.mem_append_right _ (List.mem_reverse.2 hx)
      · split
        · exact List.mem_append_right _ hx
        · split
          · exact List.mem_append_right _ (List.mem_reverse.2 hx)
          · exact List.mem_append_right _ hx

/-- A node has edges, or lies on the line of an edge. -/
def On (pos : Nat → P) (es : List (Edg Nat P)) (n : Nat) : Prop := Touched es n ∨ ∃ e ∈ es, ∃ l, e.geom = some l ∧ pos n ∈ l

theorem collapse_on (g : Nodes Nat P) (nds : List Nat) (es : List (Edg Nat P)) (hu : Uniq es)
    (h : ∀ e ∈ es, e.a.rev = false ∧ (e.src ≠ e.dst → Fits g.pos e)) (n : Nat) (hn : On g.pos es n) :
    On g.pos (nds.foldl (collapseAt g) es) n := by
  induction nds generalizing es with
  | nil => exact hn
  | cons m nds ih =>
    have hall := collapse_fits g [m] es hu h
    rw [List.foldl_cons]
    rcases collapseAt_spec g es hu m with k | ⟨p, q, Sp⟩
    · rw [k]; exact ih es hu h hn
    · refine ih _ Sp.uniq hall ?_
      have hmm : merged g.pos m p q ∈ collapseAt g es m := (Sp.mem _).2 (Or.inl rfl)
      obtain ⟨m1, m2⟩ := mergeGeom_mem g.pos p q
      rcases hn with ht | ⟨e, he, l, hl, hx⟩
      · by_cases hnm : n = m
        · right
          refine ⟨_, hmm, _, rfl, m1 _ ?_⟩
          cases hg : p.geom with
          | none =>
            rcases Sp.pe with ⟨k, _⟩ | ⟨k, _⟩
            · rw [hnm, ← k]; simp
            · rw [hnm, ← k]; simp
          | some l =>
            have hfp : Fits g.pos p := (h p Sp.pm).2 (by
              rcases Sp.pe with ⟨k1, k2⟩ | ⟨k1, k2⟩
              · rw [k1]; exact fun h => k2 h.symm
              · rw [k1]; exact k2)
            obtain ⟨f1, f2⟩ := hfp l hg
            rcases Sp.pe with ⟨k, _⟩ | ⟨k, _⟩
            · rw [hnm, ← k]; exact List.mem_of_mem_head? (show _ ∈ l.head? by rw [f1]; rfl)
            · rw [hnm, ← k]; exact List.mem_of_mem_getLast? (show _ ∈ l.getLast? by rw [f2]; rfl)
        · exact Or.inl ((Sp.touched n hnm).2 ht)
      · right
        by_cases hn : e.src = m ∨ e.dst = m
        · rcases Sp.all e he hn with rfl | rfl
          · exact ⟨_, hmm, _, rfl, m1 _ (by rw [hl]; exact hx)⟩
          · exact ⟨_, hmm, _, rfl, m2 l hl _ hx⟩
        · exact ⟨e, (Sp.mem e).2 (Or.inr ⟨he, fun h => hn (Or.inl h), fun h => hn (Or.inr h)⟩), l, hl, hx⟩

/-- The parts of the result. -/
structure Stages (c : Cfg P S W D) (st : St P S W) (s1 : St P S W) (es1 es2 : List (Edg Nat P)) : Prop where
  inv : Inv s1
  later : ∃ cur, Later st s1 cur
  uniq1 : Uniq es1
  uniq2 : Uniq es2
  reach : ∀ u w, u ∈ (finish c st).nds → w ∈ (finish c st).nds → (Reach s1.es u w ↔ Reach es2 u w)
  nds : ∀ n, n ∈ (finish c st).nds ↔ n < s1.next ∧ (Touched es2 n ∨ ∃ i, s1.pl.getSI n = some (some i))
  keep : ∀ n ∈ (finish c st).nds, Touched s1.es n → Touched es1 n
  lt : ∀ e ∈ es2, e.src < s1.next ∧ e.dst < s1.next
  mild : ∃ f, Mild f ∧ es2 = es1.map f
  marks : Marks es2
  tame : (NoOpp st.es ∨ ∀ e ∈ st.es, e.a.oneWay ≠ 2) → (NoOpp es2 ∨ ∀ e ∈ es2, e.a.oneWay ≠ 2)
  pass : ∃ es3, Pass es2 es3 ∧ ∃ f, (Mild f ∧ ∀ e, (f e).geom = e.geom ∧ (f e).a.rev = e.a.rev) ∧ Selfs s1.pl (es3.map f) (finish c st).es ∧
    ∀ n ∈ (finish c st).nds, isStat s1.pl n = true → Rest (finish c st).es n
  pl : (finish c st).pl = s1.pl
  pos : (finish c st).pos = s1.pos

theorem stages (c : Cfg P S W D) (ho : ∀ p l, (c.snap.order p l).Perm l) (hn : ∀ n u, u ∈ c.nds n ↔ u < n) (st : St P S W) (hs : Sane st)
    (hm : Marks st.es) :
    let s1 := snapStats c.snap c.ds c.orphans st
    let es1 := collapse (nodes c s1) s1.es
    Stages c st s1 es1 ((es1.map (writeGeom c s1.pos)).map (simplifyGeom c)) := by
  intro s1 es1
  obtain ⟨hl, hI⟩ := snapStats_later c.snap ho c.ds c.orphans st hs.inv
  have hm1 : Marks s1.es := snapStats_ind c.snap ho (fun s => Marks s.es) (fun _ _ h => h)
    (fun s hI e he o g h => marks_split c.snap o s hI e he g h) c.ds c.orphans st hs.inv hm
  obtain ⟨k1, k2, k3, k4⟩ := collapse_fold (nodes c s1) (nodes c s1).nds s1.es hI.uniq
  have k1 : Uniq es1 := k1
  have hmes : Marks es1 := by
    have : ∀ (nds : List Nat) (es : List (Edg Nat P)), Uniq es → Marks es → Marks (nds.foldl (collapseAt (nodes c s1)) es) := by
      intro nds
      induction nds with
      | nil => intro es _ h; exact h
      | cons n nds ih =>
        intro es hu h
        rw [List.foldl_cons]
        rcases collapseAt_spec (nodes c s1) es hu n with k | ⟨p, q, Sp⟩
        · rw [k]; exact ih es hu h
        · exact ih _ Sp.uniq (Sp.marks h)
    exact this _ _ hI.uniq hm1
  have htame : (NoOpp st.es ∨ ∀ e ∈ st.es, e.a.oneWay ≠ 2) → (NoOpp es1 ∨ ∀ e ∈ es1, e.a.oneWay ≠ 2) := by
    rintro (h | h)
    · left
      have : NoOpp s1.es := snapStats_ind c.snap ho (fun s => NoOpp s.es) (fun _ _ h => h)
        (fun s hI e he o g h => noOpp_split c.snap o s hI e he g h) c.ds c.orphans st hs.inv h
      exact (collapse_coll (nodes c s1) (nodes c s1).nds s1.es hI.uniq hm1 this).2.2.1
    · right
      intro f hf
      obtain ⟨e, he, _, _, k⟩ := collapse_origin _ _ _ hI.uniq f hf
      obtain ⟨cur, hl⟩ := hl
      obtain ⟨d, hd, hk, _⟩ := hl.part e he
      rw [k, hk.oneWay]
      exact h d hd
  have hg := mild_geom c s1.pos
  have hsi := mild_simplify c
  have hmild : Mild (simplifyGeom c ∘ writeGeom c s1.pos) := hg.comp hsi
  have hes2 : (es1.map (writeGeom c s1.pos)).map (simplifyGeom c) = es1.map (simplifyGeom c ∘ writeGeom c s1.pos) := by
    rw [List.map_map]
  have hlt1 : ∀ n, Touched s1.es n → n < s1.next := by
    rintro n ⟨e, he, h | h⟩
    · rw [← h]; exact (hI.lt e he).1
    · rw [← h]; exact (hI.lt e he).2
  have hlt : ∀ n, Touched es1 n → n < s1.next := fun n h => hlt1 n (k2 n h)
  have hnds : ∀ n, n ∈ (finish c st).nds ↔ n < s1.next ∧ (Touched es1 n ∨ isStat s1.pl n = true) := by
    intro n
    show n ∈ deleteOrphNds s1.pl (es1.map (writeGeom c s1.pos)) (c.nds s1.next) ↔ _
    unfold deleteOrphNds
    rw [List.mem_filter, hn, Bool.or_eq_true, decide_eq_true_eq, touched_iff, hg.touched]
  have hpass : Pass (es1.map (simplifyGeom c ∘ writeGeom c s1.pos))
      (writeODirR (finish c st).nds (es1.map (simplifyGeom c ∘ writeGeom c s1.pos), s1.res)).1 := by
    refine writeODirR_pass _ _ _ (hmild.uniq _ k1) ?_
    intro e he
    have ht : Touched es1 e.src := (hmild.touched es1 e.src).1 ⟨e, he, Or.inl rfl⟩
    exact (hnds _).2 ⟨hlt _ ht, Or.inl ht⟩
  have hpen := mild_pen c
  have hopp : Opp ((writeODirR (finish c st).nds (es1.map (simplifyGeom c ∘ writeGeom c s1.pos), s1.res)).1.map (writePen c)) := by
    intro e he
    obtain ⟨x, hx, rfl⟩ := List.mem_map.1 he
    obtain ⟨f, hf, f1, f2⟩ := hpass.opp x hx
    exact ⟨writePen c f, List.mem_map.2 ⟨f, hf, rfl⟩, f1, f2⟩
  obtain ⟨w1, w2⟩ := writeSelfEdgs_selfs s1.pl s1.pos (finish c st).nds _ (hpen.uniq _ hpass.twins.uniq) hopp
  have hfin : (finish c st).es = writeSelfEdgs s1.pl s1.pos (finish c st).nds
      ((writeODirR (finish c st).nds (es1.map (simplifyGeom c ∘ writeGeom c s1.pos), s1.res)).1.map (writePen c)) := by
    rw [← hes2]
    rfl
  have hkeep : ∀ n ∈ (finish c st).nds, Touched s1.es n → Touched es1 n := by
    intro n hnn ht
    rcases ((hnds n).1 hnn).2 with h | h
    · exact h
    · exact k3 n (by show (isStat s1.pl n || _) = true; rw [h]; rfl) ht
  rw [hes2]
  refine ⟨hI, hl, k1, hmild.uniq _ k1, ?_, ?_, hkeep, ?_, ⟨_, hmild, rfl⟩, hmild.marks _ hmes, ?_, ⟨_, hpass, _, ⟨hpen, fun _ => ⟨rfl, rfl⟩⟩, ?_, ?_⟩, rfl, rfl⟩
  · intro u w hu hw
    rw [hmild.reach]
    constructor
    · intro h
      rcases reach_isolated h with rfl | ⟨tu, tw⟩
      · exact .refl _
      · exact (k4 hm1 u w (hkeep u hu tu) (hkeep w hw tw)).1 h
    · intro h
      rcases reach_isolated h with rfl | ⟨tu, tw⟩
      · exact .refl _
      · exact (k4 hm1 u w tu tw).2 h
  · intro n
    rw [hnds, hmild.touched, isStat_iff]
  · intro e he
    exact ⟨hlt _ ((hmild.touched es1 _).1 ⟨e, he, Or.inl rfl⟩), hlt _ ((hmild.touched es1 _).1 ⟨e, he, Or.inr rfl⟩)⟩
  · intro h
    rcases htame h with h | h
    · exact Or.inl (hmild.noOpp _ h)
    · right
      intro e he
      obtain ⟨x, hx, rfl⟩ := List.mem_map.1 he
      rw [hmild.way]; exact h x hx
  · rw [hfin]; exact w1
  · rw [hfin]; exact w2

section
variable (c : Cfg P S W D) (ho : ∀ p l, (c.snap.order p l).Perm l) (hn : ∀ n u, u ∈ c.nds n ↔ u < n) (st : St P S W) (hs : Sane st)
  (hm : ∀ e ∈ st.es, ∀ f ∈ st.es, (e.src = f.src ∨ e.src = f.dst ∨ e.dst = f.src ∨ e.dst = f.dst) → e.a.oneWay ≠ 0 → f.a.oneWay ≠ 0 →
    e.a.oneWay = f.a.oneWay)
include ho hn hs hm

/-- C74. Between nodes of the map that are still there, one can travel in the routing graph exactly as in the map. They are where they
were. (One-way edges that meet are drawn in the same sense, and two edges between the same nodes in opposite directions are not drawn
against the direction of travel.) -/
theorem C74_travel_partial (hx : (∀ e ∈ st.es, ∀ f ∈ st.es, f.src = e.dst → f.dst = e.src → f = e) ∨ ∀ e ∈ st.es, e.a.oneWay ≠ 2) :
    let g := finish c st
    (∀ u, u < st.next → g.pos u = st.pos u) ∧
    ∀ u w, u ∈ g.nds → w ∈ g.nds → u < st.next → w < st.next → (Drive g.es u w ↔ Reach st.es u w) := by
  intro g
  have T := stages c ho hn st hs hm
  obtain ⟨cur, hl⟩ := T.later
  refine ⟨fun u hu => ?_, fun u w hu hw hu' hw' => ?_⟩
  · show (finish c st).pos u = st.pos u
    rw [T.pos]; exact hl.pos u hu
  · obtain ⟨es3, hp, f, ⟨hf, _⟩, hsf, _⟩ := T.pass
    rw [hl.reach u w hu' hw', T.reach u w hu hw, hsf.drive, hf.drive, hp.drive T.uniq2 (T.tame hx)]

/-- C74. The nodes of the routing graph are those with edges and the stations. Edges run between them, at most one from a node to
another, and with each edge there is one in the other direction. -/
theorem C74_graph :
    let g := finish c st
    (∀ e ∈ g.es, e.src ∈ g.nds ∧ e.dst ∈ g.nds) ∧
    (∀ n ∈ g.nds, (∃ e ∈ g.es, e.src = n) ∨ ∃ i, g.pl.getSI n = some (some i)) ∧
    (g.es.Pairwise fun e f => ¬ (e.src = f.src ∧ e.dst = f.dst)) ∧
    ∀ e ∈ g.es, ∃ f ∈ g.es, f.src = e.dst ∧ f.dst = e.src := by
  intro g
  have T := stages c ho hn st hs hm
  obtain ⟨es3, hp, f, ⟨hf, _⟩, hsf, _⟩ := T.pass
  have hopp : Opp (es3.map f) := by
    intro e he
    obtain ⟨x, hx, rfl⟩ := List.mem_map.1 he
    obtain ⟨y, hy, y1, y2⟩ := hp.opp x hx
    exact ⟨f y, List.mem_map.2 ⟨y, hy, rfl⟩, by rw [hf.src, hf.dst]; exact y1, by rw [hf.src, hf.dst]; exact y2⟩
  have h3 : ∀ e ∈ es3, e.src ∈ g.nds ∧ e.dst ∈ g.nds := by
    intro e he
    rcases hp.mem e he with k | ⟨d, k, rfl, _⟩
    · exact ⟨(T.nds _).2 ⟨(T.lt e k).1, Or.inl ⟨e, k, Or.inl rfl⟩⟩, (T.nds _).2 ⟨(T.lt e k).2, Or.inl ⟨e, k, Or.inr rfl⟩⟩⟩
    · exact ⟨(T.nds _).2 ⟨(T.lt d k).2, Or.inl ⟨d, k, Or.inr rfl⟩⟩, (T.nds _).2 ⟨(T.lt d k).1, Or.inl ⟨d, k, Or.inl rfl⟩⟩⟩
  refine ⟨?_, ?_, hsf.uniq, hsf.opp hopp⟩
  · intro e he
    rcases hsf.back e he with k | ⟨k1, _, _, ⟨a, ha, k2⟩, _⟩
    · obtain ⟨x, hx, rfl⟩ := List.mem_map.1 k
      rw [hf.src, hf.dst]; exact h3 x hx
    · obtain ⟨x, hx, rfl⟩ := List.mem_map.1 ha
      rw [hf.src] at k2
      rw [← k1, ← k2]
      exact ⟨(h3 x hx).1, (h3 x hx).1⟩
  · intro n hnn
    rcases ((T.nds n).1 hnn).2 with ⟨e, he, h⟩ | h
    · left
      obtain ⟨x, hx, h⟩ : ∃ x ∈ es3, x.src = n := by
        rcases h with h | h
        · exact ⟨e, hp.sub e he, h⟩
        · obtain ⟨y, hy, y1, _⟩ := hp.opp e (hp.sub e he)
          exact ⟨y, hy, y1.trans h⟩
      obtain ⟨y, hy, y1, _⟩ := hsf.ends (f x) (List.mem_map.2 ⟨x, hx, rfl⟩)
      exact ⟨y, hy, by rw [y1, hf.src]; exact h⟩
    · right
      show ∃ i, (finish c st).pl.getSI n = some (some i)
      rw [T.pl]; exact h

/-- C74. A vehicle that arrives at a station can go on without turning back: there is an edge that does not lead where it came from. -/
theorem C74_rest :
    let g := finish c st
    ∀ n ∈ g.nds, (∃ i, g.pl.getSI n = some (some i)) → ∀ e ∈ g.es, e.dst = n → e.src ≠ n → ∃ f ∈ g.es, f.src = n ∧ f.dst ≠ e.src := by
  intro g n hnn hi
  have T := stages c ho hn st hs hm
  obtain ⟨es3, hp, f, ⟨hf, _⟩, hsf, hr⟩ := T.pass
  refine hr n hnn ((isStat_iff _ _).2 ?_)
  rw [← T.pl]
  exact hi

/-- C74. Every edge has the level and lines of an edge of the map, but for edges from a station to itself. Such an edge costs as much as
an edge can, and all other edges that leave the station lead to one and the same node. -/
theorem C74_origin :
    let g := finish c st
    ∀ f ∈ g.es, (∃ e ∈ st.es, f.lines = e.lines ∧ f.a.lvl = e.a.lvl) ∨
      (f.src = f.dst ∧ (∃ i, g.pl.getSI f.src = some (some i)) ∧ f.a.cost = 4294967295 ∧
        ∀ a ∈ g.es, ∀ b ∈ g.es, a.src = f.src → b.src = f.src → a.dst ≠ f.src → b.dst ≠ f.src → a.dst = b.dst) := by
  intro g x hx
  have T := stages c ho hn st hs hm
  obtain ⟨es3, hp, f, ⟨hf, _⟩, hsf, hr⟩ := T.pass
  obtain ⟨f', hf', hes2⟩ := T.mild
  obtain ⟨cur, hl⟩ := T.later
  rcases hsf.back x hx with k | ⟨k1, k2, k3, _, k4⟩
  · left
    obtain ⟨y, hy, rfl⟩ := List.mem_map.1 k
    rw [hf.lines, hf.lvl]
    obtain ⟨z, hz, z1, z2⟩ : ∃ z ∈ (((collapse (nodes c (snapStats c.snap c.ds c.orphans st)) (snapStats c.snap c.ds c.orphans st).es).map
        (writeGeom c (snapStats c.snap c.ds c.orphans st).pos)).map (simplifyGeom c)), y.lines = z.lines ∧ y.a.lvl = z.a.lvl := by
      rcases hp.mem y hy with h | ⟨d, h, rfl, _⟩
      · exact ⟨y, h, rfl, rfl⟩
      · exact ⟨d, h, rfl, rfl⟩
    rw [hes2] at hz
    obtain ⟨w, hw, rfl⟩ := List.mem_map.1 hz
    rw [hf'.lines] at z1
    rw [hf'.lvl] at z2
    obtain ⟨v, hv, v1, v2, _⟩ := collapse_origin _ _ _ T.inv.uniq w hw
    obtain ⟨e, he, hk, _⟩ := hl.part v hv
    exact ⟨e, he, by rw [z1, v1, hk.lines], by rw [z2, v2, hk.lvl]⟩
  · right
    refine ⟨k1, ?_, k3, ?_⟩
    · show ∃ i, (finish c st).pl.getSI x.src = some (some i)
      rw [T.pl]; exact (isStat_iff _ _).1 k2
    · intro a ha b hb a1 b1 a2 b2
      have hmem : ∀ e ∈ (finish c st).es, e.src = x.src → e.dst ≠ x.src → e ∈ es3.map f := by
        intro e he h1 h2
        rcases hsf.back e he with k | k
        · exact k
        · exact absurd (k.1.symm.trans h1) h2
      exact k4 a (hmem a ha a1 a2) b (hmem b hb b1 b2) a1 b1

/-- C74. Stations of the map stay, with their infos but for a track that may have been filled in. -/
theorem C74_stations
    (hv : ∀ u, st.pl.si u = 0 ∨ st.pl.si u = u32max ∨ st.pl.si u = u32max - 1 ∨ (1 ≤ st.pl.si u ∧ st.pl.si u ≤ st.pl.infos.length))
    (hos : ∀ o ∈ c.orphans, o < st.next ∧ ∃ i, st.pl.getSI o = some (some i))
    (hsm : (finish c st).pl.infos.length < u32max - 1) :
    let g := finish c st
    ∀ u, u < st.next → ∀ i, st.pl.getSI u = some (some i) → u ∈ g.nds ∧ ∃ j, g.pl.getSI u = some (some j) ∧ Tracked c.snap i j := by
  intro g u hu i hi
  have T := stages c ho hn st hs hm
  obtain ⟨cur, hl⟩ := T.later
  have h := (C73_stations_partial c.snap ho c.ds c.orphans st hs hv hos hsm).1 u hu i hi
  obtain ⟨j, hj, ht⟩ := h
  refine ⟨(T.nds u).2 ⟨Nat.lt_of_lt_of_le hu hl.next, Or.inr ⟨j, hj⟩⟩, j, ?_, ht⟩
  show (finish c st).pl.getSI u = _
  rw [T.pl]; exact hj

/-- C74. The line of an edge leads from the position of its start to that of its end; it is stored the other way round for reverse edges.
Each node that is no longer there is a point of a line, before the line is simplified.
(The edges of the map have no lines of their own, and simplifying a line keeps its ends.) -/
theorem C74_lines_partial (hg : ∀ e ∈ st.es, e.geom = none) (hrev : ∀ e ∈ st.es, e.a.rev = false)
    (hsi : ∀ l, (c.simplify l).head? = l.head? ∧ (c.simplify l).getLast? = l.getLast?) :
    let g := finish c st
    (∀ e ∈ g.es, e.src ≠ e.dst → ∃ l, e.geom = some l ∧
      (if e.a.rev = true then l.reverse else l).head? = some (g.pos e.src) ∧
      (if e.a.rev = true then l.reverse else l).getLast? = some (g.pos e.dst)) ∧
    ∀ n, n < st.next → (∃ e ∈ st.es, e.src = n ∨ e.dst = n) → n ∈ g.nds ∨
      ∃ e ∈ g.es, ∃ l rest, e.geom = some (c.simplify l ++ rest) ∧ st.pos n ∈ l := by
  intro g
  have T := stages c ho hn st hs hm
  dsimp only at T
  obtain ⟨cur, hl⟩ := T.later
  obtain ⟨s1, hs1⟩ : ∃ s1, s1 = snapStats c.snap c.ds c.orphans st := ⟨_, rfl⟩
  rw [← hs1] at T hl
  have h1 : ∀ e ∈ s1.es, e.geom = none ∧ e.a.rev = false := by
    intro e he
    obtain ⟨d, hd, hk, _⟩ := hl.part e he
    exact ⟨hk.geom.trans (hg d hd), hk.rev.trans (hrev d hd)⟩
  have h2 : ∀ e ∈ collapse (nodes c s1) s1.es, e.a.rev = false ∧ (e.src ≠ e.dst → Fits s1.pos e) :=
    collapse_fits (nodes c s1) _ s1.es T.inv.uniq fun e he => ⟨(h1 e he).2, fun _ l hl => by rw [(h1 e he).1] at hl; cases hl⟩
  obtain ⟨es3, hp, f, ⟨hf, hf'⟩, hsf, _⟩ := T.pass
  have h3 : ∀ e ∈ ((collapse (nodes c s1) s1.es).map (writeGeom c s1.pos)).map (simplifyGeom c), e.a.rev = false ∧
      (e.src ≠ e.dst → ∃ l, e.geom = some l ∧ l.head? = some (s1.pos e.src) ∧ l.getLast? = some (s1.pos e.dst)) := by
    intro e he
    obtain ⟨x, hx, rfl⟩ := List.mem_map.1 he
    obtain ⟨y, hy, rfl⟩ := List.mem_map.1 hx
    obtain ⟨k1, k2⟩ := h2 y hy
    refine ⟨k1, fun hne => ⟨c.simplify (y.geom.getD [s1.pos y.src, s1.pos y.dst]), rfl, ?_⟩⟩
    rw [(hsi _).1, (hsi _).2]
    have k2 := k2 hne
    cases hyg : y.geom with
    | none => exact ⟨rfl, rfl⟩
    | some l => exact k2 l hyg
  refine ⟨?_, ?_⟩
  rotate_left
  · intro n hnl hnt
    have hfits : ∀ e ∈ s1.es, e.a.rev = false ∧ (e.src ≠ e.dst → Fits (nodes c s1).pos e) :=
      fun e he => ⟨(h1 e he).2, fun _ l hl => by rw [(h1 e he).1] at hl; cases hl⟩
    have ht1 : Touched s1.es n := by
      obtain ⟨e, he, hh⟩ := hnt
      obtain ⟨x, hx, _, _, x1, x2⟩ := hl.curE e he n (hh.imp Eq.symm Eq.symm)
      exact ⟨x, hx, hh.imp (fun k => x1 k.symm) (fun k => x2 k.symm)⟩
    rcases collapse_on (nodes c s1) (nodes c s1).nds s1.es T.inv.uniq hfits n (Or.inl ht1) with ht | ⟨e, he, l, hl', hx⟩
    · left
      obtain ⟨f', hf', he2⟩ := T.mild
      refine (T.nds n).2 ⟨Nat.lt_of_lt_of_le hnl hl.next, Or.inl ?_⟩
      rw [he2]
      exact (hf'.touched _ n).2 ht
    · right
      have he2 : simplifyGeom c (writeGeom c s1.pos e) ∈ ((collapse (nodes c s1) s1.es).map (writeGeom c s1.pos)).map (simplifyGeom c) :=
        List.mem_map.2 ⟨_, List.mem_map.2 ⟨e, he, rfl⟩, rfl⟩
      have hgm : (simplifyGeom c (writeGeom c s1.pos e)).geom = some (c.simplify l) := by
        simp only [simplifyGeom, writeGeom, hl', Option.getD, Option.map]
      obtain ⟨x, hx', _, _, ext, hext⟩ := hsf.line _ (List.mem_map.2 ⟨_, hp.sub _ he2, rfl⟩) (c.simplify l) (by rw [(hf' _).1, hgm])
      exact ⟨x, hx', l, ext, hext, by rw [← hl.pos n hnl]; exact hx⟩
  intro e he hne
  rcases hsf.back e he with k | k
  · obtain ⟨x, hx, rfl⟩ := List.mem_map.1 k
    rw [(hf' x).1, (hf' x).2, hf.src, hf.dst]
    rw [hf.src, hf.dst] at hne
    rw [show g.pos = s1.pos from T.pos]
    rcases hp.mem x hx with hx' | ⟨d, hd, rfl, _⟩
    · obtain ⟨k1, k2⟩ := h3 x hx'
      obtain ⟨l, hl, k3⟩ := k2 hne
      rw [k1]
      exact ⟨l, hl, k3⟩
    · obtain ⟨k1, k2⟩ := h3 d hd
      obtain ⟨l, hl, k3, k4⟩ := k2 (fun h => hne h.symm)
      refine ⟨l, hl, ?_⟩
      rw [show d.rev.a.rev = true from rfl, if_pos rfl, List.head?_reverse, List.getLast?_reverse]
      exact ⟨k4, k3⟩
  · exact absurd k.1 hne

/-- C74. The turns at the nodes of the map are permitted as before. For each edge of the map at a node `w` that is still there, `arr` is the
edge to arrive at `w` by and `lea` the edge to leave `w` by; they have its level and lines and can be used if its one-way mark permits, and
an edge marked as having rules is replaced by such an edge.
All edges from and to `w` are of this kind, but for edges from `w` to itself. (In the map no edges lie between the same nodes in opposite
directions, and rules are about edges of the node marked as having rules.) -/
theorem C74_turns_partial
    (hopp : ∀ e ∈ st.es, ∀ f ∈ st.es, f.src = e.dst → f.dst = e.src → f = e) (hru : RulesIn st.es st.res) :
    let g := finish c st
    ∃ arr lea : Nat × Nat → Nat → Nat × Nat, ∀ w, w < st.next → w ∈ g.nds →
      (∀ e ∈ st.es, w = e.src ∨ w = e.dst → ∃ a ∈ g.es, arr (e.src, e.dst) w = (a.src, a.dst) ∧ a.dst = w ∧
        (a.src ≠ w → a.lines = e.lines ∧ a.a.lvl = e.a.lvl ∧ (In e w → a.a.oneWay ≠ 2)) ∧ (e.a.restr = true → a.a.restr = true)) ∧
      (∀ e ∈ st.es, w = e.src ∨ w = e.dst → ∃ b ∈ g.es, lea (e.src, e.dst) w = (b.src, b.dst) ∧ b.src = w ∧
        (b.dst ≠ w → b.lines = e.lines ∧ b.a.lvl = e.a.lvl ∧ (Out e w → b.a.oneWay ≠ 2))) ∧
      (∀ a ∈ g.es, a.dst = w → a.src ≠ w → ∃ e ∈ st.es, (w = e.src ∨ w = e.dst) ∧ arr (e.src, e.dst) w = (a.src, a.dst)) ∧
      (∀ b ∈ g.es, b.src = w → b.dst ≠ w → ∃ e ∈ st.es, (w = e.src ∨ w = e.dst) ∧ lea (e.src, e.dst) w = (b.src, b.dst)) ∧
      ∀ e ∈ st.es, ∀ f ∈ st.es, (w = e.src ∨ w = e.dst) → (w = f.src ∨ w = f.dst) →
        g.res.may (arr (e.src, e.dst) w) (lea (f.src, f.dst) w) w = st.res.may (e.src, e.dst) (f.src, f.dst) w := by
  intro g
  have T := stages c ho hn st hs hm
  dsimp only at T
  obtain ⟨cur, hl⟩ := T.later
  -- the intermediate graphs
  obtain ⟨s1, hs1⟩ : ∃ s1, s1 = snapStats c.snap c.ds c.orphans st := ⟨_, rfl⟩
  have hall : Marks s1.es ∧ NoOpp s1.es ∧ RulesIn s1.es s1.res := by
    rw [hs1]
    refine snapStats_ind c.snap ho (fun s => Marks s.es ∧ NoOpp s.es ∧ RulesIn s.es s.res) (fun _ _ h => h) ?_ c.ds c.orphans st hs.inv ⟨hm, hopp, hru⟩
    intro s hI e he o g h
    exact ⟨marks_split c.snap o s hI e he g h.1, noOpp_split c.snap o s hI e he g h.2.1, rulesIn_split c.snap o s hI e he g h.2.2⟩
  obtain ⟨hm1, ho1, hr1⟩ := hall
  rw [← hs1] at T hl
  obtain ⟨es1, hes1⟩ : ∃ es1, es1 = collapse (nodes c s1) s1.es := ⟨_, rfl⟩
  obtain ⟨u1, m1, o1, part, hc⟩ := collapse_coll (nodes c s1) (nodes c s1).nds s1.es T.inv.uniq hm1 ho1
  rw [show (nodes c s1).nds.foldl (collapseAt (nodes c s1)) s1.es = es1 from hes1.symm] at u1 m1 o1 hc
  rw [← hes1] at T
  obtain ⟨es2, hes2⟩ : ∃ es2, es2 = (es1.map (writeGeom c s1.pos)).map (simplifyGeom c) := ⟨_, rfl⟩
  have hmild : Mild (simplifyGeom c ∘ writeGeom c s1.pos) := (mild_geom c s1.pos).comp (mild_simplify c)
  have hes2' : es2 = es1.map (simplifyGeom c ∘ writeGeom c s1.pos) := by rw [hes2, List.map_map]
  have u2 : Uniq es2 := by rw [hes2']; exact hmild.uniq _ u1
  have o2 : NoOpp es2 := by rw [hes2']; exact hmild.noOpp _ o1
  have r2 : RulesIn es2 s1.res := by rw [hes2']; exact hmild.rulesIn _ (hc.rulesIn hr1)
  rw [← hes2] at T
  obtain ⟨er, her⟩ : ∃ er, er = writeODirR g.nds (es2, s1.res) := ⟨_, rfl⟩
  have hd : Dup es2 s1.res er := by rw [her]; exact writeODirR_dup g.nds es2 s1.res u2 o2 r2
  have hp : Pass es2 er.1 := by
    rw [her]
    refine writeODirR_pass _ _ _ u2 fun e he => (T.nds _).2 ⟨(T.lt e he).1, Or.inl ⟨e, he, Or.inl rfl⟩⟩
  have hpen := mild_pen c
  have hopp3 : Opp (er.1.map (writePen c)) := by
    intro e he
    obtain ⟨x, hx, rfl⟩ := List.mem_map.1 he
    obtain ⟨f, hf, f1, f2⟩ := hp.opp x hx
    exact ⟨writePen c f, List.mem_map.2 ⟨f, hf, rfl⟩, f1, f2⟩
  obtain ⟨hsf, _⟩ := writeSelfEdgs_selfs s1.pl s1.pos g.nds _ (hpen.uniq _ hp.twins.uniq) hopp3
  have hfin : g.es = writeSelfEdgs s1.pl s1.pos g.nds (er.1.map (writePen c)) := by
    rw [her, hes2, hes1, hs1]; rfl
  have hres : g.res = er.2 := by rw [her, hes2, hes1, hs1]; rfl
  rw [← hfin] at hsf
  -- from an edge of the map at `w` to one of the collapsed graph
  have hfwd : ∀ w, w < st.next → w ∈ g.nds → ∀ e ∈ st.es, w = e.src ∨ w = e.dst →
      ∃ e1 ∈ s1.es, cur (e.src, e.dst) w = (e1.src, e1.dst) ∧ (w = e1.src ∨ w = e1.dst) ∧
      ∃ e2 ∈ es2, part (cur (e.src, e.dst) w) w = (e2.src, e2.dst) ∧ (w = e2.src ∨ w = e2.dst) ∧
        e2.lines = e.lines ∧ e2.a.lvl = e.a.lvl ∧ (In e w → In e2 w) ∧ (Out e w → Out e2 w) ∧
        (e.a.restr = true → e2.a.restr = true ∧ e2.src ≠ e2.dst) := by
    intro w hw hwn e he hwe
    obtain ⟨e1, he1, a1, a2, a3, a4⟩ := hl.curE e he w hwe
    have hw1 : w = e1.src ∨ w = e1.dst := hwe.imp (fun h => (a3 h).symm) (fun h => (a4 h).symm)
    have ht : Touched es1 w := T.keep w hwn ⟨e1, he1, hw1.imp Eq.symm Eq.symm⟩
    obtain ⟨e2, he2, b1, b2, b3, b4, b5, b6, b7, b8⟩ := hc.cont e1 he1 w hw1 ht
    refine ⟨e1, he1, a1, hw1, (simplifyGeom c ∘ writeGeom c s1.pos) e2, ?_, ?_, b2, b3.trans a2.lines, b4.trans a2.lvl, ?_, ?_, ?_⟩
    · rw [hes2']; exact List.mem_map.2 ⟨e2, he2, rfl⟩
    · rw [a1, b1]; rfl
    · intro hI
      refine b7 ?_
      unfold In at hI ⊢
      rw [a2.oneWay]
      exact hI.imp (fun h => ⟨a4 h.1.symm, h.2⟩) (fun h => ⟨a3 h.1.symm, h.2⟩)
    · intro hI
      refine b8 ?_
      unfold Out at hI ⊢
      rw [a2.oneWay]
      exact hI.imp (fun h => ⟨a3 h.1.symm, h.2⟩) (fun h => ⟨a4 h.1.symm, h.2⟩)
    · intro hr
      have hr1 : e1.a.restr = true := a2.restr.trans hr
      have h21 := b6 hr1
      subst h21
      exact ⟨hr1, T.inv.loop e2 he1⟩
  -- and back
  have hback : ∀ w, w < st.next → ∀ e2 ∈ es2, w = e2.src ∨ w = e2.dst →
      ∃ e ∈ st.es, (w = e.src ∨ w = e.dst) ∧ part (cur (e.src, e.dst) w) w = (e2.src, e2.dst) := by
    intro w hw e2 he2 hw2
    rw [hes2'] at he2
    obtain ⟨x, hx, rfl⟩ := List.mem_map.1 he2
    obtain ⟨e1, he1, a1, a2⟩ := hc.onto x hx w hw2
    obtain ⟨e, he, b1, b2⟩ := hl.onto e1 he1 w hw a1
    exact ⟨e, he, b1, by rw [b2, a2]; rfl⟩
  -- from there to the routing graph
  have hend : ∀ a ∈ er.1, ∃ b ∈ g.es, b.src = a.src ∧ b.dst = a.dst ∧ (a.src ≠ a.dst → b.lines = a.lines ∧ b.a.lvl = a.a.lvl ∧
      b.a.oneWay = a.a.oneWay ∧ b.a.restr = a.a.restr) := by
    intro a ha
    have ha' : writePen c a ∈ er.1.map (writePen c) := List.mem_map.2 ⟨a, ha, rfl⟩
    by_cases hla : a.src = a.dst
    · obtain ⟨b, hb, b1, b2⟩ := hsf.ends _ ha'
      exact ⟨b, hb, b1, b2, fun h => absurd hla h⟩
    · exact ⟨writePen c a, hsf.sub _ ha' hla, rfl, rfl, fun _ => ⟨rfl, rfl, rfl, rfl⟩⟩
  refine ⟨fun x w => arrE er.1 w (part (cur x w) w), fun x w => leaE er.1 w (part (cur x w) w), fun w hw hwn => ⟨?_, ?_, ?_, ?_, ?_⟩⟩
  · intro e he hwe
    obtain ⟨e1, he1, _, _, e2, he2, a1, a2, a3, a4, a5, _, a6⟩ := hfwd w hw hwn e he hwe
    obtain ⟨a, ha, b1, b2, b3, b4, b5, b6⟩ := hp.arrives u2 o2 e2 he2 w a2
    obtain ⟨b, hb, d1, d2, d3⟩ := hend a ha
    refine ⟨b, hb, ?_, d2.trans b2, fun hne => ?_, fun hr => ?_⟩
    · simp only [a1, b1, d1, d2]
    · have hne' : a.src ≠ a.dst := by rw [b2, ← d1]; exact hne
      obtain ⟨q1, q2, q3⟩ := d3 hne'
      have harrE : e2.src ≠ e2.dst := by
        intro hl
        rw [hl] at b1
        unfold arrE at b1
        simp only [ite_self] at b1
        obtain ⟨z1, z2⟩ := Prod.mk.inj b1
        exact hne' (z1.symm.trans z2)
      exact ⟨q1.trans (b3.trans a3), q2.trans (b4.trans a4), fun hI => by rw [q3.1]; exact b5 (harrE) (a5 hI)⟩
    · obtain ⟨k1, k2⟩ := a6 hr
      have hne' : a.src ≠ a.dst := by
        intro hl
        unfold arrE at b1
        split at b1
        · obtain ⟨z1, z2⟩ := Prod.mk.inj b1
          exact k2 (z2.trans (hl.symm.trans z1.symm))
        · obtain ⟨z1, z2⟩ := Prod.mk.inj b1
          exact k2 (z1.trans (hl.trans z2.symm))
      rw [(d3 hne').2.2.2, b6]; exact k1
  · intro e he hwe
    obtain ⟨e1, he1, _, _, e2, he2, a1, a2, a3, a4, _, a5, _⟩ := hfwd w hw hwn e he hwe
    obtain ⟨a, ha, b1, b2, b3, b4, b5⟩ := hp.leaves u2 o2 e2 he2 w a2
    obtain ⟨b, hb, d1, d2, d3⟩ := hend a ha
    refine ⟨b, hb, ?_, d1.trans b2, fun hne => ?_⟩
    · simp only [a1, b1, d1, d2]
    · have hne' : a.src ≠ a.dst := by rw [b2, ← d2]; exact fun h => hne h.symm
      obtain ⟨q1, q2, q3⟩ := d3 hne'
      have hleaE : e2.src ≠ e2.dst := by
        intro hl
        rw [hl] at b1
        unfold leaE at b1
        simp only [ite_self] at b1
        obtain ⟨z1, z2⟩ := Prod.mk.inj b1
        exact hne' (z1.symm.trans z2)
      exact ⟨q1.trans (b3.trans a3), q2.trans (b4.trans a4), fun hI => by rw [q3.1]; exact b5 (hleaE) (a5 hI)⟩
  · intro a ha h1 h2
    rcases hsf.back a ha with k | k
    · obtain ⟨x, hx, rfl⟩ := List.mem_map.1 k
      obtain ⟨⟨e2, he2, k1, k2⟩, _⟩ := hp.onto x hx
      have h1 : x.dst = w := h1
      rw [h1] at k1 k2
      obtain ⟨e, he, q1, q2⟩ := hback w hw e2 he2 k1
      refine ⟨e, he, q1, ?_⟩
      simp only [q2, k2]
      rw [← h1]; rfl
    · exact absurd (k.1.trans h1) h2
  · intro b hb h1 h2
    rcases hsf.back b hb with k | k
    · obtain ⟨x, hx, rfl⟩ := List.mem_map.1 k
      obtain ⟨_, e2, he2, k1, k2⟩ := hp.onto x hx
      have h1 : x.src = w := h1
      rw [h1] at k1 k2
      obtain ⟨e, he, q1, q2⟩ := hback w hw e2 he2 k1
      refine ⟨e, he, q1, ?_⟩
      simp only [q2, k2]
      rw [← h1]; rfl
    · exact absurd (k.1.symm.trans h1) h2
  · intro e he f hf hwe hwf
    obtain ⟨e1, he1, a1, a2, e2, he2, a3, _⟩ := hfwd w hw hwn e he hwe
    obtain ⟨f1, hf1, b1, b2, f2, hf2, b3, _⟩ := hfwd w hw hwn f hf hwf
    rw [← hl.turns w e he f hf hwe hwf, hres]
    have ht : Touched es1 w := T.keep w hwn ⟨e1, he1, a2.imp Eq.symm Eq.symm⟩
    have hct := hc.turns hr1 T.inv.uniq u1 w ht e1 f1 he1 hf1 a2 b2
    rw [← a1, ← b1] at hct
    rw [← hct]
    simp only [a3, b3]
    exact hd.turns o2 r2 w e2 f2 he2 hf2
end

/-! ### examples -/

def exCfg : Cfg Pt (Nat × Nat) Unit Int := ⟨exEnv, [10], [], List.range, fun e => e.src + e.dst, id, fun e => e.a.cost + 1⟩

def exM (a b : Nat) (w : _root_.Fin 4) (r : Bool) : Edg Nat Pt := ⟨a, b, ⟨w, r, false, 0, 1⟩, [], none⟩

/-- A line from a station 0 over 1 and 2 to a crossing 3, from where one may not turn to 4; 3 to 5 is a one-way street. -/
def exMap : St Pt (Nat × Nat) Unit where
  es := [exM 0 1 0 false, exM 1 2 0 false, exM 2 3 0 true, exM 4 3 0 true, exM 3 5 1 false]
  pos := fun u => (100 * u, 0)
  pl := ⟨fun u => if u = 0 then 1 else 0, [(1, 0)]⟩
  next := 7
  res := { R.init _ _ _ with neg := fun v => if v = 3 then [((2, 3), some (4, 3))] else [] }

theorem exMap_rules : RulesIn exMap.es exMap.res := by
  intro v r hr
  simp only [exMap, R.init] at hr
  by_cases hv : v = 3
  · subst hv
    simp at hr
    subst hr
    refine ⟨⟨exM 2 3 0 true, by simp [exMap], rfl, rfl, Or.inr rfl⟩, ?_⟩
    intro x hx
    cases hx
    exact ⟨exM 4 3 0 true, by simp [exMap], rfl, rfl, Or.inr rfl⟩
  · simp [hv] at hr

theorem exMap_sane : Sane exMap := by
  refine ⟨by simp [exMap, exM], ?_, ?_, ?_⟩
  · intro e he; simp [exMap] at he; rcases he with rfl | rfl | rfl | rfl | rfl <;> decide
  · intro e he; simp [exMap] at he; rcases he with rfl | rfl | rfl | rfl | rfl <;> decide
  · intro v r hr
    simp only [exMap, R.init] at hr
    by_cases hv : v = 3
    · subst hv
      simp at hr
      subst hr
      exact ⟨by decide, fun x hx => by cases hx; decide⟩
    · simp [hv] at hr

theorem exMap_marks : Marks exMap.es := by
  apply marks_simple 1
  intro e he; simp [exMap] at he; rcases he with rfl | rfl | rfl | rfl | rfl <;> decide

theorem exMap_opp : ∀ e ∈ exMap.es, ∀ f ∈ exMap.es, f.src = e.dst → f.dst = e.src → f = e := by
  intro e he f hf
  simp [exMap] at he hf
  rcases he with rfl | rfl | rfl | rfl | rfl <;> rcases hf with rfl | rfl | rfl | rfl | rfl <;> simp [exM]

theorem exMap_valid (u : Nat) : exMap.pl.si u = 0 ∨ exMap.pl.si u = u32max ∨ exMap.pl.si u = u32max - 1 ∨
    (1 ≤ exMap.pl.si u ∧ exMap.pl.si u ≤ exMap.pl.infos.length) := by
  show (if u = 0 then 1 else 0) = 0 ∨ _
  by_cases h : u = 0
  · right; right; right; simp [exMap, h]
  · left; rw [if_neg h]

/-- Node 1 is collapsed, node 6 dropped, the station 0 gets a self edge, and the turn from (2,3) to 4 is refused. -/
example : (finish exCfg exMap).nds = [0, 2, 3, 4, 5] ∧
    (finish exCfg exMap).es.map (fun e => (e.src, e.dst, e.a.oneWay)) =
      [(2, 3, 0), (4, 3, 0), (3, 5, 1), (2, 0, 0), (3, 2, 0), (0, 2, 0), (5, 3, 2), (3, 4, 0), (0, 0, 0)] ∧
    (finish exCfg exMap).res.may (2, 3) (3, 4) 3 = false ∧ (finish exCfg exMap).res.may (4, 3) (3, 2) 3 = true := by
  decide

theorem exCfg_nds : ∀ n u, u ∈ exCfg.nds n ↔ u < n := fun _ _ => List.mem_range

example := C74_travel_partial exCfg (fun _ _ => .refl _) exCfg_nds exMap exMap_sane exMap_marks (Or.inl exMap_opp)
example := C74_graph exCfg (fun _ _ => .refl _) exCfg_nds exMap exMap_sane exMap_marks
example := C74_rest exCfg (fun _ _ => .refl _) exCfg_nds exMap exMap_sane exMap_marks
example := C74_origin exCfg (fun _ _ => .refl _) exCfg_nds exMap exMap_sane exMap_marks
example := C74_stations exCfg (fun _ _ => .refl _) exCfg_nds exMap exMap_sane exMap_marks exMap_valid (fun o ho => by cases ho) (by decide)
example := C74_lines_partial exCfg (fun _ _ => .refl _) exCfg_nds exMap exMap_sane exMap_marks
  (by intro e he; simp [exMap] at he; rcases he with rfl | rfl | rfl | rfl | rfl <;> rfl)
  (by intro e he; simp [exMap] at he; rcases he with rfl | rfl | rfl | rfl | rfl <;> rfl) (fun _ => ⟨rfl, rfl⟩)
example := C74_turns_partial exCfg (fun _ _ => .refl _) exCfg_nds exMap exMap_sane exMap_marks exMap_opp exMap_rules

/-- Two tracks between 0 and 1, drawn in opposite directions; from one of them, (1,0), one may not turn to 3. -/
def exTwo : St Pt (Nat × Nat) Unit where
  es := [exM 0 1 0 true, exM 1 0 0 true, exM 0 3 0 true, exM 1 2 0 false]
  pos := fun u => (100 * u, 0)
  pl := ⟨fun _ => 0, []⟩
  next := 4
  res := { R.init _ _ _ with neg := fun v => if v = 0 then [((1, 0), some (0, 3))] else [] }

/-- C74 fails for maps with two tracks between the same nodes drawn in opposite directions: one may arrive at 0 by the two-way track (0,1)
and turn to 3, but in the routing graph there is one edge from 1 to 0, the other track, and the turn is refused. -/
theorem C74_negation_opposite : ∃ (c : Cfg Pt (Nat × Nat) Unit Int) (st : St Pt (Nat × Nat) Unit) (e f : Edg Nat Pt) (w : Nat),
    (∀ p l, (c.snap.order p l).Perm l) ∧ (∀ n u, u ∈ c.nds n ↔ u < n) ∧ Sane st ∧ RulesIn st.es st.res ∧
    e ∈ st.es ∧ f ∈ st.es ∧ In e w ∧ Out f w ∧ st.res.may (e.src, e.dst) (f.src, f.dst) w = true ∧ e.dst ∈ (finish c st).nds ∧
    ∀ a ∈ (finish c st).es, a.src = e.dst → a.dst = w → (finish c st).res.may (a.src, a.dst) (f.src, f.dst) w = false := by
  refine ⟨exCfg, exTwo, exM 0 1 0 true, exM 0 3 0 true, 0, fun _ _ => .refl _, exCfg_nds, ⟨by simp [exTwo, exM], ?_, ?_, ?_⟩, ?_, by simp [exTwo],
    by simp [exTwo], Or.inr ⟨rfl, by decide⟩, Or.inl ⟨rfl, by decide⟩, by decide, by decide, ?_⟩
  · intro e he; simp [exTwo] at he; rcases he with rfl | rfl | rfl | rfl <;> decide
  · intro e he; simp [exTwo] at he; rcases he with rfl | rfl | rfl | rfl <;> decide
  · intro v r hr
    simp only [exTwo, R.init] at hr
    by_cases hv : v = 0
    · subst hv
      simp at hr
      subst hr
      exact ⟨by decide, fun x hx => by cases hx; decide⟩
    · simp [hv] at hr
  · intro v r hr
    simp only [exTwo, R.init] at hr
    by_cases hv : v = 0
    · subst hv
      simp at hr
      subst hr
      refine ⟨⟨exM 1 0 0 true, by simp [exTwo], rfl, rfl, Or.inr rfl⟩, ?_⟩
      intro x hx
      cases hx
      exact ⟨exM 0 3 0 true, by simp [exTwo], rfl, rfl, Or.inl rfl⟩
    · simp [hv] at hr
  · intro a _ h1 h2
    rw [h1, h2]
    decide

theorem drive_stays {es : List (Edg Nat P)} {u : Nat} (h : ∀ e ∈ es, e.src = u → e.a.oneWay ≠ 2 → e.dst = u) {w : Nat} (hd : Drive es u w) : w = u := by
  induction hd with
  | refl => rfl
  | step _ e he h1 h2 ih => exact h e he (h1.trans ih) h2

/-- A two-way track from 0 to 1, both stations, and beside it a one-way track that is drawn from 1 to 0 and used from 0 to 1. -/
def exBack : St Pt (Nat × Nat) Unit where
  es := [exM 0 1 0 false, exM 1 0 2 false]
  pos := fun u => (100 * u, 0)
  pl := ⟨fun u => if u < 2 then 1 else 0, [(1, 0)]⟩
  next := 2
  res := R.init _ _ _

/-- C74 fails for two tracks between the same nodes one of which is drawn against the direction of travel: the way back over the two-way
track is not in the routing graph. -/
theorem C74_negation_travel : ∃ (c : Cfg Pt (Nat × Nat) Unit Int) (st : St Pt (Nat × Nat) Unit) (u w : Nat),
    (∀ p l, (c.snap.order p l).Perm l) ∧ (∀ n u, u ∈ c.nds n ↔ u < n) ∧ Sane st ∧ u < st.next ∧ w < st.next ∧
    u ∈ (finish c st).nds ∧ w ∈ (finish c st).nds ∧ Reach st.es u w ∧ ¬ Drive (finish c st).es u w := by
  refine ⟨exCfg, exBack, 1, 0, fun _ _ => .refl _, exCfg_nds, ⟨by simp [exBack, exM], ?_, ?_, fun v r hr => by simp [exBack, R.init] at hr⟩,
    by decide, by decide, by decide, by decide, .step (.refl _) ⟨exM 0 1 0 false, by simp [exBack], Or.inr ⟨rfl, rfl, by decide⟩⟩, ?_⟩
  · intro e he; simp [exBack] at he; rcases he with rfl | rfl <;> decide
  · intro e he; simp [exBack] at he; rcases he with rfl | rfl <;> decide
  · intro hd
    have := drive_stays (by decide) hd
    cases this

/-- A one-way track from the station 0 to 1, and one that is drawn from 1 to the station 2 and used from 2 to 1. -/
def exMeet : St Pt (Nat × Nat) Unit where
  es := [exM 0 1 1 false, exM 1 2 2 false]
  pos := fun u => (100 * u, 0)
  pl := ⟨fun u => if u = 1 then 0 else 1, [(1, 0)]⟩
  next := 3
  res := R.init _ _ _

/-- C74 fails for one-way tracks that are drawn in different senses: one can travel from 0 to 2 in the routing graph. -/
theorem C74_negation_meet : ∃ (c : Cfg Pt (Nat × Nat) Unit Int) (st : St Pt (Nat × Nat) Unit) (u w : Nat),
    (∀ p l, (c.snap.order p l).Perm l) ∧ (∀ n u, u ∈ c.nds n ↔ u < n) ∧ Sane st ∧ u < st.next ∧ w < st.next ∧
    u ∈ (finish c st).nds ∧ w ∈ (finish c st).nds ∧ ¬ Reach st.es u w ∧ Drive (finish c st).es u w := by
  refine ⟨exCfg, exMeet, 0, 2, fun _ _ => .refl _, exCfg_nds, ⟨by simp [exMeet, exM], ?_, ?_, fun v r hr => by simp [exMeet, R.init] at hr⟩,
    by decide, by decide, by decide, by decide, ?_, ?_⟩
  · intro e he; simp [exMeet] at he; rcases he with rfl | rfl <;> decide
  · intro e he; simp [exMeet] at he; rcases he with rfl | rfl <;> decide
  · have : ∀ v, Reach exMeet.es 0 v → v = 0 ∨ v = 1 := by
      intro v h
      induction h with
      | refl => exact Or.inl rfl
      | step _ hex ih =>
        obtain ⟨e, he, hp⟩ := hex
        simp only [exMeet, List.mem_cons, List.not_mem_nil, or_false] at he
        rcases he with rfl | rfl
        · rcases permits_ends hp with h | h
          · exact Or.inr h.2.symm
          · exact Or.inl h.1.symm
        · rcases hp with ⟨_, _, h⟩ | ⟨h, _, _⟩
          · exact absurd rfl h
          · simp only [exM] at h; omega
    intro h
    have := this 2 h
    omega
  · have hx : ∃ e ∈ (finish exCfg exMeet).es, e.src = 0 ∧ e.dst = 2 ∧ e.a.oneWay ≠ 2 := by decide
    obtain ⟨e, he, h1, h2, h3⟩ := hx
    rw [← h2]
    exact .step (.refl _) e he h1 h3

end Verif.Finish
