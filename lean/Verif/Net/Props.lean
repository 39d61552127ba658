import Verif.Net.Build
import Verif.Finish.Props

/-!
# C83. The transit network graph

With `--write-trgraph` one gets a graph of the network that the trips use, with the lines and trips on each piece, independent of how the
work was distributed among the worker threads. Not in general: see the negations at the end of the file.
-/

namespace Verif.Net
open Verif.Collapse (Edg)

variable {E N P G T : Type} [DecidableEq E] [DecidableEq N]

/-- From the merged map to the network graph. -/
theorem network_of_map (g : Gr E N P G) (ok : GraphOk g) (f : Feed T) (rs : List (T × E)) (hon : ∀ r ∈ rs, r.2 ∈ g.es) (m : Map E T) (hw : Wf m)
    (hf : (flat m).Perm (rs.map fun r => (keyOf g r.2, r.1))) :
    ∃ ns ng, buildNetGraph g f m ⟨[], [], []⟩ = some ng ∧ Network g f rs ns ng := by
  have hkey : ∀ k, k ∈ m.map (·.1) ↔ ∃ r ∈ rs, keyOf g r.2 = k := by
    intro k
    rw [key_iff hw]
    constructor
    · rintro ⟨t, ht⟩
      obtain ⟨r, hr, e⟩ := List.mem_map.1 (hf.mem_iff.1 ht)
      exact ⟨r, hr, congrArg Prod.fst e⟩
    · rintro ⟨r, hr, rfl⟩
      exact ⟨r.1, hf.mem_iff.2 (List.mem_map.2 ⟨r, hr, rfl⟩)⟩
  have hkeys : ∀ p ∈ m, ∃ e ∈ g.es, p.1 = some e := by
    intro p hp
    obtain ⟨r, hr, e⟩ := (hkey p.1).1 (List.mem_map.2 ⟨p, hp, rfl⟩)
    obtain ⟨x, hx, h⟩ := keyOf_some ok (hon r hr)
    exact ⟨x, hx, by rw [← e, h]⟩
  have hused : ∀ e, (∃ ts, (some e, ts) ∈ m) ↔ Used g rs e := by
    intro e
    constructor
    · rintro ⟨ts, h⟩
      obtain ⟨x, hx, hxe⟩ := hkeys _ h
      cases hxe
      obtain ⟨r, hr, hk⟩ := (hkey (some e)).1 (List.mem_map.2 ⟨_, h, rfl⟩)
      exact ⟨hx, r, hr, (keyOf_iff ok hx).1 hk⟩
    · rintro ⟨he, r, hr, ho⟩
      obtain ⟨p, hp, e'⟩ := List.mem_map.1 ((hkey (some e)).2 ⟨r, hr, (keyOf_iff ok he).2 ho⟩)
      exact ⟨p.2, by rw [← e']; exact hp⟩
  obtain ⟨ns, ng, hb, b⟩ := build_ok g f m [] [] ⟨[], [], []⟩ (binv_nil g f) (by
    intro p hp
    obtain ⟨e, he, h⟩ := hkeys p hp
    obtain ⟨geo, hg⟩ := ok.geom e he
    exact ⟨e, geo, h, hg⟩)
  rw [List.nil_append] at b
  refine ⟨ns, ng, hb, ⟨b.n.nodup, b.n.nds, ?_⟩, ?_, ?_, b.once⟩
  · intro n
    rw [b.mem]
    constructor
    · rintro ⟨e, ts, h1, h2⟩; exact ⟨e, (hused e).1 ⟨ts, h1⟩, h2⟩
    · rintro ⟨e, h1, h2⟩; obtain ⟨ts, h1⟩ := (hused e).2 h1; exact ⟨e, ts, h1, h2⟩
  · intro x hx
    obtain ⟨e, ts, geo, h1, h2, h3, h4, h5⟩ := b.sound x hx
    have hu := (hused e).1 ⟨ts, h1⟩
    have hp := entry_perm hw h1
    have hp2 : (((rs.map fun r => (keyOf g r.2, r.1)).filter fun p => decide (p.1 = some e)).map (·.2)).Perm ts :=
      ((hf.filter _).map _).symm.trans hp
    rw [List.filter_map, List.map_map] at hp2
    have e1 : rs.filter ((fun p : Option E × T => decide (p.1 = some e)) ∘ fun r => (keyOf g r.2, r.1)) = rs.filter fun r => decide (Over g e r.2) := by
      apply List.filter_congr
      intro r _
      simp only [Function.comp_apply]
      exact decide_eq_decide.2 (keyOf_iff ok hu.1)
    rw [e1] at hp2
    have hmem : ∀ t, t ∈ ts ↔ ∃ r ∈ rs, Over g e r.2 ∧ r.1 = t := by
      intro t
      rw [← hp2.mem_iff, List.mem_map]
      simp only [List.mem_filter, decide_eq_true_eq, Function.comp_apply, and_assoc]
    have nm : ∀ (q : T → Name), SetOf (ts.foldl (fun s t => insName (q t) s) []) fun s => ∃ r ∈ rs, Over g e r.2 ∧ s = q r.1 := by
      intro q
      obtain ⟨a, c⟩ := names_ok q ts [] List.Pairwise.nil
      refine ⟨a, fun s => ?_⟩
      rw [c]
      constructor
      · rintro (h | ⟨t, ht, rfl⟩)
        · cases h
        · obtain ⟨r, hr, ho, rfl⟩ := (hmem t).1 ht
          exact ⟨r, hr, ho, rfl⟩
      · rintro ⟨r, hr, ho, rfl⟩
        exact Or.inr ⟨r.1, (hmem r.1).2 ⟨r, hr, ho, rfl⟩, rfl⟩
    refine ⟨e, hu, ⟨h2, h3, ?_, ?_, ?_, ?_⟩⟩
    · rw [h5]; exact h4
    · rw [h5]
      show ts.length = _
      rw [List.countP_eq_length_filter, ← hp2.length_eq, List.length_map]
    · rw [h5]; exact nm f.route
    · rw [h5]; exact nm f.name
  · intro e he
    obtain ⟨ts, h⟩ := (hused e).2 he
    exact b.joined e ts h

section
variable (g : Gr E N P G) (ok : GraphOk g) (f : Feed T) (order : Map E T → Map E T) (ho : ∀ m, (order m).Perm m)
  (forests : List (List (Leaf E T))) (hon : ∀ fo ∈ forests, ∀ l ∈ fo, ∀ hop ∈ l.hops, ∀ x ∈ hop, x ∈ g.es)
  (hne : ∀ fo ∈ forests, ∀ l ∈ fo, l.trips ≠ []) (W : Nat) (hW : 0 < W) (sched : List Nat) (hc : Complete g forests W sched)
include ok ho hon hne hW hc

/-- C83. However the work was distributed among the workers: the nodes of the network graph are the ends of the pieces used by trips, each
edge shows such a piece with exactly the routes and trips that use it, and the ends of every piece are joined by one edge. No null pointer
is dereferenced. -/
theorem C83_network : ∃ ns ng, transitGraph g f order forests W sched = some ng ∧ Network g f (rides forests) ns ng := by
  have hi := inv_run g forests hne W sched hc.1
  have hcm := complete_maps g forests hne W hW sched hc
  obtain ⟨w1, w2⟩ := merge_ok order ho ((List.range W).map fun w => ((run g forests sched).thr w).map) (by
    intro m hm
    obtain ⟨w, _, rfl⟩ := List.mem_map.1 hm
    exact hi.wf w)
  refine network_of_map g ok f (rides forests) ?_ _ (wf_perm (ho _).symm w1) ?_
  · intro r hr
    obtain ⟨l, hl, hr⟩ := List.mem_flatMap.1 hr
    obtain ⟨x, hx, hr⟩ := List.mem_flatMap.1 hr
    obtain ⟨t, _, rfl⟩ := List.mem_map.1 hr
    obtain ⟨hop, hhop, hx⟩ := List.mem_flatten.1 hx
    obtain ⟨fo, hfo, hl⟩ := List.mem_flatten.1 hl
    exact hon fo hfo l hl hop hhop x hx
  · refine (flat_perm (ho _)).trans (w2.trans ?_)
    rw [List.flatMap_map, ← keyed_rides]
    exact hcm

/-- C83. If no two used pieces join the same nodes in opposite directions, every used piece is shown, by one edge. -/
theorem C83_pieces_partial (htwin : ∀ e e', Used g (rides forests) e → Used g (rides forests) e' → g.src e' = g.dst e → g.dst e' = g.src e → e' = e) :
    ∃ ns ng, transitGraph g f order forests W sched = some ng ∧ Network g f (rides forests) ns ng ∧
      ∀ e, Used g (rides forests) e → ∃ x ∈ ng.es, Shows g f (rides forests) ns e x ∧ ∀ y ∈ ng.es, Shows g f (rides forests) ns e y → y = x := by
  obtain ⟨ns, ng, h1, h2⟩ := C83_network g ok f order ho forests hon hne W hW sched hc
  refine ⟨ns, ng, h1, h2, fun e he => ?_⟩
  obtain ⟨x, hx, hj⟩ := h2.joined e he
  obtain ⟨e', he', hs⟩ := h2.sound x hx
  have hee : e' = e := by
    rcases hj with ⟨a, b⟩ | ⟨a, b⟩
    · rw [hs.a] at a; rw [hs.b] at b
      exact ok.uniq e' he'.1 e he.1 (Option.some.inj a) (Option.some.inj b)
    · rw [hs.a] at a; rw [hs.b] at b
      exact htwin e e' he he' (Option.some.inj a) (Option.some.inj b)
  subst hee
  refine ⟨x, hx, hs, fun y hy hs' => ?_⟩
  have inj : ∀ {i j : Nat} {n : N}, ns[i]? = some n → ns[j]? = some n → i = j := by
    intro i j n hi hj
    obtain ⟨li, ei⟩ := List.getElem?_eq_some_iff.1 hi
    obtain ⟨lj, ej⟩ := List.getElem?_eq_some_iff.1 hj
    have hp := List.pairwise_iff_getElem.1 h2.nds.1
    rcases Nat.lt_trichotomy i j with h | h | h
    · exact absurd (ei.trans ej.symm) (hp i j li lj h)
    · exact h
    · exact absurd (ej.trans ei.symm) (hp j i lj li h)
  have ha := inj hs'.a hs.a
  have hb := inj hs'.b hs.b
  obtain ⟨i, li, rfl⟩ := List.getElem_of_mem hx
  obtain ⟨j, lj, rfl⟩ := List.getElem_of_mem hy
  have ho := List.pairwise_iff_getElem.1 h2.once
  rcases Nat.lt_trichotomy i j with hij | hij | hij
  · exact absurd (Or.inl ⟨ha.symm, hb.symm⟩) (ho i j li lj hij)
  · subst hij; rfl
  · exact absurd (Or.inl ⟨ha, hb⟩) (ho j i lj li hij)

omit ok hon hne hW hc ho in
/-- C83. `num_trips` is the number of trips that use the piece if none drives over it twice. -/
theorem C83_count_partial {rs : List (T × E)} {ns : List N} {e : E} {x : NEdge G} (hs : Shows g f rs ns e x)
    (honce : rs.Pairwise fun r s => Over g e r.2 → Over g e s.2 → r.1 ≠ s.1) :
    ∃ ts : List T, ts.Nodup ∧ (∀ t, t ∈ ts ↔ ∃ r ∈ rs, Over g e r.2 ∧ r.1 = t) ∧ x.numTrips = ts.length := by
  refine ⟨(rs.filter fun r => decide (Over g e r.2)).map (·.1), ?_, ?_, ?_⟩
  · rw [List.Nodup, List.pairwise_map, List.pairwise_filter]
    refine honce.imp ?_
    intro r s h a b
    exact h (of_decide_eq_true a) (of_decide_eq_true b)
  · intro t
    simp only [List.mem_map, List.mem_filter, decide_eq_true_eq, and_assoc]
  · rw [hs.num, List.countP_eq_length_filter, List.length_map]

end

theorem sorted_ext : ∀ (l l' : List Name), l.Pairwise (· < ·) → l'.Pairwise (· < ·) → (∀ x, x ∈ l ↔ x ∈ l') → l = l'
  | [], [], _, _, _ => rfl
  | [], y :: l', _, _, h => by have := (h y).2 (List.mem_cons_self ..); cases this
  | x :: l, [], _, _, h => by have := (h x).1 (List.mem_cons_self ..); cases this
  | x :: l, y :: l', h1, h2, h => by
    have a := List.pairwise_cons.1 h1
    have b := List.pairwise_cons.1 h2
    have hxy : x = y := by
      rcases List.mem_cons.1 ((h x).1 (List.mem_cons_self ..)) with e | e
      · exact e
      · rcases List.mem_cons.1 ((h y).2 (List.mem_cons_self ..)) with e' | e'
        · exact e'.symm
        · exact absurd (List.lt_trans (a.1 y e') (b.1 x e)) (List.lt_irrefl _)
    subst hxy
    congr 1
    refine sorted_ext l l' a.2 b.2 fun z => ?_
    constructor
    · intro hz
      rcases List.mem_cons.1 ((h z).1 (List.mem_cons_of_mem _ hz)) with e | e
      · subst e; exact absurd (a.1 z hz) (List.lt_irrefl _)
      · exact e
    · intro hz
      rcases List.mem_cons.1 ((h z).2 (List.mem_cons_of_mem _ hz)) with e | e
      · subst e; exact absurd (b.1 z hz) (List.lt_irrefl _)
      · exact e

theorem setOf_unique {l l' : List Name} {p : Name → Prop} (h : SetOf l p) (h' : SetOf l' p) : l = l' :=
  sorted_ext l l' h.1 h'.1 fun x => (h.2 x).trans (h'.2 x).symm

/-- C83. The network graph does not depend on the number of workers, the schedule or the order of the hash maps: each edge of the one is
an edge of the other, with the same attributes between the same places. -/
theorem C83_schedule_partial (g : Gr E N P G) (ok : GraphOk g) (f : Feed T) (order order' : Map E T → Map E T) (ho : ∀ m, (order m).Perm m)
    (ho' : ∀ m, (order' m).Perm m) (forests : List (List (Leaf E T))) (hon : ∀ fo ∈ forests, ∀ l ∈ fo, ∀ hop ∈ l.hops, ∀ x ∈ hop, x ∈ g.es)
    (hne : ∀ fo ∈ forests, ∀ l ∈ fo, l.trips ≠ []) (W W' : Nat) (hW : 0 < W) (hW' : 0 < W') (sched sched' : List Nat)
    (hc : Complete g forests W sched) (hc' : Complete g forests W' sched')
    (htwin : ∀ e e', Used g (rides forests) e → Used g (rides forests) e' → g.src e' = g.dst e → g.dst e' = g.src e → e' = e) :
    ∃ ng ng', transitGraph g f order forests W sched = some ng ∧ transitGraph g f order' forests W' sched' = some ng' ∧
      ng.nds.Perm ng'.nds ∧
      ∀ x ∈ ng.es, ∃ y ∈ ng'.es, ng.nds[x.a]? = ng'.nds[y.a]? ∧ ng.nds[x.b]? = ng'.nds[y.b]? ∧ x.geom = y.geom ∧ x.numTrips = y.numTrips ∧
        x.routeShortNames = y.routeShortNames ∧ x.tripShortNames = y.tripShortNames := by
  obtain ⟨ns, ng, h1, h2⟩ := C83_network g ok f order ho forests hon hne W hW sched hc
  obtain ⟨ns', ng', h1', h2', h3'⟩ := C83_pieces_partial g ok f order' ho' forests hon hne W' hW' sched' hc' htwin
  refine ⟨ng, ng', h1, h1', ?_, ?_⟩
  · rw [h2.nds.2.1, h2'.nds.2.1]
    exact ((List.perm_ext_iff_of_nodup h2.nds.1 h2'.nds.1).2 fun n => (h2.nds.2.2 n).trans (h2'.nds.2.2 n).symm).map _
  · intro x hx
    obtain ⟨e, he, hs⟩ := h2.sound x hx
    obtain ⟨y, hy, hs', _⟩ := h3' e he
    refine ⟨y, hy, ?_, ?_, ?_, ?_, setOf_unique hs.routes hs'.routes, setOf_unique hs.names hs'.names⟩
    · rw [h2.nds.2.1, h2'.nds.2.1, List.getElem?_map, List.getElem?_map, hs.a, hs'.a]
    · rw [h2.nds.2.1, h2'.nds.2.1, List.getElem?_map, List.getElem?_map, hs.b, hs'.b]
    · exact Option.some.inj (hs.line.symm.trans hs'.line)
    · rw [hs.num, hs'.num]

/-! ### the routing graph of a map -/

section
open Verif.Finish Verif.Snap

variable {S W D : Type} [DecidableEq W]

theorem addEdg_geom {es : List (Edg Nat P)} {e : Edg Nat P} (h : ∀ x ∈ es, x.geom.isSome = true) (he : e.geom.isSome = true) :
    ∀ x ∈ Collapse.addEdg es e, x.geom.isSome = true := by
  unfold Collapse.addEdg
  cases Collapse.getEdg es e.src e.dst with
  | some _ => exact h
  | none =>
    intro x hx
    rcases List.mem_append.1 hx with hx | hx
    · exact h x hx
    · rw [List.mem_singleton.1 hx]; exact he

theorem oDir_geom (l : List (Edg Nat P)) (hl : ∀ x ∈ l, x.geom.isSome = true) : ∀ c : List (Edg Nat P) × Restrictor.R Nat (Nat × Nat) W,
    (∀ x ∈ c.1, x.geom.isSome = true) → ∀ x ∈ (l.foldl oDir c).1, x.geom.isSome = true := by
  induction l with
  | nil => intro c h; exact h
  | cons e l ih =>
    intro c h
    refine ih (fun x hx => hl x (List.mem_cons_of_mem _ hx)) _ ?_
    unfold oDir
    cases Collapse.getEdg c.1 e.dst e.src with
    | some _ => exact h
    | none => exact addEdg_geom h (hl e (List.mem_cons_self ..))

theorem writeODirR_geom (nds : List Nat) : ∀ c : List (Edg Nat P) × Restrictor.R Nat (Nat × Nat) W, (∀ x ∈ c.1, x.geom.isSome = true) →
    ∀ x ∈ (writeODirR nds c).1, x.geom.isSome = true := by
  induction nds with
  | nil => intro c h; exact h
  | cons n nds ih =>
    intro c h
    exact ih _ (oDir_geom _ (fun x hx => h x (List.mem_filter.1 hx).1) c h)

theorem selfEdg_geom (pos : Nat → P) (es : List (Edg Nat P)) (n : Nat) (h : ∀ x ∈ es, x.geom.isSome = true) :
    ∀ x ∈ selfEdg pos es n, x.geom.isSome = true := by
  intro x hx
  obtain ⟨y, hy, rfl⟩ := List.mem_map.1 hx
  by_cases hn : y.src = n ∧ y.dst = n
  · rw [if_pos hn]; rfl
  · rw [if_neg hn]
    unfold Collapse.addEdg at hy
    cases hg : Collapse.getEdg es n n with
    | some _ => rw [hg] at hy; exact h y hy
    | none =>
      rw [hg] at hy
      rcases List.mem_append.1 hy with hy | hy
      · exact h y hy
      · rw [List.mem_singleton.1 hy] at hn; exact absurd ⟨rfl, rfl⟩ hn

theorem writeSelfEdgs_geom (pl : Payload.NState Nat S) (pos : Nat → P) (nds : List Nat) : ∀ es : List (Edg Nat P),
    (∀ x ∈ es, x.geom.isSome = true) → ∀ x ∈ writeSelfEdgs pl pos nds es, x.geom.isSome = true := by
  unfold writeSelfEdgs
  induction nds with
  | nil => intro es2 h; exact h
  | cons n nds ih =>
    intro es2 h
    refine ih _ ?_
    dsimp only
    split
    · exact selfEdg_geom _ _ _ h
    · exact h

theorem finish_geom (c : Finish.Cfg P S W D) (st : Snap.St P S W) : ∀ e ∈ (finish c st).es, e.geom.isSome = true := by
  unfold finish
  dsimp only
  refine writeSelfEdgs_geom _ _ _ _ ?_
  intro x hx
  obtain ⟨y, hy, rfl⟩ := List.mem_map.1 hx
  refine writeODirR_geom _ _ ?_ y hy
  intro x hx
  obtain ⟨y, hy, rfl⟩ := List.mem_map.1 hx
  obtain ⟨z, hz, rfl⟩ := List.mem_map.1 hy
  rfl

/-- C83. A finished routing graph (C74) meets the conditions on graphs. -/
theorem C83_graph (c : Finish.Cfg P S W D) (ho : ∀ p l, (c.snap.order p l).Perm l) (hn : ∀ n u, u ∈ c.nds n ↔ u < n) (st : Snap.St P S W)
    (hs : Sane st) (hm : ∀ e ∈ st.es, ∀ f ∈ st.es, (e.src = f.src ∨ e.src = f.dst ∨ e.dst = f.src ∨ e.dst = f.dst) → e.a.oneWay ≠ 0 →
      f.a.oneWay ≠ 0 → e.a.oneWay = f.a.oneWay) : GraphOk (grOf (finish c st)) := by
  obtain ⟨_, _, h3, h4⟩ := C74_graph c ho hn st hs hm
  refine ⟨?_, h4, ?_⟩
  · intro e he e' he' h1 h2
    obtain ⟨i, li, rfl⟩ := List.getElem_of_mem he
    obtain ⟨j, lj, rfl⟩ := List.getElem_of_mem he'
    have hp := List.pairwise_iff_getElem.1 h3
    rcases Nat.lt_trichotomy i j with h | h | h
    · exact absurd ⟨h1, h2⟩ (hp i j li lj h)
    · subst h; rfl
    · exact absurd ⟨h1.symm, h2.symm⟩ (hp j i lj li h)
  · intro e he
    exact Option.isSome_iff_exists.1 (finish_geom c st e he)

/-! ### examples -/

/-- Names of the trips 0 to 9: trips 0 to 4 are of route 1, the others of route 2. -/
def exFeed : Feed Nat := ⟨fun t => [if t < 5 then 49 else 50], fun t => [84, 48 + t]⟩

/-- The routing graph of the example of C74. -/
def exG : Gr (Edg Nat Snap.Pt) Nat Snap.Pt (List Snap.Pt) := grOf (finish exCfg exMap)

/-- The edge from `a` to `b`. -/
def exE (g : Gr (Edg Nat Snap.Pt) Nat Snap.Pt (List Snap.Pt)) (a b : Nat) : List (Edg Nat Snap.Pt) := (getEdg g a b).toList

/-- Trips 0 and 1 go from 2 to 5 with a stop on the first edge, trip 7 comes back. -/
def exForests : List (List (Leaf (Edg Nat Snap.Pt) Nat)) :=
  [[⟨[exE exG 2 3, exE exG 2 3 ++ exE exG 3 5], [0, 1]⟩], [⟨[exE exG 5 3 ++ exE exG 3 2], [7]⟩, ⟨[exE exG 4 3], [2]⟩]]

theorem exG_ok : GraphOk exG := C83_graph exCfg (fun _ _ => .refl _) exCfg_nds exMap exMap_sane exMap_marks

set_option synthInstance.maxSize 1024 in
theorem ex_on : ∀ fo ∈ exForests, ∀ l ∈ fo, ∀ hop ∈ l.hops, ∀ x ∈ hop, x ∈ exG.es := by decide

theorem ex_ne : ∀ fo ∈ exForests, ∀ l ∈ fo, l.trips ≠ [] := by decide

/-- Two workers take turns. -/
theorem ex_complete : Complete exG exForests 2 [1, 0, 1, 0, 1, 0, 0] := ⟨by decide, by decide⟩

/-- One worker does everything. -/
theorem ex_complete' : Complete exG exForests 1 [0, 0, 0, 0, 0, 0] := ⟨by decide, by decide⟩

set_option synthInstance.maxSize 1024 in
theorem ex_twin : ∀ e e', Used exG (rides exForests) e → Used exG (rides exForests) e' → exG.src e' = exG.dst e → exG.dst e' = exG.src e → e' = e := by
  have h : ∀ e ∈ exG.es, ∀ e' ∈ exG.es, (∃ r ∈ rides exForests, Over exG e r.2) → (∃ r ∈ rides exForests, Over exG e' r.2) →
      exG.src e' = exG.dst e → exG.dst e' = exG.src e → e' = e := by decide
  exact fun e e' h1 h2 => h e h1.1 e' h2.1 h1.2 h2.2

theorem ex_order : ∀ m : Map (Edg Nat Snap.Pt) Nat, (m.reverse).Perm m := fun m => List.reverse_perm m

example := C83_network exG exG_ok exFeed List.reverse ex_order exForests ex_on ex_ne 2 (by decide) _ ex_complete
example := C83_pieces_partial exG exG_ok exFeed List.reverse ex_order exForests ex_on ex_ne 2 (by decide) _ ex_complete ex_twin
example := C83_schedule_partial exG exG_ok exFeed List.reverse id ex_order (fun _ => .refl _) exForests ex_on ex_ne 2 1 (by decide) (by decide)
  _ _ ex_complete ex_complete' ex_twin

/-- The network graph of the example: the edge between 2 and 3 is driven over five times, by three trips. -/
theorem ex_graph : (transitGraph exG exFeed id exForests 2 [1, 0, 1, 0, 1, 0, 0]).map (fun n => (n.nds, n.es)) = some
    ([(300, 0), (500, 0), (200, 0), (400, 0)],
      [⟨0, 1, [(300, 0), (500, 0)], 3, [[49], [50]], [[84, 48], [84, 49], [84, 55]]⟩,
        ⟨2, 0, [(200, 0), (300, 0)], 5, [[49], [50]], [[84, 48], [84, 49], [84, 55]]⟩,
        ⟨3, 0, [(400, 0), (300, 0)], 1, [[49]], [[84, 50]]⟩]) := by decide

set_option synthInstance.maxSize 1024 in
/-- C83_count_partial for an edge of the example. -/
example : ∃ (ns : List Nat) (e : Edg Nat Snap.Pt) (x : NEdge (List Snap.Pt)), Shows exG exFeed (rides exForests) ns e x ∧
    (rides exForests).Pairwise (fun r s => Over exG e r.2 → Over exG e s.2 → r.1 ≠ s.1) ∧ x.numTrips = 3 := by
  obtain ⟨ns, ng, h1, h2⟩ := C83_network exG exG_ok exFeed id (fun _ => .refl _) exForests ex_on ex_ne 2 (by decide) _ ex_complete
  have hg := ex_graph
  rw [h1] at hg
  have hes : ng.es = _ := congrArg Prod.snd (Option.some.inj hg)
  obtain ⟨e, he, hs⟩ := h2.sound ⟨0, 1, [(300, 0), (500, 0)], 3, [[49], [50]], [[84, 48], [84, 49], [84, 55]]⟩ (by rw [hes]; simp)
  refine ⟨ns, e, _, hs, ?_, rfl⟩
  have hd : ∀ e ∈ exG.es, exG.geom e = some [(300, 0), (500, 0)] →
      (exG.rev e = false ∨ ((rides exForests).countP fun r => decide (Over exG e r.2)) ≠ 3) →
      (rides exForests).Pairwise (fun r s => Over exG e r.2 → Over exG e s.2 → r.1 ≠ s.1) := by decide
  refine hd e he.1 hs.line ?_
  by_cases hr : exG.rev e = false
  · exact Or.inl hr
  · exfalso
    have : ∀ e ∈ exG.es, (∃ r ∈ rides exForests, Over exG e r.2) → exG.rev e = false := by decide
    exact hr (this e he.1 he.2)

/-- C83 fails for `num_trips`: with a stop in the middle of an edge, a trip drives over the edge in two hops and is counted twice. Two trips
use the first edge of the example in this direction, one in the other; the number shown is 5. -/
theorem C83_negation_count : ∃ (g : Gr (Edg Nat Snap.Pt) Nat Snap.Pt (List Snap.Pt)) (f : Feed Nat) (forests : List (List (Leaf (Edg Nat Snap.Pt) Nat)))
    (W : Nat) (sched : List Nat) (ng : Ng Nat Snap.Pt (List Snap.Pt)) (x : NEdge (List Snap.Pt)),
    GraphOk g ∧ 0 < W ∧ Complete g forests W sched ∧ (∀ fo ∈ forests, ∀ l ∈ fo, ∀ hop ∈ l.hops, ∀ x ∈ hop, x ∈ g.es) ∧
    transitGraph g f id forests W sched = some ng ∧ x ∈ ng.es ∧ (forests.flatten.flatMap (·.trips)) = [0, 1, 7, 2] ∧ x.numTrips = 5 := by
  obtain ⟨ns, ng, h1, h2⟩ := C83_network exG exG_ok exFeed id (fun _ => .refl _) exForests ex_on ex_ne 2 (by decide) _ ex_complete
  have hg := ex_graph
  rw [h1] at hg
  have hes : ng.es = _ := congrArg Prod.snd (Option.some.inj hg)
  exact ⟨exG, exFeed, exForests, 2, _, ng, ⟨2, 0, [(200, 0), (300, 0)], 5, [[49], [50]], [[84, 48], [84, 49], [84, 55]]⟩, exG_ok, by decide,
    ex_complete, ex_on, h1, by rw [hes]; simp, rfl, rfl⟩

/-- The graph of the map with two tracks between 0 and 1, drawn in opposite directions. -/
def exT : Gr (Edg Nat Snap.Pt) Nat Snap.Pt (List Snap.Pt) := grOf (finish exCfg exTwo)

theorem exT_ok : GraphOk exT := by
  refine C83_graph exCfg (fun _ _ => .refl _) exCfg_nds exTwo ⟨by simp [exTwo, exM], ?_, ?_, ?_⟩ ?_
  · intro e he; simp [exTwo] at he; rcases he with rfl | rfl | rfl | rfl <;> decide
  · intro e he; simp [exTwo] at he; rcases he with rfl | rfl | rfl | rfl <;> decide
  · intro v r hr
    simp only [exTwo, Restrictor.R.init] at hr
    by_cases hv : v = 0
    · subst hv
      simp at hr
      subst hr
      exact ⟨by decide, fun x hx => by cases hx; decide⟩
    · simp [hv] at hr
  · intro e he f hf _ h1
    simp [exTwo] at he
    rcases he with rfl | rfl | rfl | rfl <;> exact absurd rfl h1

/-- Trip 0 goes over the one track, trip 7 over the other. -/
def exForestsT : List (List (Leaf (Edg Nat Snap.Pt) Nat)) := [[⟨[exE exT 0 1], [0]⟩, ⟨[exE exT 1 0], [7]⟩]]

/-- An order in which edges that start at node 1 come first. -/
def exSwap (m : Map (Edg Nat Snap.Pt) Nat) : Map (Edg Nat Snap.Pt) Nat :=
  m.filter (fun p => p.1.any fun e => e.src == 1) ++ m.filter (fun p => !(p.1.any fun e => e.src == 1))

set_option synthInstance.maxSize 1024 in
/-- C83 fails for two tracks between the same nodes that are drawn in opposite directions: the network graph is undirected and has room for
one of them. Trip 7 and its route do not appear in it at all; in another order of the hash map it is trip 0. -/
theorem C83_negation_twin : ∃ (g : Gr (Edg Nat Snap.Pt) Nat Snap.Pt (List Snap.Pt)) (f : Feed Nat) (forests : List (List (Leaf (Edg Nat Snap.Pt) Nat)))
    (order' : Map (Edg Nat Snap.Pt) Nat → Map (Edg Nat Snap.Pt) Nat) (W : Nat) (sched : List Nat) (ng ng' : Ng Nat Snap.Pt (List Snap.Pt)) (e e' : Edg Nat Snap.Pt),
    GraphOk g ∧ (∀ m, (order' m).Perm m) ∧ 0 < W ∧ Complete g forests W sched ∧ (∀ fo ∈ forests, ∀ l ∈ fo, ∀ hop ∈ l.hops, ∀ x ∈ hop, x ∈ g.es) ∧
    (0, e) ∈ rides forests ∧ (7, e') ∈ rides forests ∧
    transitGraph g f id forests W sched = some ng ∧ transitGraph g f order' forests W sched = some ng' ∧
    (∀ x ∈ ng.es, f.name 7 ∉ x.tripShortNames ∧ f.route 7 ∉ x.routeShortNames) ∧
    (∀ x ∈ ng'.es, f.name 0 ∉ x.tripShortNames ∧ f.route 0 ∉ x.routeShortNames) := by
  refine ⟨exT, exFeed, exForestsT, exSwap, 1, [0, 0, 0, 0],
    ⟨[(0, 0), (100, 0)], [⟨0, 1, [(0, 0), (100, 0)], 1, [[49]], [[84, 48]]⟩], [(1, 1), (0, 0)]⟩,
    ⟨[(100, 0), (0, 0)], [⟨0, 1, [(100, 0), (0, 0)], 1, [[50]], [[84, 55]]⟩], [(0, 1), (1, 0)]⟩,
    (exE exT 0 1).head (by decide), (exE exT 1 0).head (by decide), exT_ok,
    fun m => List.filter_append_perm _ m, by decide, ⟨by decide, by decide⟩, by decide, by decide, by decide, ?_, ?_,
    by decide, by decide⟩
  · rfl
  · rfl

/-- C83, limit. `hardware_concurrency()` may be 0; then there is no worker, no trip is matched, and the network graph is empty. -/
theorem C83_limit_no_threads : Complete exG exForests 0 [] ∧ (transitGraph exG exFeed id exForests 0 []).map (fun n => (n.nds, n.es)) = some ([], []) :=
  ⟨⟨by decide, by intro w h; cases h⟩, rfl⟩

end

end Verif.Net
