import Verif.Tour.Spec
import Verif.Build.Props
import Verif.Full.Cache
import Verif.Journey.Props

/-!
# Matching all trips of a feed on a road network (lemmas)
-/

namespace Verif.Tour
open Verif.Trie (Trie Op history filings)
open Verif.Router (Ecm getECM search)
open Verif.Line (Pos LHop Chain GeomOk)
open Verif.Build (Mode ModeOk RouteOk cluster Offers Leads After Serves Good)
open Verif.Full (Net Trail WalkOk Small)
open Verif.Hops (CacheOk)
open Verif.HopCache (Cache)

variable {C Pt P A : Type} {m : Mode Nat C Pt Unit (Option Cache) P A} {net : Trie Nat P A → Ecm Nat C (Pos Pt) → Net C (Pos Pt × Int)}
  {turn : A → Nat → Nat → Option Nat} {n : Nat}

/-! ## Attributes -/

theorem foldl_self {merge : A → A → A} {a : A} (h : merge a a = a) : ∀ k, (List.replicate k a).foldl merge a = a
  | 0 => rfl
  | k + 1 => by rw [List.replicate_succ, List.foldl_cons, h]; exact foldl_self h k

/-- All nodes of the tries of a forest have the attributes of one trip, and the trips of the forest have equivalent ones. -/
theorem group_of (ok : RunOk m net turn n) {fs : List (List (Trie Nat P A))} (hfs : cluster m n = some fs) {f : List (Trie Nat P A)}
    (hf : f ∈ fs) : ∃ j, j < n ∧ (∀ tr ∈ f, ∀ (i : Nat) nd, i ≠ 0 → tr.nds[i]? = some nd → nd.attrs = m.c.rAttrs j) ∧
      ∀ tr ∈ f, ∀ t ∈ filings tr, m.c.lt (m.c.rAttrs j) (m.c.rAttrs t) = false ∧ m.c.lt (m.c.rAttrs t) (m.c.rAttrs j) = false := by
  obtain ⟨s, h1, h2⟩ := Trie.C12_each_trip_once m.c ok.near ok.lt (List.range n) m.thr ok.thr
  obtain ⟨s', h3, h4⟩ := h2 m.csched
  obtain ⟨_, g2, g3, _⟩ := h4 (ok.done s h1)
  have e : cluster m n = some s'.forests := by rw [cluster, h1]; simp only [h3, Option.map_some]
  rw [e] at hfs
  cases hfs
  obtain ⟨g, hlt, hg⟩ := List.mem_iff_getElem.mp hf
  have hg : s'.forests[g]? = some f := by rw [List.getElem?_eq_getElem hlt, hg]
  rw [g2] at hlt
  obtain ⟨⟨a, ts⟩, ha⟩ : ∃ p, (Trie.groupTrips m.c (List.range n))[g]? = some p := ⟨_, List.getElem?_eq_getElem hlt⟩
  obtain ⟨p1, p2⟩ := g3 g a ts f ha hg
  obtain ⟨s0, k1, k2⟩ := Trie.C27_cluster_first_attrs m.c ok.near ok.lt (List.range n) m.thr ok.thr
  rw [h1] at k1; cases k1
  obtain ⟨s1, k3, k4⟩ := k2 m.csched
  rw [h3] at k3; cases k3
  obtain ⟨⟨t0, rest, e1, rfl⟩, k5⟩ := k4 g a ts f ha hg
  have hin : t0 ∈ (Trie.groupTrips m.c (List.range n)).flatMap (·.2) :=
    List.mem_flatMap.mpr ⟨_, List.mem_of_getElem? ha, by rw [e1]; exact List.mem_cons_self ..⟩
  have hin := (List.mem_filter.mp ((Trie.groups_perm m.c (List.range n)).mem_iff.mp hin)).1
  refine ⟨t0, List.mem_range.mp hin, fun tr htr i nd h0 hnd => ?_, fun tr htr t ht => ?_⟩
  · obtain ⟨k, hk⟩ := k5 tr htr i nd h0 hnd
    rw [hk]
    exact foldl_self (ok.merge t0) k
  · have := p2 t (p1.mem_iff.mp (List.mem_flatMap.mpr ⟨tr, htr, ht⟩))
    exact ⟨this.2, this.1⟩

/-! ## Ways in the graph are lines on the map -/

theorem chain_append {g : Line.Edges Nat Pt} : ∀ {l : List Nat} {b c : Nat}, Chain g (l ++ [b]) → g.to_ b = g.from_ c → Chain g (l ++ [b, c])
  | [], b, c, _, h => ⟨h, trivial⟩
  | [a], b, c, h1, h => ⟨h1.1, h, trivial⟩
  | a :: a' :: l, b, c, h1, h => ⟨h1.1, chain_append (l := a' :: l) h1.2 h⟩

theorem leads_of {g : Line.Edges Nat Pt} {t : Nat → Nat → Option Nat}
    (hj : ∀ i j x, t i j = some x → g.to_ i = g.from_ j ∧ g.geom j ≠ none) {a b : Nat} {es : List Nat} {x : Nat} (h : Trail t a b es x)
    (ha : g.geom a ≠ none) : Leads g a b es := by
  induction h with
  | one => exact ⟨rfl, rfl, trivial, by simpa using ha⟩
  | @more b c x y es h1 h2 ih =>
    have L := ih
    obtain ⟨j1, j2⟩ := hj _ _ _ h2
    cases es with
    | nil => have := L.stop; cases this
    | cons d es =>
      have : d = b := by have := L.stop; simpa using this
      subst this
      refine ⟨?_, rfl, ?_, ?_⟩
      · rw [List.getLast?_cons_cons]; exact L.start
      · have := L.chain
        simp only [List.reverse_cons, List.append_assoc, List.cons_append, List.nil_append] at this ⊢
        exact chain_append this j1
      · intro e he
        rcases List.mem_cons.mp he with rfl | he
        · exact j2
        · exact L.geom e he

theorem routeOk_of (ok : FindOk m net turn) (ek : EdgesOk m net turn) : RouteOk (onNet m net) where
  near := ok.near
  ecm := fun tr ecm _ => ok.ecm tr ecm
  laws := fun tr ecm _ => ok.laws tr ecm
  finite := fun tr ecm _ => ok.finite tr ecm
  cands := fun tr ecm _ => ok.cands tr ecm
  progr := ok.progr
  geom := ek.geom
  paths := by
    intro tr ecm s nid e e' he _ hne
    have hne : (net tr ecm).edges tr.nds (search ((net tr ecm).base tr.nds) tr.nds s).mc nid e e' ≠ [] := hne
    show Leads m.map e e' ((net tr ecm).edges tr.nds (search ((net tr ecm).base tr.nds) tr.nds s).mc nid e e')
    simp only [Net.edges] at hne ⊢
    split at hne
    · rename_i h
      rw [if_pos h]
      exact leads_of (ek.join _) ((ok.walk tr ecm).found _ _ _ h).2 (ek.offers tr e he)
    · exact absurd rfl hne

/-- The conditions of C87 hold. -/
theorem modeOk_of (ok : NetOk m net turn n) : ModeOk (onNet m net) n where
  toRouteOk := routeOk_of ok.toFindOk ok.toEdgesOk
  lt := ok.lt
  thr := ok.thr
  done := ok.done
  times := ok.times
  forward := ok.forward

/-! ## The cache of a forest -/

theorem empty_ok (t : Nat → Nat → Option Nat) : CacheOk t HopCache.empty := fun a b => by
  have : HopCache.get HopCache.empty a b = (0, false) := by rfl
  rw [this]
  exact ⟨(fun h => by cases h), fun _ y _ => Nat.zero_le y⟩

theorem search_single {env : Router.Env Nat C (Pos Pt × Int) Unit (Option Cache)} {tr : Trie Nat P A} (w : Trie.WF tr.nds) (h : tr.nds[1]? = none)
    (s : Option Cache) : (search env tr.nds s).s = s := by
  unfold search
  cases h0 : tr.nds[0]? with
  | none => rfl
  | some root =>
    have : root.childs = [] := by
      cases hc : root.childs with
      | nil => rfl
      | cons c cs =>
        obtain ⟨h1, nd, h2, _⟩ := w.chi 0 root c h0 (by rw [hc]; exact List.mem_cons_self ..)
        have := (List.getElem?_eq_some_iff.mp h2).1
        rw [List.getElem?_eq_none_iff] at h
        omega
    simp only [this, List.foldl_nil]
    cases tr.nds.length <;> rfl

theorem keys {tr : Trie Nat P A} {a : A} (h : ∀ (i : Nat) nd, i ≠ 0 → tr.nds[i]? = some nd → nd.attrs = a) : key m.c tr = a ∨ tr.nds[1]? = none := by
  cases h1 : tr.nds[1]? with
  | none => exact Or.inr rfl
  | some nd => left; rw [key, h1]; exact h 1 nd (by decide) h1

/-- The records of the cache are true whenever a trie is routed. -/
theorem after_ok (ok : NetOk m net turn n) {fs : List (List (Trie Nat P A))} (hfs : cluster m n = some fs) {f : List (Trie Nat P A)} (hf : f ∈ fs)
    {a : A} (hat : ∀ tr ∈ f, ∀ (i : Nat) nd, i ≠ 0 → tr.nds[i]? = some nd → nd.attrs = a) :
    ∀ {pre : List (Trie Nat P A)} {s : Option Cache}, After (onNet m net) pre s → (∀ tr ∈ pre, tr ∈ f) →
      ∀ x, s = some x → CacheOk (turn a) x := by
  obtain ⟨fs', hfs', hgood, _⟩ := Build.cluster_ok (modeOk_of ok)
  have : fs' = fs := by rw [show cluster (onNet m net) n = cluster m n from rfl, hfs] at hfs'; cases hfs'; rfl
  subst this
  intro pre s h
  induction h with
  | start =>
    intro _ x hx
    rcases ok.cache with e | e
    · rw [show (onNet m net).cache = none from e] at hx; cases hx
    · rw [show (onNet m net).cache = some HopCache.empty from e] at hx; cases hx; exact empty_ok _
  | @next pre s tr ecm _ he ih =>
    intro hin
    have hs := ih (fun t ht => hin t (by simp [ht]))
    have htr := hin tr (by simp)
    rcases keys (m := m) (hat tr htr) with hkey | hone
    · obtain ⟨K, hK⟩ := ok.small fs' hfs f hf tr htr ecm he
      have hg := ok.graph tr ecm
      have hse := ok.search tr ecm
      rw [hkey] at hg hse
      have hb := Full.base_blind (nds := tr.nds) hg hK (ok.slow tr ecm) hse
      have e : search ((onNet m net).env tr ecm s) tr.nds s = search ((net tr ecm).base tr.nds) tr.nds s := Full.search_withPath _ _ _ _
      rw [e]
      exact (Full.search_blind hb tr.nds s s hs hs).left
    · obtain ⟨ops, log, hh⟩ := hgood f hf tr htr
      obtain ⟨I, _⟩ := Router.history_facts m.c.toEnv ok.near ops hh
      rw [search_single I.wf hone]
      exact hs

/-! ## Trips -/

theorem rides_of (ok : NetOk m net turn n) {k : Nat} {hops : List (LHop Nat Pt)} (h : Serves (onNet m net) n k hops)
    (hk : 2 ≤ (m.c.stops k).length) : Rides m net turn (fun _ _ _ => True) n k hops := by
  obtain ⟨h1, h2, fs, pre, post, tr, ops, log, op, nid, ecm, s, hfs, hf, ha, hh, hl, ht, hsp, he, hr, _⟩ := h
  have hfs : cluster m n = some fs := hfs
  have he : getECM (m.gen tr) tr.nds = some ecm := he
  have hh : history m.c.toEnv ops = some (tr, log) := hh
  obtain ⟨j, hj, hat, heq⟩ := group_of ok.toRunOk hfs hf
  obtain ⟨I, _⟩ := Router.history_facts m.c.toEnv ok.near ops hh
  have hstop : 2 ≤ (m.c.toEnv.stops op.t).length := by rw [ht]; exact hk
  have he' : getECM (m.gen tr) tr.nds = some (net tr ecm).ecm := by rw [ok.ecm]; exact he
  have htr : tr ∈ pre ++ tr :: post := by simp
  have hs := after_ok ok hfs hf hat ha (fun t ht => by simp [ht])
  have hlen : tr.nds[1]? ≠ none := by
    intro hn
    rw [List.getElem?_eq_none_iff] at hn
    have hlt := I.lt _ hl
    have h0 : nid = 0 := by simp only at hlt; omega
    subst h0
    have := hsp.1
    have hp : Trie.pathOf tr.nds 0 = [] := by rfl
    rw [hp] at this
    have hst : 2 ≤ ((onNet m net).c.toEnv.stops op.t).length := hstop
    simp only [List.length_nil] at this
    omega
  have hkey := (keys (m := m) (hat tr htr)).resolve_right hlen
  have hfile : k ∈ filings tr := by
    refine List.mem_flatMap.mpr ⟨nid, List.mem_range.mpr (I.lt _ hl), ?_⟩
    rw [I.ndTrips]
    exact List.mem_map.mpr ⟨(op, nid), List.mem_filter.mpr ⟨hl, by simp⟩, ht⟩
  obtain ⟨K, hK⟩ := ok.small fs hfs _ hf tr htr ecm he
  have hg := ok.graph tr ecm
  have hse := ok.search tr ecm
  have hw := ok.walk tr ecm
  rw [hkey] at hg hse hw
  obtain ⟨top, lost, ids, hs', cost, g1, g2, g3, g4, g5⟩ := Full.C68_cheapest m.c.toEnv ok.near ops tr log hh (net tr ecm) hg (ok.laws tr ecm)
    (ok.finite tr ecm) (m.gen tr) (ok.cands tr ecm) he' hK s (ok.slow tr ecm) (by rw [Full.Trust, if_pos (ok.slow tr ecm)]; exact ⟨hse, hs⟩) hw op nid hl hstop
  have : hops = hs' := by
    have e : (net tr ecm).route tr.nds s nid = some hops := hr
    rw [g4] at e; cases e; rfl
  subst this
  obtain ⟨q1, q2⟩ := heq tr htr k hfile
  exact ⟨h1, h2, tr, ops, log, op, nid, ecm, j, hh, hl, ht, hsp, he, hj, q1, q2, hat tr htr, top, lost, ids, cost, g1, g2, g3, g5, fun _ _ => trivial⟩

/-! ## On the map of an OSM file -/

section
variable {S T D P' : Type} [DecidableEq P] {q : Town P S T D C P' A}

/-- What is known of the graph. -/
theorem town_graph (ok : MapOk q) : ∃ (ways : List Osm.Way) (at_ : Nat → Option Whole.Place),
    Whole.Kept q.p q.d ways ∧ (∀ u v x, at_ u = some x → at_ v = some x → u = v) ∧ Whole.Shows q.p q.d (Whole.mapSegs q.p q.d ways) at_ q.graph ∧
    (∀ e ∈ q.graph.es, Journey.fileComps q.p q.speed q.d.tags e.src = Journey.fileComps q.p q.speed q.d.tags e.dst) ∧
    (∀ e ∈ q.graph.es, e.src ∈ q.graph.nds ∧ e.dst ∈ q.graph.nds) ∧ Collapse.Uniq q.graph.es := by
  obtain ⟨ways, own, hb⟩ := Whole.base ok.filter q.d ok.doc
  have ht := ok.tidy ways hb.kept
  obtain ⟨c1, c2, c3⟩ := Journey.Base.comp ok.opts ok.order ok.nodes hb ht q.speed
  exact ⟨ways, fun u => own[u]?, hb.kept, fun u v x => hb.ties.inj u v x, hb.shows ok.opts ht ok.order ok.nodes ok.simplify, c1, c2, c3⟩

/-- Edges have lines from their start to their end. -/
theorem town_line (ok : MapOk q) {e : Collapse.Edg Nat P} (he : e ∈ q.graph.es) : ∃ l, e.geom = some l ∧
    (if e.a.rev = true then l.reverse else l).head? = some (q.graph.pos e.src) ∧
    (if e.a.rev = true then l.reverse else l).getLast? = some (q.graph.pos e.dst) := by
  obtain ⟨_, _, _, _, hs, _⟩ := town_graph ok
  by_cases h : e.src = e.dst
  · obtain ⟨l, h1, h2, h3⟩ := ok.loops e he h
    refine ⟨l, h1, ?_⟩
    rw [← h]
    split
    · rw [List.head?_reverse, List.getLast?_reverse]; exact ⟨h3, h2⟩
    · exact ⟨h2, h3⟩
  · exact hs.ends e he h

theorem town_geom (ok : MapOk q) : GeomOk (mapOf q.graph) := by
  intro i l h
  have hg : (mapOf q.graph).geom i = q.graph.es[i]?.bind (·.geom) := rfl
  cases hi : q.graph.es[i]? with
  | none =>
    rw [hi] at hg
    cases h with
    | none => exact ⟨rfl, rfl⟩
    | fwd l h1 => rw [hg] at h1; cases h1
    | bwd l h1 => rw [hg] at h1; cases h1
  | some e =>
    have hf : (mapOf q.graph).from_ i = q.graph.pos e.src := by simp only [mapOf, hi]
    have ht : (mapOf q.graph).to_ i = q.graph.pos e.dst := by simp only [mapOf, hi]
    have hr : (mapOf q.graph).rev i = e.a.rev := by simp only [mapOf, hi]
    rw [hi, Option.bind_some] at hg
    obtain ⟨l', k1, k2, k3⟩ := town_line ok (List.mem_of_getElem? hi)
    rw [hf, ht]
    cases h with
    | none => rw [hf, ht]; exact ⟨rfl, rfl⟩
    | fwd l h1 _ h3 =>
      rw [hg, k1] at h1; cases h1
      rw [hr] at h3
      rw [h3] at k2 k3
      exact ⟨k2, k3⟩
    | bwd l h1 _ h3 =>
      rw [hg, k1] at h1; cases h1
      rw [hr] at h3
      rw [h3] at k2 k3
      exact ⟨k2, k3⟩

theorem town_some (ok : MapOk q) {i : Nat} (hi : i < q.graph.es.length) : (mapOf q.graph).geom i ≠ none := by
  have h : q.graph.es[i]? = some q.graph.es[i] := List.getElem?_eq_getElem hi
  obtain ⟨l, k1, _⟩ := town_line ok (List.mem_of_getElem? h)
  show q.graph.es[i]?.bind (·.geom) ≠ none
  rw [h, Option.bind_some, k1]
  exact Option.some_ne_none _

theorem edgesOk_of (ok : MapOk q) : EdgesOk q.mode0 q.net (fun a => Journey.turn q.graph (q.fare a)) where
  geom := town_geom ok
  offers := fun tr e h => town_some ok (ok.offers tr e h)
  join := by
    intro a i j x h
    obtain ⟨e, f, h1, h2, h3, _⟩ := (Journey.C80_turn q.graph (q.fare a) (ok.fare a) i j x).mp h
    refine ⟨?_, town_some ok (List.getElem?_eq_some_iff.mp h2).1⟩
    show (match q.graph.es[i]? with | some e => q.graph.pos e.dst | none => q.graph.pos 0) =
      (match q.graph.es[j]? with | some e => q.graph.pos e.src | none => q.graph.pos 0)
    rw [h1, h2]
    simp only [h3]
  graph := by
    intro tr ecm
    obtain ⟨_, _, _, _, _, c1, _⟩ := town_graph ok
    exact Journey.graphOk _ _ _ _ c1

theorem netOk_of (ok : TownOk q n) : NetOk q.mode0 q.net (fun a => Journey.turn q.graph (q.fare a)) n where
  toRunOk := ok.run
  toEdgesOk := edgesOk_of ok.toMapOk

theorem tours_of (ok : TownOk q n) {k : Nat} {hops : List (LHop Nat P)}
    (h : Rides q.m q.net (fun a => Journey.turn q.graph (q.fare a)) (fun _ _ _ => True) n k hops) : Tours q n k hops := by
  obtain ⟨ways, at_, w1, w2, w3, _, w5, w6⟩ := town_graph ok.toMapOk
  obtain ⟨h1, h2, tr, ops, log, op, nid, ecm, j, a1, a2, a3, a4, a5, a6, a7, a8, a9, top, lost, ids, cost, b1, b2, b3, b4, _⟩ := h
  refine ⟨ways, at_, w1, w2, w3, h1, h2, tr, ops, log, op, nid, ecm, j, a1, a2, a3, a4, a5, a6, a7, a8, a9, top, lost, ids, cost, b1, b2, b3, b4,
    fun h hh => ?_⟩
  have hc : ∀ nid, ∀ c ∈ (q.net tr ecm).ecm nid, ∀ e, c.e = some e → e < q.graph.es.length := by
    intro i c hi e hce
    rw [ok.run.ecm] at hi
    obtain ⟨j, c0, hj, e1, _⟩ := Full.from_ecm a5 i c hi
    rw [e1] at hce
    exact ok.offers tr e ⟨j, c0, hj, hce⟩
  exact (Journey.legs (Journey.factors _ (ok.fare _)) w6 b3 hc h hh).imp id fun ⟨l, x, l1, l2⟩ =>
    ⟨l, x, l1, l2, Journey.onMap w3 w5 (q.fare (q.m.c.rAttrs j)) l2.1 l2.2.1⟩

end

theorem matched_mono {E D' S' X Y : Type} {pt : List Pt → Rat → Pt} {encD : Rat → List Nat} {isAt : Shapes.Row → Pt → Prop}
    {way way' : Mode E C Pt D' S' P A → Nat → List (LHop E Pt) → Prop} {ms : List (Mode E C Pt D' S' P A)} {trips trips' : List (Content.TripRow X)}
    {src out : List Shapes.Row} {rows rows' : List (Out.StRow (List Nat) Y)} (h : Build.Matched pt encD isAt way ms trips src rows trips' out rows')
    (hw : ∀ m ∈ ms, ∀ k, Trie.needsShape m.c k → ∀ hops, way m k hops → way' m k hops) :
    Build.Matched pt encD isAt way' ms trips src rows trips' out rows' where
  new := fun m hm k t ht hk => by
    obtain ⟨hops, h1, h2⟩ := h.new m hm k t ht hk
    exact ⟨hops, hw m hm k hk hops h1, h2⟩
  old := h.old

end Verif.Tour
