import Verif.Single.Spec
import Verif.Tour.Lemmas

/-!
# Matching a single trip (property C89)
-/

namespace Verif.Single
open Verif.Trie (Trie Op history CEnv StopTime)
open Verif.Router (Ecm getECM search route)
open Verif.Line (Pos LHop Geo GeoOk)
open Verif.Build (Mode leafs)
open Verif.Full (Net)
open Verif.HopCache (Cache)
open Verif.Tour (Town FindOk EdgesOk MapOk onNet key)

variable {E C Pt P A S T D P' : Type}

theorem filter_range (a : Nat) : ∀ n, a < n → (List.range n).filter (fun i => decide (a = i)) = [a]
  | 0, h => absurd h (Nat.not_lt_zero _)
  | n + 1, h => by
    rw [List.range_succ, List.filter_append]
    rcases Nat.lt_or_ge a n with h1 | h1
    · rw [filter_range a n h1, List.filter_cons_of_neg (by simp; omega)]
      rfl
    · have : a = n := by omega
      subst this
      rw [List.filter_cons_of_pos (by simp), List.filter_nil]
      rw [List.filter_eq_nil_iff.mpr]
      · rfl
      · intro i hi
        rw [List.mem_range] at hi
        simp; omega

/-- What is known of the trie of a trip with stops. -/
theorem trie_of (c : CEnv Nat P A) (hnear : ∀ p, c.near p p = true) (k : Nat) (hk : c.stops k ≠ []) :
    ∃ tr nid, trieOf c k = some tr ∧ history c.toEnv [⟨k, c.rAttrs k, c.timeEx, false⟩] = some (tr, [(⟨k, c.rAttrs k, c.timeEx, false⟩, nid)]) ∧
      leafs tr = [nid] ∧ ∀ (i : Nat) nd, i ≠ 0 → tr.nds[i]? = some nd → nd.attrs = c.rAttrs k := by
  rcases Trie.addTrip_spec c.toEnv hnear (Trie.Inv.empty c.toEnv) ⟨k, c.rAttrs k, c.timeEx, false⟩ with ⟨_, h | h | h⟩ | ⟨tr, nid, h, F⟩
  · exact absurd h hk
  · cases h
  · exact absurd rfl h
  · have hlog : history c.toEnv [⟨k, c.rAttrs k, c.timeEx, false⟩] = some (tr, [(⟨k, c.rAttrs k, c.timeEx, false⟩, nid)]) := by
      simp only [history, Trie.run, h, F.tripNds, Trie.lookup_assign, List.nil_append]
    refine ⟨tr, nid, ?_, hlog, ?_, ?_⟩
    · unfold trieOf
      rw [h]
    · obtain ⟨I, _⟩ := Router.history_facts c.toEnv hnear _ hlog
      have e : (fun i => !(tr.ndTrips i).isEmpty) = fun i => decide (nid = i) := by
        funext i
        rw [I.ndTrips i]
        by_cases hi : nid = i <;> simp [hi]
      rw [leafs, e]
      exact filter_range nid _ (I.lt _ (List.mem_singleton.mpr rfl))
    · intro i nd h0 hn
      obtain ⟨tr', log', h1, h2⟩ := Trie.C10_stats c.toEnv hnear [⟨k, c.rAttrs k, c.timeEx, false⟩]
      rw [hlog] at h1
      cases h1
      obtain ⟨_, _, first, rest, e1, e2⟩ := h2 i nd h0 hn
      rw [e2]
      rw [List.filter_cons] at e1
      split at e1
      · simp only [List.filter_nil, List.map_cons, List.map_nil, List.cons.injEq] at e1
        rw [← e1.2, ← e1.1]
        rfl
      · simp at e1

/-! ## Lines do not depend on the colours -/

section
variable {m : Mode E C Pt D S P A} {a : A} {pt : List Pt → Rat → Pt}

theorem rest_map {b : Rat} {es : List E} {r : List Pt} (h : Line.Rest pt (m.edges a) b es r) : Line.Rest pt m.map b es r := by
  induction h with
  | stop e h => exact .stop e h
  | part e l m h1 h2 h3 => exact .part e l m h1 (Build.trav_edges.mp h2) h3
  | pass e l es r h1 h2 _ ih => exact .pass e l es r (Build.trav_edges.mp h1) h2 ih

theorem full_map {x y : Rat} {es : List E} {r : List Pt} (h : Line.Full pt (m.edges a) x y es r) : Line.Full pt m.map x y es r := by
  cases h with
  | one e l _ h1 h2 => exact .one e l _ (Build.trav_edges.mp h1) h2
  | whole e l es r h1 h2 h3 h4 => exact .whole e l es r h1 (Build.trav_edges.mp h2) h3 (rest_map h4)
  | from_ e l n es r h1 h2 h3 h4 h5 => exact .from_ e l n es r h1 (Build.trav_edges.mp h2) h3 h4 (rest_map h5)

theorem lineOf_map {h : LHop E Pt} {l : List Pt} (hl : Line.LineOf pt (m.edges a) h l) : Line.LineOf pt m.map h l := by
  obtain ⟨⟨x, y, h1, h2, h3⟩, h4⟩ := hl
  refine ⟨⟨x, y, Build.at_edges h1, Build.at_edges h2, h3⟩, fun e x e' y q1 q2 q3 => ?_⟩
  obtain ⟨full, f1, f2⟩ := h4 e x e' y q1 q2 q3
  exact ⟨full, full_map f1, f2⟩

end

section
variable {m : Mode Nat C Pt Unit (Option Cache) P A} {net : Trie Nat P A → Ecm Nat C (Pos Pt) → Net C (Pos Pt × Int)}
  {turn : A → Nat → Nat → Option Nat} {k : Nat}

theorem alone_of (ok : FindOk m net turn) (ek : EdgesOk m net turn) (tk : TripOk m net k) :
    ∃ hops, shapeify (onNet m net) none k = some hops ∧ Alone m net turn (fun _ _ _ => True) k hops ∧
      ∀ h ∈ hops, Line.HopOk ((onNet m net).edges (m.c.rAttrs k)) h := by
  have hk := tk.stops
  obtain ⟨tr, nid, h1, h2, h3, h4⟩ := trie_of m.c ok.near k (by intro e; rw [e] at hk; simp at hk)
  have h2 : history m.c.toEnv [op m k] = some (tr, [(op m k, nid)]) := h2
  have hmem : (op m k, nid) ∈ [(op m k, nid)] := List.mem_singleton.mpr rfl
  obtain ⟨I, _⟩ := Router.history_facts m.c.toEnv ok.near _ h2
  cases he : getECM (m.gen tr) tr.nds with
  | none => exact absurd he (tk.times tr _ h2)
  | some ecm =>
    have he' : getECM (m.gen tr) tr.nds = some (net tr ecm).ecm := by rw [ok.ecm]; exact he
    have hsp := I.spells _ hmem
    have hlen : tr.nds[1]? ≠ none := by
      intro hn
      rw [List.getElem?_eq_none_iff] at hn
      have hlt := I.lt _ hmem
      have h0 : nid = 0 := by simp only at hlt; omega
      subst h0
      have := hsp.1
      have hp : Trie.pathOf tr.nds 0 = [] := by rfl
      simp only [hp, List.length_nil] at this
      have hst : 2 ≤ (m.c.toEnv.stops (op m k).t).length := hk
      omega
    have hkey : key m.c tr = m.c.rAttrs k := (Tour.keys (m := m) h4).resolve_right hlen
    obtain ⟨K, hK⟩ := tk.small tr _ h2 ecm he
    have hg := ek.graph tr ecm
    have hse := ok.search tr ecm
    have hw := ok.walk tr ecm
    rw [hkey] at hg hse hw
    obtain ⟨top, lost, ids, hs, cost, g1, g2, g3, g4, g5⟩ := Full.C68_cheapest m.c.toEnv ok.near _ tr _ h2 (net tr ecm) hg (ok.laws tr ecm)
      (ok.finite tr ecm) (m.gen tr) (ok.cands tr ecm) he' hK none (ok.slow tr ecm)
      (by rw [Full.Trust, if_pos (ok.slow tr ecm)]; exact ⟨hse, fun _ hx => by cases hx⟩) hw (op m k) nid hmem hk
    have rk := Tour.routeOk_of ok ek
    have e4 : route ((onNet m net).env tr ecm none) tr.nds none nid = some hs := g4
    have ee : getECM (m.gen tr) tr.nds = some ((onNet m net).env tr ecm none).ecm := he'
    obtain ⟨ids', hs1, cost', _, r2, r3, _, r5, _⟩ := Router.route_total m.c.toEnv ok.near _ tr _ h2 ((onNet m net).env tr ecm none)
      (rk.laws tr ecm none) (rk.finite tr ecm none) (m.gen tr) (rk.cands tr ecm none) ee none (op m k) nid hmem hk
    obtain ⟨hs2, e2, l2⟩ := Router.C13_one_hop_per_pair m.c.toEnv ok.near _ tr _ h2 ((onNet m net).env tr ecm none)
      (rk.laws tr ecm none) (rk.finite tr ecm none) (m.gen tr) (rk.cands tr ecm none) ee none (op m k) nid hmem hk
    obtain ⟨hs3, e3, l3⟩ := Router.C57_hops_meet m.c.toEnv ok.near _ tr _ h2 ((onNet m net).env tr ecm none)
      (rk.laws tr ecm none) (rk.finite tr ecm none) (m.gen tr) (rk.cands tr ecm none) ee none (op m k) nid hmem hk
    rw [e4] at r3 e2 e3
    cases r3; cases e2; cases e3
    have hf := tk.forward tr _ h2 ecm he (op m k) nid hmem hs g4
    refine ⟨hs, ?_, ⟨?_, l3, tr, nid, ecm, h2, hsp, he, h4, top, lost, ids, cost, g1, g2, g3, g5, fun _ _ => trivial⟩,
      Build.hopOk_of rk ⟨_, _, h2⟩ he r5 r2 hf _⟩
    · have h1' : trieOf (onNet m net).c k = some tr := h1
      have he1 : getECM ((onNet m net).gen tr) tr.nds = some ecm := he
      simp only [shapeify, h1', he1, h3, e4]
    · have : (m.c.toEnv.stops (op m k).t) = m.c.stops k := rfl
      rw [this] at l2
      omega

/-- **C89 (network).** On any network the lines that are written for a trip with two or more stops are those of a cheapest journey through its
stops, one for each two consecutive stops. -/
theorem C89_network_partial {geo : Geo Pt} {pt : List Pt → Rat → Pt} (gok : GeoOk geo pt) (ok : FindOk m net turn) (ek : EdgesOk m net turn)
    (tk : TripOk m net k) : ∃ hops lines, shapeL geo (onNet m net) none k = some lines ∧ Alone m net turn (fun _ _ _ => True) k hops ∧
      Drawn pt m.map hops lines := by
  obtain ⟨hops, h1, h2, h3⟩ := alone_of ok ek tk
  obtain ⟨lines, c, g1, g2, g3⟩ := Line.getGeom_spec gok (Build.geomOk_edges (m := onNet m net) (m.c.rAttrs k) ek.geom) hops h3
  have g1 : Line.getGeom geo ((onNet m net).edges ((onNet m net).c.rAttrs k)) hops = some (lines, c) := g1
  refine ⟨hops, lines, by simp only [shapeL, h1, g1], h2, g2, fun i h l e1 e2 => ?_⟩
  exact lineOf_map (m := onNet m net) (g3 i h l e1 e2)

end

/-- **C89.** On the graph of an OSM file the lines that are written for a trip with two or more stops are those of a cheapest journey through its
stops on the map of the file, for the attributes of this trip. -/
theorem C89_single_partial [DecidableEq P] {geo : Geo P} {pt : List P → Rat → P} (gok : GeoOk geo pt) {q : Town P S T D C P' A} {k : Nat}
    (ok : OneOk q k) : ∃ hops lines, shapeL geo q.mode none k = some lines ∧ Tour q k hops ∧ Drawn pt q.mode.map hops lines := by
  obtain ⟨hops, lines, h1, h2, h3⟩ := C89_network_partial gok ok.find (Tour.edgesOk_of ok.toMapOk) ok.trip
  refine ⟨hops, lines, h1, ?_, h3⟩
  obtain ⟨ways, at_, w1, w2, w3, _, w5, w6⟩ := Tour.town_graph ok.toMapOk
  obtain ⟨a1, a2, tr, nid, ecm, a3, a4, a5, a6, top, lost, ids, cost, b1, b2, b3, b4, _⟩ := h2
  refine ⟨ways, at_, w1, w2, w3, a1, a2, tr, nid, ecm, a3, a4, a5, a6, top, lost, ids, cost, b1, b2, b3, b4, fun h hh => ?_⟩
  have hc : ∀ nid, ∀ c ∈ (q.net tr ecm).ecm nid, ∀ e, c.e = some e → e < q.graph.es.length := by
    intro i c hi e hce
    rw [ok.find.ecm] at hi
    obtain ⟨j, c0, hj, e1, _⟩ := Full.from_ecm a5 i c hi
    rw [e1] at hce
    exact ok.offers tr e ⟨j, c0, hj, hce⟩
  exact (Journey.legs (Journey.factors _ (ok.fare _)) w6 b3 hc h hh).imp id fun ⟨l, x, l1, l2⟩ =>
    ⟨l, x, l1, l2, Journey.onMap w3 w5 (q.fare (q.m.c.rAttrs k)) l2.1 l2.2.1⟩

/-- **C89 (limit).** If the trip has fewer than two stops, the program runs into undefined behaviour. -/
theorem C89_limit_stops [DecidableEq E] (geo : Geo Pt) (m : Mode E C Pt D S P A) (hecm : ∀ tr ecm s, (m.env tr ecm s).ecm = ecm) (s : S) (k : Nat)
    (h : (m.c.stops k).length < 2) : shapeL geo m s k = none := by
  have : shapeify m s k = none := by
    cases hs : m.c.stops k with
    | nil =>
      have : trieOf m.c k = some (Trie.Trie.empty m.c.toEnv) := by simp [trieOf, Trie.Trie.addTrip, Trie.Trie.add, hs]
      simp only [shapeify, this]
      have : leafs (Trie.Trie.empty m.c.toEnv) = ([] : List Nat) := by rfl
      rw [this]
      split
      · rename_i h; cases h
      · rfl
    | cons st l =>
      cases l with
      | cons st' l => rw [hs] at h; simp only [List.length_cons] at h; omega
      | nil =>
        have : trieOf m.c k = some ((Trie.Trie.empty m.c.toEnv).file k 0) := by
          simp [trieOf, Trie.Trie.addTrip, Trie.Trie.add, hs, Trie.addLoop, Trie.startAdd]
        simp only [shapeify, this]
        split
        · rename_i ecm nid l he hl
          have hl0 : leafs ((Trie.Trie.empty m.c.toEnv).file k 0) = [0] := by rfl
          rw [hl0] at hl
          cases hl
          have hz : ecm 0 = [] := by
            have he : getECM (m.gen ((Trie.Trie.empty m.c.toEnv).file k 0)) (Trie.Trie.empty m.c.toEnv).nds = some ecm := he
            unfold getECM at he
            split at he
            · cases he; rfl
            · cases he
          have : ∀ env : Router.Env E C (Pos Pt × Int) D S, env.ecm 0 = [] → route env (Trie.Trie.empty m.c.toEnv).nds s 0 = none := by
            intro env h0
            simp [route, Trie.Trie.empty, search, Router.loop, Router.backtrack, Router.initLayer, h0]
          exact this _ (by rw [hecm]; exact hz)
        · rfl
  rw [shapeL, this]

theorem firstMatch_stops (env : Trie.Env Nat P A) (stops : Nat → List (StopTime P)) (ex : Bool) (st : StopTime P) (t : Int) (nds : List (Trie.Nd P A)) :
    ∀ l, Trie.firstMatch { env with stops := stops } ex st t nds l = Trie.firstMatch env ex st t nds l
  | [] => rfl
  | c :: cs => by
    unfold Trie.firstMatch
    rw [firstMatch_stops env stops ex st t nds cs]
    rfl

theorem visit_stops (env : Trie.Env Nat P A) (stops : Nat → List (StopTime P)) :
    Trie.visit { env with stops := stops } = Trie.visit env := by
  funext ex a rej st t arr nds cur
  unfold Trie.visit Trie.getMatchChild
  simp only [firstMatch_stops]
  rfl

theorem addLoop_stops (env : Trie.Env Nat P A) (stops : Nat → List (StopTime P)) (ex : Bool) (a : A) (start : Int) (filed : Bool) :
    ∀ (l : List (StopTime P)) (first : Bool) (nds : List (Trie.Nd P A)) (cur : Nat),
      Trie.addLoop { env with stops := stops } ex a start filed first l nds cur = Trie.addLoop env ex a start filed first l nds cur
  | [], _, _, _ => rfl
  | st :: rest, first, nds, cur => by
    unfold Trie.addLoop
    simp only [visit_stops, addLoop_stops env stops ex a start filed rest]

/-- **C89 (other trips).** What is written for a trip depends on its own stops and attributes only. -/
theorem C89_others [DecidableEq E] (geo : Geo Pt) (m : Mode E C Pt D S P A) (stops : Nat → List (StopTime P)) (rAttrs : Nat → A) (s : S) (k : Nat)
    (h1 : stops k = m.c.stops k) (h2 : rAttrs k = m.c.rAttrs k) :
    shapeL geo { m with c := { m.c with stops := stops, rAttrs := rAttrs } } s k = shapeL geo m s k := by
  have e : trieOf { m.c with stops := stops, rAttrs := rAttrs } k = trieOf m.c k := by
    unfold trieOf Trie.Trie.addTrip Trie.Trie.add
    simp only [h1, h2, Bool.false_eq_true, if_false, addLoop_stops m.c.toEnv stops]
    rfl
  have e' : shapeify { m with c := { m.c with stops := stops, rAttrs := rAttrs } } s k = shapeify m s k := by
    unfold shapeify
    simp only [e]
  unfold shapeL Mode.edges
  simp only [e', h2]

end Verif.Single
