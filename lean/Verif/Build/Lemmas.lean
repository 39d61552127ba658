import Verif.Build.Spec
import Verif.Content.Lemmas

/-!
# Matching all trips of a feed (lemmas)
-/

namespace Verif.Build
open Verif.Trie (CEnv Trie Op history Spells needsShape filings offer clusterTrip cstep crun cinit groupTrips CSys)
open Verif.Router (Gen Ecm getECM search route Meet HopsOf Joins Hop Cand)
open Verif.Line (Pos LHop Edges Geo GeoOk GeomOk HopOk Chain Trav At Shp ShpPt getGtfsShape)

variable {E C Pt D S P A T : Type}

/-! ## Tries come from histories -/

/-- The trie is the result of some calls of `addTrip`. -/
def Good [DecidableEq T] (c : CEnv T P A) (tr : Trie T P A) : Prop := ∃ ops log, history c.toEnv ops = some (tr, log)

section
variable [DecidableEq T]

theorem run_append (env : Trie.Env T P A) : ∀ (ops ops' : List (Op T A)) s,
    Trie.run env (ops ++ ops') s = (Trie.run env ops s).bind (Trie.run env ops')
  | [], ops', s => rfl
  | op :: ops, ops', (tr, log) => by
    rw [List.cons_append, Trie.run, Trie.run]
    cases h : tr.addTrip env op.t op.a op.timeEx op.degen with
    | none => rfl
    | some p =>
      obtain ⟨b, tr'⟩ := p
      cases b with
      | false => exact run_append env ops ops' _
      | true =>
        dsimp only
        cases tr'.tripNds.lookup op.t with
        | none => rfl
        | some nid => exact run_append env ops ops' _

theorem good_empty (c : CEnv T P A) : Good c (Trie.Trie.empty c.toEnv) := ⟨[], [], rfl⟩

theorem good_add {c : CEnv T P A} (hnear : ∀ p, c.near p p = true) {tr tr' : Trie T P A} (h : Good c tr) {t a tx dg b}
    (ha : tr.addTrip c.toEnv t a tx dg = some (b, tr')) : Good c tr' := by
  obtain ⟨ops, log, h⟩ := h
  obtain ⟨tr2, log2, h2, _⟩ := Trie.C09_spells c.toEnv hnear (ops ++ [⟨t, a, tx, dg⟩])
  refine ⟨ops ++ [⟨t, a, tx, dg⟩], log2, ?_⟩
  have h3 := h2
  unfold history at h3 h
  rw [run_append, h, Option.bind_some, Trie.run] at h3
  simp only [ha] at h3
  rw [h2]
  cases b with
  | false => simp only [Trie.run, Option.some.injEq, Prod.mk.injEq] at h3; rw [h3.1]
  | true =>
    simp only at h3
    cases hl : tr'.tripNds.lookup t with
    | none => rw [hl] at h3; cases h3
    | some nid => rw [hl] at h3; simp only [Trie.run, Option.some.injEq, Prod.mk.injEq] at h3; rw [h3.1]

theorem good_offer {c : CEnv T P A} (hnear : ∀ p, c.near p p = true) (key : A) (t : T) : ∀ (f : List (Trie T P A)) b f',
    offer c key t f = some (b, f') → (∀ tr ∈ f, Good c tr) → ∀ tr ∈ f', Good c tr
  | [], b, f', h, _ => by rw [offer] at h; cases h; simp
  | tr :: f, b, f', h, hg => by
    rw [offer] at h
    cases ha : tr.addTrip c.toEnv t key c.timeEx c.noTrie with
    | none => rw [ha] at h; cases h
    | some p =>
      obtain ⟨b1, tr1⟩ := p
      have g1 := good_add hnear (hg tr (List.mem_cons_self ..)) ha
      have g2 : ∀ tr ∈ f, Good c tr := fun x hx => hg x (List.mem_cons_of_mem _ hx)
      rw [ha] at h
      cases b1 with
      | true =>
        cases h
        intro x hx
        rcases List.mem_cons.mp hx with rfl | hx
        · exact g1
        · exact g2 x hx
      | false =>
        dsimp only at h
        cases ho : offer c key t f with
        | none => rw [ho] at h; cases h
        | some q =>
          obtain ⟨b2, f2⟩ := q
          rw [ho] at h
          cases h
          intro x hx
          rcases List.mem_cons.mp hx with rfl | hx
          · exact g1
          · exact good_offer hnear key t f _ _ ho g2 x hx

theorem good_cluster {c : CEnv T P A} (hnear : ∀ p, c.near p p = true) {key : A} {t : T} {f f' : List (Trie T P A)}
    (h : clusterTrip c key f t = some f') (hg : ∀ tr ∈ f, Good c tr) : ∀ tr ∈ f', Good c tr := by
  rw [clusterTrip] at h
  cases ho : offer c key t f with
  | none => rw [ho] at h; cases h
  | some q =>
    obtain ⟨b, f2⟩ := q
    have g2 := good_offer hnear key t f _ _ ho hg
    rw [ho] at h
    cases b with
    | true => cases h; exact g2
    | false =>
      dsimp only at h
      cases ha : (Trie.Trie.empty c.toEnv).addTrip c.toEnv t key c.timeEx false with
      | none => rw [ha] at h; cases h
      | some p =>
        rw [ha] at h
        cases h
        intro x hx
        rcases List.mem_append.mp hx with hx | hx
        · exact g2 x hx
        · rw [List.mem_singleton] at hx
          subst hx
          exact good_add hnear (good_empty c) ha

theorem good_crun {c : CEnv T P A} (hnear : ∀ p, c.near p p = true) (groups : List (A × List T)) : ∀ (sched : List Nat) (s s' : CSys T P A),
    crun c groups sched s = some s' → (∀ f ∈ s.forests, ∀ tr ∈ f, Good c tr) → ∀ f ∈ s'.forests, ∀ tr ∈ f, Good c tr
  | [], s, s', h, hg => by cases h; exact hg
  | i :: sched, s, s', h, hg => by
    rw [crun] at h
    cases hs : cstep c groups s i with
    | none => rw [hs] at h; cases h
    | some s1 =>
      rw [hs] at h
      refine good_crun hnear groups sched s1 s' h ?_
      unfold cstep at hs
      split at hs
      · cases hs; exact hg
      · cases hs; exact hg
      · split at hs
        · rename_i key _ f _ hf
          split at hs
          · cases hs
          · rename_i f' hc
            cases hs
            intro x hx
            rcases List.mem_or_eq_of_mem_set hx with hx | rfl
            · exact hg x hx
            · exact good_cluster hnear hc (hg f (List.mem_of_getElem? hf))
        · cases hs
end

/-- What is known of the forests. -/
theorem cluster_ok {m : Mode E C Pt D S P A} {n : Nat} (ok : ModeOk m n) : ∃ fs, cluster m n = some fs ∧
    (∀ f ∈ fs, ∀ tr ∈ f, Good m.c tr) ∧
    (fs.flatMap fun f => f.flatMap filings).Perm ((List.range n).filter fun t => decide (needsShape m.c t)) := by
  obtain ⟨s, h1, h2⟩ := Trie.C12_each_trip_once m.c ok.near ok.lt (List.range n) m.thr ok.thr
  obtain ⟨s', h3, h4⟩ := h2 m.csched
  refine ⟨s'.forests, by rw [cluster, h1]; simp only [h3, Option.map_some], ?_, (h4 (ok.done s h1)).1⟩
  refine good_crun ok.near _ _ s s' h3 ?_
  rw [cinit] at h1
  split at h1
  · cases h1
  · cases h1
    intro f hf
    obtain ⟨_, _, rfl⟩ := List.mem_map.mp hf
    simp

/-! ## Colours do not matter -/

theorem trav_edges {m : Mode E C Pt D S P A} {a : A} {e : E} {l : List Pt} : Trav (m.edges a) e l ↔ Trav m.map e l := by
  constructor
  · intro h
    cases h with
    | none h => exact .none h
    | fwd l h1 h2 h3 => exact .fwd l h1 h2 h3
    | bwd l h1 h2 h3 => exact .bwd l h1 h2 h3
  · intro h
    cases h with
    | none h => exact .none (g := m.edges a) h
    | fwd l h1 h2 h3 => exact .fwd (g := m.edges a) l h1 h2 h3
    | bwd l h1 h2 h3 => exact .bwd (g := m.edges a) l h1 h2 h3

theorem at_edges {m : Mode E C Pt D S P A} {a : A} {pt : List Pt → Rat → Pt} {h : Router.HopEnd E (Pos Pt × Int)} {x : Pt}
    (hat : At pt (m.edges a) h x) : At pt m.map h x := by
  cases hat with
  | edge e x l ht => exact .edge e x l (trav_edges.mp ht)
  | free x => exact .free x

theorem geomOk_edges {m : Mode E C Pt D S P A} (a : A) (h : GeomOk m.map) : GeomOk (m.edges a) :=
  fun e l ht => h e l (trav_edges.mp ht)

theorem chain_edges {m : Mode E C Pt D S P A} (a : A) : ∀ {l : List E}, Chain m.map l → Chain (m.edges a) l
  | [], _ => trivial
  | [_], _ => trivial
  | _ :: _ :: _, ⟨h1, h2⟩ => ⟨h1, chain_edges a h2⟩

/-! ## Hops -/

/-- Each candidate of the table is one of the candidates of a stop. -/
theorem cand_of [DecidableEq T] {c : CEnv T P A} (hnear : ∀ p, c.near p p = true) {tr : Trie T P A} (hg : Good c tr) {X : Type} {g : Gen E C X}
    (hpl : ∀ i, ∃ c cs, g.cands i = c :: cs ∧ c.e = none) {ecm : Ecm E C X} (he : getECM g tr.nds = some ecm) {i : Nat} {nd : Trie.Nd P A}
    (h0 : i ≠ 0) (hn : tr.nds[i]? = some nd) {k : Nat} {cand : Cand E C (X × Int)} (hk : (ecm i)[k]? = some cand) :
    ∃ j, ∃ c0 ∈ g.cands j, c0.e = cand.e ∧ c0.x = cand.x.1 := by
  obtain ⟨ops, log, h⟩ := hg
  obtain ⟨I, _⟩ := Router.history_facts c.toEnv hnear ops h
  have arr : ∀ (i : Nat) nd, i ≠ 0 → tr.nds[i]? = some nd → (nd.parent = 0 ∨ nd.arr = true) → ∀ (k : Nat) (cand : Cand E C (X × Int)),
      (ecm i)[k]? = some cand → ∃ j, ∃ c0 ∈ g.cands j, c0.e = cand.e ∧ c0.x = cand.x.1 := by
    intro i nd h0 hn hp k cand hk
    have e := (Router.C49_table c.toEnv hnear ops tr log h g hpl ecm he i nd h0 hn).2.1 hp
    have hm : (cand.e, cand.x.1) ∈ (ecm i).map fun c => (c.e, c.x.1) := List.mem_map.mpr ⟨cand, List.mem_of_getElem? hk, rfl⟩
    rw [e] at hm
    obtain ⟨c0, hc, e0⟩ := List.mem_map.mp hm
    simp only [Prod.mk.injEq] at e0
    exact ⟨i, c0, hc, e0.1, e0.2⟩
  by_cases hp : nd.parent = 0 ∨ nd.arr = true
  · exact arr i nd h0 hn hp k cand hk
  · have hp0 : nd.parent ≠ 0 := fun e => hp (Or.inl e)
    have ha : nd.arr = false := by
      cases hb : nd.arr with
      | false => rfl
      | true => exact absurd (Or.inr hb) hp
    obtain ⟨_, h2⟩ := (Router.C49_table c.toEnv hnear ops tr log h g hpl ecm he i nd h0 hn).2.2 hp0 ha
    obtain ⟨_, a, h3, h4, h5, _⟩ := h2 k cand hk
    obtain ⟨nd', p, hn', hpn, _, hq⟩ := Router.getECM_spec g I.wf (Router.history_facts c.toEnv hnear ops h).2 ecm he i h0 (List.getElem?_eq_some_iff.mp hn).1
    rw [hn] at hn'; cases hn'
    have hi1 : i ≠ 1 := by
      rintro rfl
      have := I.wf.par 0 nd hn
      omega
    obtain ⟨j, c0, hc, e1, e2⟩ := arr nd.parent p hp0 hpn (Or.inr (hq hi1 ha).1) k a h3
    exact ⟨j, c0, hc, e1.trans h4, e2.trans h5⟩

/-- Each hop joins two candidates of nodes. -/
theorem joins_of {X : Type} {env : Router.Env E C X D S} {nds : List (Trie.Nd P A)} {nid : Nat} {ids : List Nat} {hs : List (Hop E X)}
    (hh : HopsOf env nds nid ids hs) : nid ≠ 0 → ∀ h ∈ hs, ∃ (i j : Nat) (p q : Nat) (f t : Trie.Nd P A) (a b : Cand E C X), i ≠ 0 ∧ j ≠ 0 ∧
      nds[i]? = some f ∧ nds[j]? = some t ∧ (env.ecm i)[p]? = some a ∧ (env.ecm j)[q]? = some b ∧ Joins env j a b h := by
  induction hh with
  | first => intro _ h hh; cases hh
  | stay nid fr to f t ids hs ht hp hf hst hr ih => intro _; exact ih hp
  | hop nid fr to f t ids hs a b h ht hp hf hst ha hb hj hr ih =>
    intro h0 x hx
    rcases List.mem_cons.mp hx with rfl | hx
    · exact ⟨t.parent, nid, fr, to, f, t, a, b, hp, h0, hf, ht, ha, hb, hj⟩
    · exact ih hp x hx

theorem hopOk_of {m : Mode E C Pt D S P A} (ok : RouteOk m) {tr : Trie Nat P A} (hg : Good m.c tr) {ecm : Ecm E C (Pos Pt)}
    (he : getECM (m.gen tr) tr.nds = some ecm) {s : S} {nid : Nat} {ids : List Nat} {hs : List (LHop E Pt)} (h0 : nid ≠ 0)
    (hh : HopsOf (m.env tr ecm s) tr.nds nid ids hs) (hf : ∀ h ∈ hs, Forward h) (a : A) : ∀ h ∈ hs, HopOk (m.edges a) h := by
  intro h hm
  obtain ⟨i, j, p, q, f, t, x, y, hi, hj, h1, h2, h3, h4, j1, j2, j3, j4, j5, j6⟩ := joins_of hh h0 h hm
  rw [ok.ecm] at h3 h4
  have hpl : ∀ i, ∃ c cs, (m.gen tr).cands i = c :: cs ∧ c.e = none := fun i => by
    obtain ⟨c, cs, e1, e2, _⟩ := (ok.cands tr ecm s).first i
    exact ⟨c, cs, e1, e2⟩
  have pr : ∀ (i k : Nat) nd cand, i ≠ 0 → tr.nds[i]? = some nd → (ecm i)[k]? = some cand → cand.e ≠ none →
      0 ≤ cand.x.1.progr ∧ cand.x.1.progr ≤ 1 := by
    intro i k nd cand hi hn hk hne
    obtain ⟨j, c0, hc, e1, e2⟩ := cand_of ok.near hg hpl he hi hn hk
    rw [← e2]
    exact ok.progr tr j c0 hc (by rw [e1]; exact hne)
  have path : h.edges ≠ [] → ∃ e e', x.e = some e ∧ y.e = some e' ∧ Leads m.map e e' h.edges := by
    intro hne
    cases hx : x.e with
    | none => exact absurd (j6 (Or.inl hx)) hne
    | some e =>
      cases hy : y.e with
      | none => exact absurd (j6 (Or.inr hy)) hne
      | some e' =>
        refine ⟨e, e', rfl, rfl, ?_⟩
        have e5 := j5 e e' hx hy
        rw [e5] at hne ⊢
        obtain ⟨i1, c1, m1, f1, _⟩ := cand_of ok.near hg hpl he hi h1 h3
        obtain ⟨i2, c2, m2, f2, _⟩ := cand_of ok.near hg hpl he hj h2 h4
        exact ok.paths tr ecm s j e e' ⟨i1, c1, m1, f1.trans hx⟩ ⟨i2, c2, m2, f2.trans hy⟩ hne
  constructor
  case fr =>
    intro e z hz
    cases hx : x.e with
    | none => rw [j2 hx] at hz; cases hz
    | some e1 =>
      rw [j1 e1 hx] at hz
      cases hz
      exact pr i p f x hi h1 h3 (by rw [hx]; simp)
  case to =>
    intro e z hz
    cases hy : y.e with
    | none => rw [j4 hy] at hz; cases hz
    | some e1 =>
      rw [j3 e1 hy] at hz
      cases hz
      exact pr j q t y hj h2 h4 (by rw [hy]; simp)
  case free =>
    rintro (⟨z, hz⟩ | ⟨z, hz⟩)
    · cases hx : x.e with
      | none => exact j6 (Or.inl hx)
      | some e1 => rw [j1 e1 hx] at hz; cases hz
    · cases hy : y.e with
      | none => exact j6 (Or.inr hy)
      | some e1 => rw [j3 e1 hy] at hz; cases hz
  case start =>
    intro e z hz hne
    obtain ⟨e1, e2, hx, _, hl⟩ := path hne
    rw [j1 e1 hx] at hz
    cases hz
    exact hl.start
  case stop =>
    intro e z hz hne
    obtain ⟨e1, e2, _, hy, hl⟩ := path hne
    rw [j3 e2 hy] at hz
    cases hz
    exact hl.stop
  case chain =>
    by_cases hne : h.edges = []
    · rw [hne]; trivial
    · obtain ⟨_, _, _, _, hl⟩ := path hne
      exact chain_edges a hl.chain
  case geom =>
    intro e hin
    obtain ⟨_, _, _, _, hl⟩ := path (List.ne_nil_of_mem hin)
    exact hl.geom e hin
  case forward => exact hf h hm

/-! ## Items -/

/-- What is known of an item. -/
structure Made (geo : Geo Pt) [DecidableEq E] (m : Mode E C Pt D S P A) (n : Nat) (it : Item E Pt) : Prop where
  trips : it.trips ≠ []
  hops : it.hops ≠ []
  serves : ∀ k ∈ it.trips, Serves m n k it.hops
  shape : ∃ a, (∀ h ∈ it.hops, HopOk (m.edges a) h) ∧ getGtfsShape geo (m.edges a) it.hops = some it.shp

theorem leafItem_ok [DecidableEq E] {geo : Geo Pt} {pt : List Pt → Rat → Pt} (gok : GeoOk geo pt) {m : Mode E C Pt D S P A} {n : Nat}
    (ok : ModeOk m n) {fs : List (List (Trie Nat P A))} (hfs : cluster m n = some fs) {pre post : List (Trie Nat P A)}
    {tr : Trie Nat P A} (hf : pre ++ tr :: post ∈ fs) (hg : Good m.c tr) (hst : ∀ t ∈ filings tr, 2 ≤ (m.c.stops t).length) {ecm : Ecm E C (Pos Pt)}
    (he : getECM (m.gen tr) tr.nds = some ecm) {s : S} (ha : After m pre s) {nid : Nat} (hn : nid ∈ leafs tr) :
    ∃ it, leafItem geo m tr ecm s nid = some it ∧ it.trips = tr.ndTrips nid ∧ Made geo m n it := by
  obtain ⟨hlt, hne⟩ := List.mem_filter.mp hn
  rw [List.mem_range] at hlt
  have hnd : tr.nds[nid]? = some tr.nds[nid] := List.getElem?_eq_getElem hlt
  obtain ⟨ops, log, h⟩ := id hg
  obtain ⟨I, _⟩ := Router.history_facts m.c.toEnv ok.near ops h
  cases ht : tr.ndTrips nid with
  | nil => rw [ht] at hne; simp at hne
  | cons t ts =>
    have hlog : ∀ k ∈ t :: ts, ∃ op, (op, nid) ∈ log ∧ op.t = k := by
      intro k hk
      rw [← ht, I.ndTrips nid] at hk
      obtain ⟨p, hp, rfl⟩ := List.mem_map.mp hk
      obtain ⟨hp1, hp2⟩ := List.mem_filter.mp hp
      refine ⟨p.1, ?_, rfl⟩
      have : p.2 = nid := by simpa using hp2
      rw [← this]; exact hp1
    have hstop : ∀ k ∈ t :: ts, 2 ≤ (m.c.stops k).length := fun k hk =>
      hst k (List.mem_flatMap.mpr ⟨nid, List.mem_range.mpr hlt, by rw [ht]; exact hk⟩)
    have he' : getECM (m.gen tr) tr.nds = some (m.env tr ecm s).ecm := by rw [ok.ecm]; exact he
    have all : ∀ k ∈ t :: ts, ∃ op, (op, nid) ∈ log ∧ op.t = k ∧ 2 ≤ (m.c.stops op.t).length := by
      intro k hk
      obtain ⟨op, h1, h2⟩ := hlog k hk
      exact ⟨op, h1, h2, by rw [h2]; exact hstop k hk⟩
    obtain ⟨op, o1, _, o3⟩ := all t (List.mem_cons_self ..)
    obtain ⟨ids, hs, cost, _, r2, r3, _, r5, _⟩ := Router.route_total m.c.toEnv ok.near ops tr log h (m.env tr ecm s) (ok.laws tr ecm s) (ok.finite tr ecm s)
      (m.gen tr) (ok.cands tr ecm s) he' s op nid o1 o3
    have hok := fun a => hopOk_of ok.toRouteOk hg he r5 r2 (ok.forward fs hfs _ _ _ hf ecm he s ha nid hs hlt (by rw [ht]; simp) r3) a
    have hser : ∀ k ∈ t :: ts, Serves m n k hs := by
      intro k hk
      obtain ⟨op, o1, o2, o3⟩ := all k hk
      obtain ⟨hs1, e1, l1⟩ := Router.C13_one_hop_per_pair m.c.toEnv ok.near ops tr log h (m.env tr ecm s) (ok.laws tr ecm s) (ok.finite tr ecm s)
        (m.gen tr) (ok.cands tr ecm s) he' s op nid o1 o3
      obtain ⟨hs2, e2, l2⟩ := Router.C57_hops_meet m.c.toEnv ok.near ops tr log h (m.env tr ecm s) (ok.laws tr ecm s) (ok.finite tr ecm s)
        (m.gen tr) (ok.cands tr ecm s) he' s op nid o1 o3
      obtain ⟨ids3, hs3, cost3, c1, c2, e3, c3⟩ := Router.C14_cheapest m.c.toEnv ok.near ops tr log h (m.env tr ecm s) (ok.laws tr ecm s)
        (ok.finite tr ecm s) (m.gen tr) (ok.cands tr ecm s) he' s op nid o1 o3
      rw [r3] at e1 e2 e3
      cases e1; cases e2; cases e3
      refine ⟨by rw [← o2]; omega, l2, fs, pre, post, tr, ops, log, op, nid, ecm, s, hfs, hf, ha, h, o1, o2, I.spells _ o1, he, r3, ids3, cost3, c1, c2, c3⟩
    have hne : hs ≠ [] := by
      have h1 := (hser t (List.mem_cons_self ..)).1
      have h2 := hstop t (List.mem_cons_self ..)
      rintro rfl
      simp only [List.length_nil] at h1
      omega
    obtain ⟨shp, _, _, _, e, _⟩ := Line.C46_shape_partial gok (geomOk_edges tr.nds[nid].attrs ok.geom) hs (hok _) hne
    refine ⟨⟨m.routeTy t, t :: ts, hs, shp⟩, ?_, rfl, by simp, hne, hser, tr.nds[nid].attrs, hok _, e⟩
    simp only [leafItem, hnd, ht, r3, e]

theorem flatMap_leafs (tr : Trie Nat P A) : (leafs tr).flatMap tr.ndTrips = filings tr := by
  unfold leafs filings
  generalize List.range tr.nds.length = l
  induction l with
  | nil => rfl
  | cons i l ih =>
    rw [List.filter_cons]
    cases h : tr.ndTrips i with
    | nil => simp [h, ih]
    | cons t ts => simp [h, ih]

theorem collect_flatMap {α β γ : Type} {f : α → Option β} {g : α → List γ} {g' : β → List γ} : ∀ {l : List α} {bs : List β},
    Content.collect f l = some bs → (∀ a ∈ l, ∀ b, f a = some b → g' b = g a) → bs.flatMap g' = l.flatMap g
  | [], bs, h, _ => by cases h; rfl
  | a :: l, bs, h, hg => by
    rw [Content.collect] at h
    cases hf : f a with
    | none => rw [hf] at h; cases h
    | some b =>
      rw [hf] at h
      cases hc : Content.collect f l with
      | none => rw [hc] at h; cases h
      | some bs' =>
        rw [hc] at h
        cases h
        rw [List.flatMap_cons, List.flatMap_cons, hg a (List.mem_cons_self ..) b hf,
          collect_flatMap hc fun a ha => hg a (List.mem_cons_of_mem _ ha)]

theorem trieItems_ok [DecidableEq E] {geo : Geo Pt} {pt : List Pt → Rat → Pt} (gok : GeoOk geo pt) {m : Mode E C Pt D S P A} {n : Nat}
    (ok : ModeOk m n) {fs : List (List (Trie Nat P A))} (hfs : cluster m n = some fs) {pre post : List (Trie Nat P A)}
    {tr : Trie Nat P A} (hf : pre ++ tr :: post ∈ fs) (hg : Good m.c tr) (hst : ∀ t ∈ filings tr, 2 ≤ (m.c.stops t).length) {s : S} (ha : After m pre s) :
    ∃ l s', trieItems geo m tr s = some (l, s') ∧ After m (pre ++ [tr]) s' ∧ l.flatMap (·.trips) = filings tr ∧ ∀ it ∈ l, Made geo m n it := by
  cases he : getECM (m.gen tr) tr.nds with
  | none => exact absurd he (ok.times fs hfs _ hf tr (by simp))
  | some ecm =>
    have all := fun nid hn => leafItem_ok gok ok hfs hf hg hst he ha (nid := nid) hn
    obtain ⟨l, hl⟩ := Content.collect_all (f := leafItem geo m tr ecm s) (l := leafs tr) fun nid hn => by
      obtain ⟨it, h, _⟩ := all nid hn
      exact ⟨it, h⟩
    refine ⟨l, (search (m.env tr ecm s) tr.nds s).s, by simp only [trieItems, he, hl], ha.next he, ?_, ?_⟩
    · rw [← flatMap_leafs]
      refine collect_flatMap hl fun nid hn it hit => ?_
      obtain ⟨it', h1, h2, _⟩ := all nid hn
      rw [hit] at h1; cases h1
      exact h2
    · intro it hit
      obtain ⟨nid, hn, h1⟩ := Content.collect_mem hl hit
      obtain ⟨it', h2, _, h3⟩ := all nid hn
      rw [h1] at h2; cases h2
      exact h3

theorem forestItems_ok [DecidableEq E] {geo : Geo Pt} {pt : List Pt → Rat → Pt} (gok : GeoOk geo pt) {m : Mode E C Pt D S P A} {n : Nat}
    (ok : ModeOk m n) {fs : List (List (Trie Nat P A))} (hfs : cluster m n = some fs) {f0 : List (Trie Nat P A)} (hf : f0 ∈ fs) :
    ∀ (f pre : List (Trie Nat P A)), f0 = pre ++ f → (∀ tr ∈ f, Good m.c tr ∧ ∀ t ∈ filings tr, 2 ≤ (m.c.stops t).length) → ∀ s : S, After m pre s →
    ∃ l, forestItems geo m f s = some l ∧ l.flatMap (·.trips) = f.flatMap filings ∧ ∀ it ∈ l, Made geo m n it
  | [], _, _, _, s, _ => ⟨[], rfl, rfl, by simp⟩
  | tr :: f, pre, hp, h, s, ha => by
    obtain ⟨h2, h3⟩ := h tr (List.mem_cons_self ..)
    obtain ⟨l, s', e1, ha', e2, e3⟩ := trieItems_ok gok ok hfs (by rw [← hp]; exact hf) h2 h3 ha
    obtain ⟨l', e4, e5, e6⟩ := forestItems_ok gok ok hfs hf f (pre ++ [tr]) (by rw [hp]; simp) (fun tr htr => h tr (List.mem_cons_of_mem _ htr)) s' ha'
    refine ⟨l ++ l', by simp only [forestItems, e1, e4, Option.map_some], by rw [List.flatMap_append, List.flatMap_cons, e2, e5], ?_⟩
    intro it hit
    rcases List.mem_append.mp hit with hit | hit
    · exact e3 it hit
    · exact e6 it hit

/-- Items are found for all trips that need a shape. -/
theorem items_ok [DecidableEq E] {geo : Geo Pt} {pt : List Pt → Rat → Pt} (gok : GeoOk geo pt) {m : Mode E C Pt D S P A} {n : Nat}
    (ok : ModeOk m n) : ∃ its, items geo m n = some its ∧
      (its.flatMap fun f => f.flatMap (·.trips)).Perm ((List.range n).filter fun t => decide (needsShape m.c t)) ∧
      ∀ f ∈ its, ∀ it ∈ f, Made geo m n it := by
  obtain ⟨fs, hfs, hg, hp⟩ := cluster_ok ok
  have hst : ∀ f ∈ fs, ∀ tr ∈ f, ∀ t ∈ filings tr, 2 ≤ (m.c.stops t).length := by
    intro f hf tr htr t ht
    have := hp.mem_iff.mp (List.mem_flatMap.mpr ⟨f, hf, List.mem_flatMap.mpr ⟨tr, htr, ht⟩⟩)
    exact (of_decide_eq_true (List.mem_filter.mp this).2).2.1
  have all : ∀ f ∈ fs, _ := fun f hf => forestItems_ok gok ok hfs hf f [] rfl (fun tr htr => ⟨hg f hf tr htr, hst f hf tr htr⟩) m.cache .start
  obtain ⟨its, hi⟩ := Content.collect_all (f := fun f => forestItems geo m f m.cache) (l := fs) fun f hf => by
    obtain ⟨l, h, _⟩ := all f hf
    exact ⟨l, h⟩
  refine ⟨its, by simp only [items, hfs, hi], ?_, ?_⟩
  · rw [collect_flatMap (g := fun f => f.flatMap filings) hi fun f hf l hl => by
      obtain ⟨l', h1, h2, _⟩ := all f hf
      rw [hl] at h1; cases h1
      exact h2]
    exact hp
  · intro l hl it hit
    obtain ⟨f, hf, h1⟩ := Content.collect_mem hi hl
    obtain ⟨l', h2, _, h3⟩ := all f hf
    rw [h1] at h2; cases h2
    exact h3 it hit

end Verif.Build
