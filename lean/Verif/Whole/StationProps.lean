import Verif.Whole.Marks
import Verif.Whole.Props

/-!
# Stations and markers of the file (properties)

C77: stations, blockers and turn cycles of the file, in the graph that is read, and stations in the routing graph.
-/

set_option linter.unusedSectionVars false
set_option linter.unusedSimpArgs false

namespace Verif.Whole
open Verif.Names (Str)
open Verif.Osm Verif.Collapse Verif.Payload Verif.Snap
open Verif.Turns (exRel exKeep_ok)
open Verif.Finish (Fin)

variable {P S T D : Type}

/-! ### specification -/

/-- What the tags of a node make of it. Stations come before blockers, and these before turn cycles; a station without a name is nothing. -/
def Makes (p : Par P S T D) (nd : Nod P) : Kind S → Prop
  | .station s => Hits p.o.station NODE nd.attrs ∧ p.info nd = some s
  | .blocker => ¬ Hits p.o.station NODE nd.attrs ∧ Hits p.o.blocker NODE nd.attrs
  | .turnCycle => ¬ Hits p.o.station NODE nd.attrs ∧ ¬ Hits p.o.blocker NODE nd.attrs ∧ Hits p.o.turnCycle NODE nd.attrs
  | .plain => (Hits p.o.station NODE nd.attrs ∧ p.info nd = none) ∨
    (¬ Hits p.o.station NODE nd.attrs ∧ ¬ Hits p.o.blocker NODE nd.attrs ∧ ¬ Hits p.o.turnCycle NODE nd.attrs)

/-- The node is on one of the ways, and they are not cut off there. -/
def On (p : Par P S T D) (d : Doc P) (ways : List Way) (i : Nat) : Prop :=
  (∃ w ∈ ways, i ∈ w.nodes) ∧ (noTurn p d i = true ∨ inArea p d i = true)

/-- The node is on none of the ways, but is wanted for itself. -/
structure Off (p : Par P S T D) (d : Doc P) (ways : List Way) (br : DElem P → Rel) (bn : DNode P → Nod P) (x : DNode P) : Prop where
  away : ¬ On p d ways x.id
  why : LiftsNode p.f br (if d.ways = [] then d.rels.drop 1 else d.rels) x.id ∨ Hits p.f.keep NODE (bn x).attrs
  inside : inArea p d x.id = true
  nodrop : ¬ Hits p.f.drop NODE (bn x).attrs

/-- The track of a station at `q`: its own, or that of a way. -/
structure Fitted (p : Par P S T D) (ss : List Seg) (q : Place) (s s' : S) : Prop where
  own : p.noTrack s = false → s' = s
  bare : (∀ t ∈ ss, t.a = q ∨ t.b = q → p.track t.way = none) → s' = s
  way : p.noTrack s = true → (∃ t ∈ ss, (t.a = q ∨ t.b = q) ∧ p.track t.way ≠ none) →
    ∃ t ∈ ss, (t.a = q ∨ t.b = q) ∧ ∃ x, p.track t.way = some x ∧ s' = p.setTrack x s

/-- The markers of the graph before gaps are closed; `at_` is the place a node stands for. -/
structure Marked (p : Par P S T D) (d : Doc P) (ways : List Way) (br : DElem P → Rel) (bn : DNode P → Nod P) (at_ : Nat → Option Place)
    (st : St P S Nat) : Prop where
  places : ∀ i, (∃ u q, at_ u = some q ∧ q.node = i) ↔ On p d ways i
  /-- Nodes of ways are what their tags say. -/
  on : ∀ x ∈ d.nodes, ∀ u q, at_ u = some q → q.node = x.id → noTurn p d x.id = false ∨ inArea p d x.id = true →
    ((∃ s s', Makes p (bn x) (.station s) ∧ Fitted p (mapSegs p d ways) q s s' ∧ st.pl.view u = (Kind.station s').view) ∨
      ∃ k, Makes p (bn x) k ∧ (∀ s, k ≠ .station s) ∧ st.pl.view u = k.view)
  blank : ∀ u q, at_ u = some q → (∀ x ∈ d.nodes, x.id = q.node → noTurn p d x.id = true ∧ inArea p d x.id = false) →
    st.pl.view u = (Kind.plain (S := S)).view
  /-- Stations beside the ways have a node. -/
  off : ∀ x ∈ d.nodes, Off p d ways br bn x → ∀ s, Makes p (bn x) (.station s) →
    ∃ u, at_ u = none ∧ u < st.next ∧ st.pos u = x.pos ∧ st.pl.view u = (Kind.station s).view
  /-- There are no other markers. -/
  rest : ∀ u, at_ u = none → st.pl.view u ≠ (Kind.plain (S := S)).view → u < st.next ∧ ∃ x ∈ d.nodes, Off p d ways br bn x ∧
    ∃ s, Makes p (bn x) (.station s) ∧ st.pos u = x.pos ∧ st.pl.view u = (Kind.station s).view

/-- The stations of the routing graph. -/
structure Stations (p : Par P S T D) (d : Doc P) (ways : List Way) (br : DElem P → Rel) (bn : DNode P → Nod P) (at_ : Nat → Option Place)
    (g : Fin P S Nat) : Prop where
  /-- Stations on ways stay where they are. -/
  on : ∀ x ∈ d.nodes, ∀ u q, at_ u = some q → q.node = x.id → noTurn p d x.id = false ∨ inArea p d x.id = true →
    ∀ s, Makes p (bn x) (.station s) → u ∈ g.nds ∧ g.pos u = x.pos ∧
      ∃ s' j, Fitted p (mapSegs p d ways) q s s' ∧ g.pl.getSI u = some (some j) ∧ Tracked p.cfg.snap s' j
  /-- So do stations beside the ways. -/
  off : ∀ x ∈ d.nodes, Off p d ways br bn x → ∀ s, Makes p (bn x) (.station s) →
    ∃ u, at_ u = none ∧ u ∈ g.nds ∧ g.pos u = x.pos ∧ ∃ j, g.pl.getSI u = some (some j) ∧ Tracked p.cfg.snap s j
  /-- All other stations are stations beside the ways that have been put on an edge in range. -/
  only : ∀ u ∈ g.nds, ∀ j, g.pl.getSI u = some (some j) → ∃ x ∈ d.nodes, ∃ s, Makes p (bn x) (.station s) ∧
    ((∃ q s', at_ u = some q ∧ q.node = x.id ∧ Fitted p (mapSegs p d ways) q s s' ∧ Tracked p.cfg.snap s' j) ∨
      (Off p d ways br bn x ∧ Tracked p.cfg.snap s j ∧ ((at_ u = none ∧ g.pos u = x.pos) ∨
        ∃ r ∈ p.cfg.ds, ∃ a b, p.cfg.snap.inRange r x.pos a b = true ∧ (g.pos u = a ∨ g.pos u = b ∨ ∃ y, g.pos u = p.cfg.snap.proj a y b))))

/-! ### proofs -/

theorem kindOf_makes {p : Par P S T D} (ho : FlaggedOpts p.o) (nd : Nod P) (k : Kind S) : Makes p nd k ↔ k = kindOf p nd := by
  obtain ⟨_, _, _, _, h1, h2, h3, _⟩ := C28_decisions p.o ho nd.attrs
  unfold kindOf
  have h1 : fStation p.o nd.attrs ≠ 0 ↔ Hits p.o.station NODE nd.attrs := h1
  have h2 : fBlocker p.o nd.attrs ≠ 0 ↔ Hits p.o.blocker NODE nd.attrs := h2
  have h3 : fTurnCycle p.o nd.attrs ≠ 0 ↔ Hits p.o.turnCycle NODE nd.attrs := h3
  by_cases a1 : Hits p.o.station NODE nd.attrs
  · rw [if_pos (h1.2 a1)]
    cases hi : p.info nd <;> cases k <;> simp [Makes, a1, hi, eq_comm]
  · rw [if_neg (fun h => a1 (h1.1 h))]
    by_cases a2 : Hits p.o.blocker NODE nd.attrs
    · rw [if_pos (h2.2 a2)]
      cases k <;> simp [Makes, a1, a2]
    · rw [if_neg (fun h => a2 (h2.1 h))]
      by_cases a3 : Hits p.o.turnCycle NODE nd.attrs
      · rw [if_pos (h3.2 a3)]
        cases k <;> simp [Makes, a1, a2, a3]
      · rw [if_neg (fun h => a3 (h3.1 h))]
        cases k <;> simp [Makes, a1, a2, a3]

/-- The marker after a track is written. -/
def fit (p : Par P S T D) (t : T) : Kind S → Kind S
  | .station s => if p.noTrack s then .station (p.setTrack t s) else .station s
  | k => k

theorem trackTo_both (p : Par P S T D) (t : T) {pl : NState Nat S} {k : Nat → Kind S} (h : Both pl k) (n : Nat) :
    Both (trackTo p t pl n) (put k n (fit p t (k n))) := by
  have hv : pl.view n = (k n).view := Stands.view (h.inv.all n)
  have same : ∀ x, k n = x → put k n x = k := by
    intro x hx
    funext m
    unfold put
    split
    · next e => rw [e, hx]
    · rfl
  have hg : pl.getSI n = (k n).view.2.2 := congrArg (fun x => x.2.2) hv
  unfold trackTo
  rw [hg]
  cases hk : k n with
  | station s =>
    simp only [Kind.view, fit]
    by_cases ht : p.noTrack s = true
    · rw [if_pos ht, if_pos ht]
      have := h.exec (.modify n (p.setTrack t)) rfl (fun h => by cases h)
      have e : vstep k (.modify n (p.setTrack t)) = put k n (.station (p.setTrack t s)) := by
        funext m
        simp only [vstep, put]
        by_cases hm : m = n
        · rw [if_pos hm, if_pos hm, hm, hk]; rfl
        · rw [if_neg hm, if_neg hm]
      rw [← e]
      exact this
    · rw [if_neg ht, if_neg ht, same _ hk]; exact h
  | plain => simp only [Kind.view, fit]; rw [same _ hk]; exact h
  | blocker => simp only [Kind.view, fit]; rw [same _ hk]; exact h
  | turnCycle => simp only [Kind.view, fit]; rw [same _ hk]; exact h

/-- The marker of `u` after tracks are written. -/
structure After (p : Par P S T D) (ts : List ((Nat × Nat) × T)) (u : Nat) (k k' : Kind S) : Prop where
  other : (∀ s, k ≠ .station s) → k' = k
  own : ∀ s, k = .station s → p.noTrack s = false → k' = k
  away : (∀ x ∈ ts, x.1.1 ≠ u ∧ x.1.2 ≠ u) → k' = k
  here : ∀ s, k = .station s → p.noTrack s = true → (∃ x ∈ ts, x.1.1 = u ∨ x.1.2 = u) →
    ∃ x ∈ ts, (x.1.1 = u ∨ x.1.2 = u) ∧ k' = .station (p.setTrack x.2 s)

theorem tracks_both (p : Par P S T D) (ts : List ((Nat × Nat) × T)) (hset : ∀ x ∈ ts, ∀ s, p.noTrack (p.setTrack x.2 s) = false) {pl : NState Nat S}
    {k : Nat → Kind S} (h : Both pl k) : ∃ k', Both (writeEdgeTracks p ts pl) k' ∧ ∀ u, After p ts u (k u) (k' u) := by
  induction ts generalizing pl k with
  | nil =>
    refine ⟨k, h, fun u => ⟨fun _ => rfl, fun _ _ _ => rfl, fun _ => rfl, ?_⟩⟩
    rintro s _ _ ⟨x, hx, _⟩
    cases hx
  | cons x ts ih =>
    have h1 := trackTo_both p x.2 (trackTo_both p x.2 h x.1.2) x.1.1
    obtain ⟨k1, hk1⟩ : ∃ k1, k1 = put (put k x.1.2 (fit p x.2 (k x.1.2))) x.1.1 (fit p x.2 (put k x.1.2 (fit p x.2 (k x.1.2)) x.1.1)) := ⟨_, rfl⟩
    rw [← hk1] at h1
    have twice : ∀ c, fit p x.2 (fit p x.2 c) = fit p x.2 c := by
      intro c
      cases c with
      | station s =>
        by_cases hs : p.noTrack s = true
        · simp [fit, hs, hset x List.mem_cons_self]
        · simp [fit, hs]
      | _ => rfl
    have val : ∀ u, k1 u = if x.1.1 = u ∨ x.1.2 = u then fit p x.2 (k u) else k u := by
      intro u
      rw [hk1]
      unfold put
      by_cases e1 : u = x.1.1
      · subst e1
        by_cases e2 : x.1.1 = x.1.2
        · simp [e2, twice]
        · simp [e2]
      · by_cases e2 : u = x.1.2
        · subst e2
          simp [e1]
        · simp [e1, e2, Ne.symm e1, Ne.symm e2, fun h => e1 (Eq.symm h), fun h => e2 (Eq.symm h)]
    obtain ⟨k', hb, hA⟩ := ih (fun y hy => hset y (List.mem_cons_of_mem _ hy)) h1
    refine ⟨k', hb, fun u => ?_⟩
    have A := hA u
    have fitO : (∀ s, k u ≠ .station s) → k1 u = k u := by
      intro hn
      rw [val]
      split
      · cases hku : k u with
        | station s => exact absurd hku (hn s)
        | _ => rfl
      · rfl
    have fitS : ∀ s, k u = .station s → p.noTrack s = false → k1 u = k u := by
      intro s hs hn
      rw [val, hs]
      simp [fit, hn]
    refine ⟨?_, ?_, ?_, ?_⟩
    · intro hn
      rw [A.other (by rw [fitO hn]; exact hn), fitO hn]
    · intro s hs hn
      rw [A.own s (by rw [fitS s hs hn]; exact hs) hn, fitS s hs hn]
    · intro hall
      have h2 := hall x (by simp)
      have e : k1 u = k u := by rw [val, if_neg (fun h => h.elim h2.1 h2.2)]
      rw [A.away fun y hy => hall y (by simp [hy]), e]
    · rintro s hs hn ⟨y, hy, hyu⟩
      by_cases hx : x.1.1 = u ∨ x.1.2 = u
      · have e : k1 u = .station (p.setTrack x.2 s) := by rw [val, if_pos hx, hs]; simp [fit, hn]
        exact ⟨x, by simp, hx, by rw [A.own _ e (hset x List.mem_cons_self _), e]⟩
      · have e : k1 u = k u := by rw [val, if_neg hx]
        rcases List.mem_cons.1 hy with rfl | hy
        · exact absurd hyu hx
        · obtain ⟨z, hz, hzu, hz'⟩ := A.here s (e.trans hs) hn ⟨y, hy, hyu⟩
          exact ⟨z, by simp [hz], hzu, hz'⟩

theorem edgeTracks_mem (p : Par P S T D) (gs : List GEdge) (m : FMap (Nat × Nat) T) (hw : FMap.WF m) :
    let m' := gs.foldl (fun m g => match p.track g.way with
      | some t => FMap.put m (g.src, g.dst) t
      | none => m) m
    FMap.WF m' ∧ (∀ x ∈ m', x ∈ m ∨ ∃ g ∈ gs, x.1 = (g.src, g.dst) ∧ p.track g.way = some x.2) ∧
    (∀ k, (∃ t, m.get k = some t) → ∃ t, FMap.get m' k = some t) ∧
    ∀ g ∈ gs, p.track g.way ≠ none → ∃ t, FMap.get m' (g.src, g.dst) = some t := by
  induction gs generalizing m with
  | nil => exact ⟨hw, fun x hx => Or.inl hx, fun _ h => h, by simp⟩
  | cons g gs ih =>
    rw [List.foldl_cons]
    cases ht : p.track g.way with
    | none =>
      obtain ⟨h1, h2, h3, h4⟩ := ih m hw
      refine ⟨h1, fun x hx => (h2 x hx).imp id ?_, h3, ?_⟩
      · rintro ⟨y, hy, h⟩; exact ⟨y, by simp [hy], h⟩
      · intro y hy hn
        rcases List.mem_cons.1 hy with rfl | hy
        · exact absurd ht hn
        · exact h4 y hy hn
    | some t =>
      obtain ⟨h1, h2, h3, h4⟩ := ih (FMap.put m (g.src, g.dst) t) (FMap.WF.put hw _ _)
      refine ⟨h1, fun x hx => ?_, ?_, ?_⟩
      · rcases h2 x hx with h | ⟨y, hy, h⟩
        · have hg := FMap.get_of_mem (FMap.WF.put hw (g.src, g.dst) t) h
          rw [FMap.get_put] at hg
          by_cases e : x.1 = (g.src, g.dst)
          · rw [if_pos e] at hg
            exact Or.inr ⟨g, by simp, e, by rw [ht]; exact hg⟩
          · rw [if_neg e] at hg
            exact Or.inl (FMap.mem_of_get hg)
        · exact Or.inr ⟨y, by simp [hy], h⟩
      · rintro k ⟨t', hk⟩
        refine h3 k ?_
        rw [FMap.get_put]
        split
        · exact ⟨t, rfl⟩
        · exact ⟨t', hk⟩
      · intro y hy hn
        rcases List.mem_cons.1 hy with rfl | hy
        · exact h3 _ ⟨t, by rw [FMap.get_put, if_pos rfl]⟩
        · exact h4 y hy hn

section
variable {p : Par P S T D} {d : Doc P} {ways : List Way} {own : List Place} (h : Base p d ways own)
include h

/-- The tracks at a node are those of the pieces at its place. -/
theorem Base.tracks (hto : ∀ l, (p.trackOrder l).Perm l) :
    (∀ x ∈ p.trackOrder (edgeTracks p (readMap p d.tags).1.edges), ∃ t ∈ mapSegs p d ways, own[x.1.1]? = some t.a ∧ own[x.1.2]? = some t.b ∧
      p.track t.way = some x.2) ∧
    ∀ t ∈ mapSegs p d ways, p.track t.way ≠ none → ∃ x ∈ p.trackOrder (edgeTracks p (readMap p d.tags).1.edges),
      own[x.1.1]? = some t.a ∧ own[x.1.2]? = some t.b := by
  obtain ⟨h1, h2, _, h4⟩ := edgeTracks_mem p (readMap p d.tags).1.edges [] FMap.WF.nil
  constructor
  · intro x hx
    have hx := (hto _).mem_iff.1 hx
    rcases h2 x hx with k | ⟨g, hg, e1, e2⟩
    · cases k
    · obtain ⟨t, ht, i1, i2, i3⟩ := match_to h.calls g hg
      refine ⟨t, ht, ?_, ?_, ?_⟩
      · rw [e1]; exact i1
      · rw [e1]; exact i2
      · rw [← i3]; exact e2
  · intro t ht hn
    obtain ⟨g, hg, i1, i2, i3⟩ := match_from h.calls t ht
    obtain ⟨y, hy⟩ := h4 g hg (by rw [i3]; exact hn)
    exact ⟨((g.src, g.dst), y), (hto _).mem_iff.2 (FMap.mem_of_get hy), i1, i2⟩

theorem Base.marked (hr : Read p d ways own) (hf : p.f.Ok) (ho : FlaggedOpts p.o) (hd : d.Ok) (hto : ∀ l, (p.trackOrder l).Perm l)
    (hset : ∀ w t s, p.track w = some t → p.noTrack (p.setTrack t s) = false) (hsm : (raw p d.tags).pl.infos.length < u32max - 1) :
    (∃ k, Both (raw p d.tags).pl k) ∧
    (∀ u, u ∈ (readMap p d.tags).1.orphans ↔ own[u]? = none ∧ u < (raw p d.tags).next ∧ ∃ s, (raw p d.tags).pl.getSI u = some (some s)) ∧
    Marked p d ways (readRel p.keysR) (readNod p.keysN) (fun u => own[u]?) (raw p d.tags) := by
  obtain ⟨k0, s0, nr, fl, hs0, hP, hread, hmem⟩ := hr
  have hknown := fun i => addWays_known (P := P) (noTurn p d) (inArea p d) ways GSt.init i
  rw [← hs0] at hknown
  have hne := addWays_nonempty (P := P) (noTurn p d) (inArea p d) ways GSt.init (by intro i; simp [GSt.init, FMap.get])
  rw [← hs0] at hne
  obtain ⟨nds, hnds⟩ : ∃ nds, nds = ((d.nodes.map (readNod p.keysN)).filter (keepNode p.f (fun i => (s0.nodes.get i).isSome)
      (fun i => (s0.multi.get i).isSome) nr fl (inArea p d))) := ⟨_, rfl⟩
  rw [← hnds] at hread
  have hlen : ∀ (ts : List ((Nat × Nat) × T)) (pl : NState Nat S), (writeEdgeTracks p ts pl).infos.length = pl.infos.length := by
    have one : ∀ t (pl : NState Nat S) n, (trackTo p t pl n).infos.length = pl.infos.length := by
      intro t pl n
      unfold trackTo
      split
      · split
        · unfold NState.exec
          simp only
          split <;> simp
        · rfl
      · rfl
    intro ts
    induction ts with
    | nil => intro pl; rfl
    | cons x ts ih => intro pl; exact (ih _).trans ((one _ _ _).trans (one _ _ _))
  have hsm' : (nds.foldl (nodeStep p) (s0, NState.init Nat S)).2.infos.length < u32max - 1 := by
    rw [← hread, ← hlen (p.trackOrder (edgeTracks p (readMap p d.tags).1.edges))]
    exact hsm
  have hlt : ∀ (u : Nat) (q : Place), own[u]? = some q → u < own.length := fun u q hq => (List.getElem?_eq_some_iff.1 hq).1
  have h0 : MInv p own s0 [] (s0, NState.init Nat S) (fun _ => .plain) := by
    refine ⟨⟨⟨rfl, fun n => rfl⟩, fun a b s _ e => by cases e⟩, rfl, rfl, Nat.le_of_eq hP.len, by simp, fun _ _ _ _ => rfl, fun _ _ => rfl, ?_, by simp, ?_⟩
    · intro u h1 h2
      rw [hP.len] at h1
      exact absurd h2 (Nat.not_lt.2 h1)
    · intro u
      simp only [(hknown 0).2, GSt.init, List.not_mem_nil, false_iff]
      rintro ⟨_, _, s, e⟩
      cases e
  have hids : ((([] : List (Nod P)) ++ nds).map (·.id)).Nodup := by
    rw [List.nil_append, hnds]
    refine List.Nodup.sublist (List.filter_sublist.map _) ?_
    rw [List.map_map]
    exact hd.nodes.nodup
  obtain ⟨k, hM⟩ := minv_run hP hne nds h0 hids hsm'
  rw [List.nil_append, ← hread] at hM
  obtain ⟨k', hB, hA⟩ := tracks_both p (p.trackOrder (edgeTracks p (readMap p d.tags).1.edges)) (by
    intro x hx s
    obtain ⟨t, _, _, _, ht⟩ := (h.tracks hto).1 x hx
    exact hset _ _ s ht) hM.both
  have hB : Both (raw p d.tags).pl k' := hB
  have view : ∀ u, (raw p d.tags).pl.view u = (k' u).view := fun u => Stands.view (hB.inv.all u)
  obtain ⟨tr1, tr2⟩ := h.tracks hto
  have none_ge : ∀ u, own[u]? = none ↔ own.length ≤ u := fun u => List.getElem?_eq_none_iff
  -- nodes beside the ways keep their tracks
  have away : ∀ u, own[u]? = none → k' u = k u := by
    intro u hu
    refine (hA u).away fun x hx => ?_
    obtain ⟨t, _, t1, t2, _⟩ := tr1 x hx
    constructor
    · rintro rfl; rw [hu] at t1; cases t1
    · rintro rfl; rw [hu] at t2; cases t2
  have hplaces : ∀ i, (∃ (u : Nat) (q : Place), own[u]? = some q ∧ q.node = i) ↔ On p d ways i := by
    intro i
    have h1 := (hknown i).1
    have h2 : (∃ g, NodeOf s0 i g) ↔ ∃ (u : Nat) (q : Place), own[u]? = some q ∧ q.node = i := by
      constructor
      · rintro ⟨g, hg | ⟨l, hl, hg⟩⟩
        · exact ⟨g, _, (hP.nd i g).1 hg, rfl⟩
        · obtain ⟨k1, j1, hq⟩ := hP.mu i l hl g hg
          exact ⟨g, _, hq, rfl⟩
      · rintro ⟨u, q, hq, rfl⟩
        cases q with
        | shared i => exact ⟨u, Or.inl ((hP.nd i u).2 hq)⟩
        | alone i k1 j1 => exact ⟨u, Or.inr (hP.al i u k1 j1 hq).2.2⟩
    rw [← h2, h1]
    unfold On
    simp [NodeOf, GSt.init, FMap.get]
  -- which nodes are read
  have hin : ∀ x ∈ d.nodes, ∀ (u : Nat) (q : Place), own[u]? = some q → q.node = x.id → (readNod p.keysN x ∈ nds ↔ noTurn p d x.id = false ∨ inArea p d x.id = true) := by
    intro x hx u q hq hi
    rw [hnds, List.mem_filter]
    rw [and_iff_right (List.mem_map.2 ⟨x, hx, rfl⟩), keepNode_iff hf]
    have hz : (readNod p.keysN x).id ≠ 0 := hd.nodes.nz _ (List.mem_map.2 ⟨x, hx, rfl⟩)
    rw [and_iff_right hz]
    have hid : (readNod p.keysN x).id = x.id := rfl
    cases q with
    | shared i =>
      have : i = x.id := hi
      subst this
      have hk : (s0.nodes.get x.id).isSome = true := by rw [(hP.nd _ _).2 hq]; rfl
      exact iff_of_true ⟨Or.inl hk, Or.inl hk, Or.inl hk⟩ (Or.inl (hP.sh _ _ hq).1)
    | alone i k1 j1 =>
      have : i = x.id := hi
      subst this
      obtain ⟨hn, _, l, hl, hg⟩ := hP.al _ _ _ _ hq
      have hk : (s0.multi.get x.id).isSome = true := by rw [hl]; rfl
      have hno : (s0.nodes.get x.id).isSome = false := by
        cases hx' : s0.nodes.get x.id with
        | none => rfl
        | some g => have := (hP.sh _ _ ((hP.nd _ _).1 hx')).1; rw [hn] at this; cases this
      constructor
      · rintro ⟨_, hb, _⟩
        rcases hb with hb | hb
        · rw [hid, hno] at hb; cases hb
        · exact Or.inr hb
      · rintro (hc | hc)
        · rw [hn] at hc; cases hc
        · exact ⟨Or.inr (Or.inl hk), Or.inr hc, Or.inr (Or.inl hk)⟩
  have hoff : ∀ x ∈ d.nodes, ¬ On p d ways x.id → (readNod p.keysN x ∈ nds ↔ Off p d ways (readRel p.keysR) (readNod p.keysN) x) := by
    intro x hx hon
    have hz : (readNod p.keysN x).id ≠ 0 := hd.nodes.nz _ (List.mem_map.2 ⟨x, hx, rfl⟩)
    rw [hnds, List.mem_filter, and_iff_right (List.mem_map.2 ⟨x, hx, rfl⟩), keepNode_iff hf, and_iff_right hz]
    have hid : (readNod p.keysN x).id = x.id := rfl
    have nothing : (s0.nodes.get x.id).isSome = false ∧ (s0.multi.get x.id).isSome = false := by
      constructor
      · cases hx' : s0.nodes.get x.id with
        | none => rfl
        | some g => exact absurd ((hplaces x.id).1 ⟨g, _, (hP.nd _ _).1 hx', rfl⟩) hon
      · cases hx' : s0.multi.get x.id with
        | none => rfl
        | some l =>
          have hl : l ≠ [] := fun e => hne _ (e ▸ hx')
          obtain ⟨g, hg⟩ := List.exists_mem_of_ne_nil l hl
          obtain ⟨k1, j1, hq⟩ := hP.mu _ _ hx' g hg
          exact absurd ((hplaces x.id).1 ⟨g, _, hq, rfl⟩) hon
    constructor
    · rintro ⟨h1, h2, h3⟩
      rw [hid, nothing.1, nothing.2] at h1
      rw [hid, nothing.1] at h2
      rw [hid, nothing.1, nothing.2] at h3
      simp only [Bool.false_eq_true, false_or] at h1 h2 h3
      exact ⟨hon, h1.imp (fun k => (hmem _).1 k) id, h2, h3⟩
    · intro ho
      exact ⟨Or.inr (Or.inr (ho.why.imp (fun k => (hmem _).2 k) id)), Or.inr ho.inside, Or.inr (Or.inr ho.nodrop)⟩
  have notOn : ∀ i, (∀ (v : Nat) (q : Place), own[v]? = some q → q.node ≠ i) ↔ ¬ On p d ways i := by
    intro i
    rw [← hplaces]
    constructor
    · rintro hh ⟨u, q, hq, e⟩; exact hh u q hq e
    · intro hh v q hq e; exact hh ⟨v, q, hq, e⟩
  have fromNds : ∀ nd ∈ nds, ∃ x ∈ d.nodes, nd = readNod p.keysN x := by
    intro nd hn
    rw [hnds] at hn
    obtain ⟨x, hx, e⟩ := List.mem_map.1 (List.mem_filter.1 hn).1
    exact ⟨x, hx, e.symm⟩
  have posOf : ∀ u y, (readMap p d.tags).1.geom.get u = some y → (raw p d.tags).pos u = y := by
    intro u y hy
    show ((readMap p d.tags).1.geom.get u).getD p.p0 = y
    rw [hy]; rfl
  have sta : ∀ nd : Nod P, fStation p.o nd.attrs ≠ 0 ↔ Hits p.o.station NODE nd.attrs := fun nd => (C28_decisions p.o ho nd.attrs).2.2.2.2.1
  refine ⟨⟨k', hB⟩, ?_, hplaces, ?_, ?_, ?_, ?_⟩
  · intro u
    rw [hM.list u, ← none_ge]
    constructor
    · rintro ⟨h1, h2, s, hs⟩
      refine ⟨h1, h2, s, ?_⟩
      have := congrArg (fun x => x.2.2) (view u)
      rw [away u h1, hs] at this
      exact this
    · rintro ⟨h1, h2, s, hs⟩
      refine ⟨h1, h2, ?_⟩
      have := congrArg (fun x => x.2.2) (view u)
      rw [away u h1] at this
      have this : (raw p d.tags).pl.getSI u = (k u).view.2.2 := this
      rw [hs] at this
      cases hk : k u with
      | station s' => exact ⟨s', rfl⟩
      | plain => rw [hk] at this; cases this
      | blocker => rw [hk] at this; cases this
      | turnCycle => rw [hk] at this; cases this
  · intro x hx u q hq hi hc
    have hk := hM.hit u q hq _ ((hin x hx u q hq hi).2 hc) hi.symm
    have hmk := (kindOf_makes ho (readNod p.keysN x) (k u)).2 hk
    cases hku : k u with
    | station s =>
      left
      rw [hku] at hmk
      have A := hA u
      have touch : (∃ t ∈ mapSegs p d ways, (t.a = q ∨ t.b = q) ∧ p.track t.way ≠ none) ↔
          ∃ x ∈ p.trackOrder (edgeTracks p (readMap p d.tags).1.edges), x.1.1 = u ∨ x.1.2 = u := by
        constructor
        · rintro ⟨t, ht, htq, hn⟩
          obtain ⟨y, hy, y1, y2⟩ := tr2 t ht hn
          refine ⟨y, hy, htq.imp ?_ ?_⟩
          · rintro rfl; exact hP.inj _ _ _ y1 hq
          · rintro rfl; exact hP.inj _ _ _ y2 hq
        · rintro ⟨y, hy, hyu⟩
          obtain ⟨t, ht, t1, t2, t3⟩ := tr1 y hy
          refine ⟨t, ht, hyu.imp ?_ ?_, by rw [t3]; simp⟩
          · rintro rfl; rw [hq] at t1; exact (Option.some.inj t1).symm
          · rintro rfl; rw [hq] at t2; exact (Option.some.inj t2).symm
      by_cases hb : p.noTrack s = true ∧ ∃ t ∈ mapSegs p d ways, (t.a = q ∨ t.b = q) ∧ p.track t.way ≠ none
      · obtain ⟨y, hy, hyu, hy'⟩ := A.here s hku hb.1 (touch.1 hb.2)
        obtain ⟨t, ht, t1, t2, t3⟩ := tr1 y hy
        have htq : t.a = q ∨ t.b = q := by
          refine hyu.imp ?_ ?_
          · rintro rfl; rw [hq] at t1; exact (Option.some.inj t1).symm
          · rintro rfl; rw [hq] at t2; exact (Option.some.inj t2).symm
        refine ⟨s, p.setTrack y.2 s, hmk, ⟨?_, ?_, ?_⟩, by rw [view u, hy']⟩
        · intro hn; rw [hb.1] at hn; cases hn
        · intro hall
          rw [hall t ht htq] at t3
          cases t3
        · intro _ _
          exact ⟨t, ht, htq, y.2, t3, rfl⟩
      · have e : k' u = k u := by
          by_cases hn : p.noTrack s = true
          · refine A.away fun y hy => ?_
            have : ¬ (y.1.1 = u ∨ y.1.2 = u) := fun hyu => hb ⟨hn, touch.2 ⟨y, hy, hyu⟩⟩
            exact ⟨fun e => this (Or.inl e), fun e => this (Or.inr e)⟩
          · exact A.own s hku (by simpa using hn)
        exact ⟨s, s, hmk, ⟨fun _ => rfl, fun _ => rfl, fun h1 h2 => absurd ⟨h1, h2⟩ hb⟩, by rw [view u, e, hku]⟩
    | plain =>
      right
      have hns : ∀ s, k u ≠ .station s := by intro s; rw [hku]; simp
      exact ⟨k u, hmk, hns, by rw [view u, (hA u).other hns]⟩
    | blocker =>
      right
      have hns : ∀ s, k u ≠ .station s := by intro s; rw [hku]; simp
      exact ⟨k u, hmk, hns, by rw [view u, (hA u).other hns]⟩
    | turnCycle =>
      right
      have hns : ∀ s, k u ≠ .station s := by intro s; rw [hku]; simp
      exact ⟨k u, hmk, hns, by rw [view u, (hA u).other hns]⟩
  · intro u q hq hall
    have hk : k u = .plain := by
      refine hM.miss u q hq fun nd hn he => ?_
      obtain ⟨x, hx, rfl⟩ := fromNds nd hn
      have he : x.id = q.node := he
      have hc := (hin x hx u q hq he.symm).1 hn
      obtain ⟨h1, h2⟩ := hall x hx he
      rw [h1, h2] at hc
      simp at hc
    rw [view u, (hA u).other (by rw [hk]; simp), hk]
  · intro x hx hoffx s hmk
    have hnd := (hoff x hx hoffx.away).2 hoffx
    have e := (kindOf_makes ho (readNod p.keysN x) (.station s)).1 hmk
    obtain ⟨u, u1, u2, u3, u4⟩ := hM.found _ hnd ((notOn _).2 hoffx.away) ((sta _).2 hmk.1)
    have hu := (none_ge u).2 u1
    exact ⟨u, hu, u2, posOf u _ u4, by rw [view u, away u hu, u3, ← e]⟩
  · intro u hu hv
    have hu : own[u]? = none := hu
    rw [view u, away u hu] at hv
    have hlt' : u < (readMap p d.tags).1.next := by
      refine Nat.lt_of_not_le fun hle => hv ?_
      rw [hM.far u hle]
    obtain ⟨nd, hn, h1, h2, h3, h4⟩ := hM.orph u ((none_ge u).1 hu) hlt'
    obtain ⟨x, hx, rfl⟩ := fromNds nd hn
    refine ⟨hlt', x, hx, (hoff x hx ((notOn _).1 h1)).1 hn, ?_⟩
    have hmk := (kindOf_makes ho (readNod p.keysN x) (k u)).2 h3
    cases hku : k u with
    | station s =>
      rw [hku] at hmk
      exact ⟨s, hmk, posOf u _ h4, by rw [view u, away u hu, hku]⟩
    | plain => rw [hku] at hv; exact absurd rfl hv
    | blocker =>
      rw [hku] at hmk
      exact absurd ((sta _).1 h2) hmk.1
    | turnCycle =>
      rw [hku] at hmk
      exact absurd ((sta _).1 h2) hmk.1

end

theorem Base.valid {pl : NState Nat S} {k : Nat → Kind S} (hB : Both pl k) :
    ∀ u, pl.si u = 0 ∨ pl.si u = u32max ∨ pl.si u = u32max - 1 ∨ (1 ≤ pl.si u ∧ pl.si u ≤ pl.infos.length) := by
  intro u
  have h := hB.inv.all u
  cases hk : k u with
  | plain => rw [hk] at h; exact Or.inl h
  | blocker => rw [hk] at h; exact Or.inr (Or.inl h)
  | turnCycle => rw [hk] at h; exact Or.inr (Or.inr (Or.inl h))
  | station s =>
    rw [hk] at h
    obtain ⟨h1, _, h3⟩ := h
    have := (List.getElem?_eq_some_iff.1 h3).1
    exact Or.inr (Or.inr (Or.inr ⟨h1, by omega⟩))

/-- C77. Nodes of the graph that is read carry the markers that the tags of the file ask for; stations on ways have their own track or that of
a way; stations beside the ways have a node of their own. There are no other markers. (The size is bound by 32 bits.) -/
theorem C77_markers (p : Par P S T D) (hf : p.f.Ok) (ho : FlaggedOpts p.o) (hto : ∀ l, (p.trackOrder l).Perm l)
    (hset : ∀ w t s, p.track w = some t → p.noTrack (p.setTrack t s) = false) (d : Doc P) (hd : d.Ok) (hsm : (raw p d.tags).pl.infos.length < u32max - 1) :
    ∃ (ways : List Way) (at_ : Nat → Option Place) (br : DElem P → Rel) (bn : DNode P → Nod P),
      Kept p d ways ∧ (∀ u v q, at_ u = some q → at_ v = some q → u = v) ∧ (∀ x, ReadsRel p.keysR x (br x)) ∧ (∀ x, ReadsNode p.keysN x (bn x)) ∧
      Marked p d ways br bn at_ (raw p d.tags) := by
  obtain ⟨ways, own, h, hr⟩ := base_read hf d hd
  exact ⟨ways, fun u => own[u]?, readRel p.keysR, readNod p.keysN, h.kept, fun u v q => h.ties.inj u v q, readRel_spec _, readNod_spec _,
    (h.marked hr hf ho hd hto hset hsm).2.2⟩

/-- C77. The stations of the routing graph are those of the file, and those beside the ways also on tracks in range, if the map is tidy. -/
theorem C77_stations_partial (p : Par P S T D) (hf : p.f.Ok) (ho : FlaggedOpts p.o) (hto : ∀ l, (p.trackOrder l).Perm l)
    (hset : ∀ w t s, p.track w = some t → p.noTrack (p.setTrack t s) = false) (hoo : ∀ l, (p.orphOrder l).Perm l)
    (hord : ∀ x l, (p.cfg.snap.order x l).Perm l) (hn : ∀ n u, u ∈ p.cfg.nds n ↔ u < n)
    (d : Doc P) (hd : d.Ok) (hsm : (build p d.tags).pl.infos.length < u32max - 1) :
    ∃ (ways : List Way) (at_ : Nat → Option Place) (br : DElem P → Rel) (bn : DNode P → Nod P),
      Kept p d ways ∧ (∀ u v q, at_ u = some q → at_ v = some q → u = v) ∧ (∀ x, ReadsRel p.keysR x (br x)) ∧ (∀ x, ReadsNode p.keysN x (bn x)) ∧
      (Tidy p d (mapSegs p d ways) → Stations p d ways br bn at_ (build p d.tags)) := by
  obtain ⟨ways, own, h, hr⟩ := base_read hf d hd
  refine ⟨ways, fun u => own[u]?, readRel p.keysR, readNod p.keysN, h.kept, fun u v q => h.ties.inj u v q, readRel_spec _, readNod_spec _,
    fun ht => ?_⟩
  rw [h.build ho ht] at hsm ⊢
  let c : Finish.Cfg P S Nat D := { p.cfg with orphans := p.orphOrder (readMap p d.tags).1.orphans }
  have hs := h.sane ht.self
  have hm' : ∀ e ∈ (raw p d.tags).es, ∀ f ∈ (raw p d.tags).es, (e.src = f.src ∨ e.src = f.dst ∨ e.dst = f.src ∨ e.dst = f.dst) →
    e.a.oneWay ≠ 0 → f.a.oneWay ≠ 0 → e.a.oneWay = f.a.oneWay := fun e he f hf => h.ties.marks ho ht.sense e f he hf
  have hlt : ∀ (u : Nat) (q : Place), own[u]? = some q → u < (raw p d.tags).next :=
    fun u q hq => Nat.lt_of_lt_of_le (List.getElem?_eq_some_iff.1 hq).1 h.len
  have St := Finish.stages c hord hn (raw p d.tags) hs hm'
  dsimp only at St
  have hpl := St.pl
  have hpos := St.pos
  obtain ⟨t1, _⟩ := Finish.C74_travel_partial c hord hn (raw p d.tags) hs hm' (h.opp ho ht)
  have hsm1 : (snapStats c.snap c.ds c.orphans (raw p d.tags)).pl.infos.length < u32max - 1 := by
    rw [← hpl]; exact hsm
  have hsm0 : (raw p d.tags).pl.infos.length < u32max - 1 := Nat.lt_of_le_of_lt (length_stats _ _ _ _) hsm1
  obtain ⟨⟨k, hB⟩, horph, M⟩ := h.marked hr hf ho hd hto hset hsm0
  have hv := Base.valid hB
  have hos : ∀ o ∈ c.orphans, o < (raw p d.tags).next ∧ ∃ i, (raw p d.tags).pl.getSI o = some (some i) := by
    intro o hoo'
    have := (horph o).1 ((hoo _).mem_iff.1 hoo')
    exact ⟨this.2.1, this.2.2⟩
  have keep := Finish.C74_stations c hord hn (raw p d.tags) hs hm' hv hos hsm
  dsimp only at keep
  have placed := (C73_stations_partial c.snap hord c.ds c.orphans (raw p d.tags) hs hv hos hsm1).2
  rw [← hpl, ← hpos] at placed
  have si : ∀ u s, (raw p d.tags).pl.view u = (Kind.station s).view → (raw p d.tags).pl.getSI u = some (some s) :=
    fun u s he => congrArg (fun x => x.2.2) he
  -- what is known of a station of the graph that is read
  have orig : ∀ u i, u < (raw p d.tags).next → (raw p d.tags).pl.getSI u = some (some i) → ∃ x ∈ d.nodes, ∃ s, Makes p (readNod p.keysN x) (.station s) ∧
      ((∃ q, own[u]? = some q ∧ q.node = x.id ∧ Fitted p (mapSegs p d ways) q s i) ∨
        (Off p d ways (readRel p.keysR) (readNod p.keysN) x ∧ own[u]? = none ∧ (raw p d.tags).pos u = x.pos ∧ s = i)) := by
    intro u i hu hi
    cases hq : own[u]? with
    | none =>
      obtain ⟨_, x, hx, x1, s, x2, x3, x4⟩ := M.rest u hq (by
        intro he
        have : (raw p d.tags).pl.getSI u = some none := congrArg (fun x => x.2.2) he
        rw [hi] at this
        cases this)
      have := si u s x4
      rw [hi] at this
      exact ⟨x, hx, s, x2, Or.inr ⟨x1, rfl, x3, (Option.some.inj (Option.some.inj this)).symm⟩⟩
    | some q =>
      have hex : ∃ x ∈ d.nodes, x.id = q.node ∧ (noTurn p d x.id = false ∨ inArea p d x.id = true) := by
        apply Classical.byContradiction
        intro hno
        have := M.blank u q hq (fun x hx he => by
          cases a1 : noTurn p d x.id with
          | false => exact absurd ⟨x, hx, he, Or.inl a1⟩ hno
          | true =>
            cases a2 : inArea p d x.id with
            | true => exact absurd ⟨x, hx, he, Or.inr a2⟩ hno
            | false => exact ⟨rfl, rfl⟩)
        have : (raw p d.tags).pl.getSI u = some none := congrArg (fun x => x.2.2) this
        rw [hi] at this
        cases this
      obtain ⟨x, hx, he, hc⟩ := hex
      rcases M.on x hx u q hq he.symm hc with ⟨s, s', m1, m2, m3⟩ | ⟨kk, m1, m2, m3⟩
      · have := si u s' m3
        rw [hi] at this
        have := Option.some.inj (Option.some.inj this)
        subst this
        exact ⟨x, hx, s, m1, Or.inl ⟨q, rfl, he.symm, m2⟩⟩
      · have : (raw p d.tags).pl.getSI u = kk.view.2.2 := congrArg (fun x => x.2.2) m3
        rw [hi] at this
        cases kk with
        | station s => exact absurd rfl (m2 s)
        | plain => cases this
        | blocker => cases this
        | turnCycle => cases this
  refine ⟨?_, ?_, ?_⟩
  · intro x hx u q hq hi hc s hmk
    have hu := hlt u q hq
    rcases M.on x hx u q hq hi hc with ⟨s1, s', m1, m2, m3⟩ | ⟨kk, m1, m2, m3⟩
    · have : s1 = s := by
        have := m1.2
        rw [hmk.2] at this
        exact (Option.some.inj this).symm
      subst this
      obtain ⟨k1, j, k2, k3⟩ := keep u hu s' (si u s' m3)
      exact ⟨k1, (t1 u hu).trans (h.pos x hx u q hq hi hc), s', j, m2, k2, k3⟩
    · have e1 := (kindOf_makes ho _ kk).1 m1
      have e2 := (kindOf_makes ho _ (.station s)).1 hmk
      exact absurd (e1.trans e2.symm) (m2 s)
  · intro x hx hoff s hmk
    obtain ⟨u, u1, u2, u3, u4⟩ := M.off x hx hoff s hmk
    obtain ⟨k1, j, k2, k3⟩ := keep u u2 s (si u s u4)
    exact ⟨u, u1, k1, (t1 u u2).trans u3, j, k2, k3⟩
  · intro u hu j hj
    rcases placed u j ((St.nds u).1 hu).1 hj with ⟨hu', i, hi⟩ | ⟨o, hoin, r, hr', i, hi, htr, a, b, ha, hb, hrange, _, hcase⟩
    · obtain ⟨_, j', hj', htr⟩ := keep u hu' i hi
      have : j' = j := by
        rw [hj] at hj'
        exact (Option.some.inj (Option.some.inj hj')).symm
      subst this
      obtain ⟨x, hx, s, hmk, ⟨q, q1, q2, q3⟩ | ⟨o1, o2, o3, o4⟩⟩ := orig u i hu' hi
      · exact ⟨x, hx, s, hmk, Or.inl ⟨q, i, q1, q2, q3, htr⟩⟩
      · subst o4
        exact ⟨x, hx, s, hmk, Or.inr ⟨o1, htr, Or.inl ⟨o2, (t1 u hu').trans o3⟩⟩⟩
    · have ho' := (horph o).1 ((hoo _).mem_iff.1 hoin)
      obtain ⟨x, hx, s, hmk, ⟨q, q1, _⟩ | ⟨o1, o2, o3, o4⟩⟩ := orig o i ho'.2.1 hi
      · rw [ho'.1] at q1; cases q1
      · subst o4
        refine ⟨x, hx, s, hmk, Or.inr ⟨o1, htr, Or.inr ⟨r, hr', (Finish.finish c (raw p d.tags)).pos a, (Finish.finish c (raw p d.tags)).pos b, ?_, ?_⟩⟩⟩
        · have e : (Finish.finish c (raw p d.tags)).pos o = x.pos := (t1 o ho'.2.1).trans o3
          rw [← e]; exact hrange
        · rcases hcase with rfl | rfl | ⟨y, hy⟩
          · exact Or.inl rfl
          · exact Or.inr (Or.inl rfl)
          · exact Or.inr (Or.inr ⟨y, hy⟩)

/-- C77. If the ways at a station have one track, the station has it, unless it has one of its own. -/
theorem C77_one_track (p : Par P S T D) (ss : List Seg) (q : Place) (s s' : S) (h : Fitted p ss q s s') (x : T)
    (hex : ∃ t ∈ ss, (t.a = q ∨ t.b = q) ∧ p.track t.way = some x)
    (hone : ∀ t ∈ ss, t.a = q ∨ t.b = q → p.track t.way = none ∨ p.track t.way = some x) :
    s' = if p.noTrack s then p.setTrack x s else s := by
  by_cases hn : p.noTrack s = true
  · rw [if_pos hn]
    obtain ⟨t, ht, htq, hx⟩ := hex
    obtain ⟨t', ht', htq', y, hy, he⟩ := h.way hn ⟨t, ht, htq, by rw [hx]; simp⟩
    rcases hone t' ht' htq' with k | k
    · rw [hy] at k; cases k
    · rw [hy] at k
      rw [he, Option.some.inj k]
  · rw [if_neg hn]
    exact h.own (by simpa using hn)

/-! ### examples -/

def kSt : Str := [31]
def kBl : Str := [32]
def kTc : Str := [33]

/-- Infos of stations are numbers, of which the hundreds are the track. The way 10 has track 1, the way 20 has track 2. -/
def exStPar : Par Nat Nat Nat Int :=
  { exPar with
    o := { exOpts with station := [(kSt, [(vYes, 1)])], blocker := [(kBl, [(vYes, 1)])], turnCycle := [(kTc, [(vYes, 1)])] }
    keysN := [kSt, kBl, kTc, kHw]
    info := fun nd => some nd.id
    track := fun w => if w.id = 10 then some 1 else if w.id = 20 then some 2 else none
    noTrack := fun s => decide (s < 100)
    setTrack := fun t s => 100 * (t + 1) + s }

/-- The same, with another order of the hash map. -/
def exStPar' : Par Nat Nat Nat Int := { exStPar with trackOrder := List.reverse }

/-- The crossing with a blocker at 1, a station at 3, a turn cycle at 4, a station at 5, and a station 6 beside the ways. -/
def exStat : Doc Nat :=
  { exCross with
    nodes := [⟨1, 1, [⟨3, .tag kBl vYes⟩]⟩, ⟨3, 2, [⟨3, .tag kSt vYes⟩]⟩, ⟨4, 3, [⟨3, .tag kTc vYes⟩]⟩, ⟨5, 4, [⟨3, .tag kSt vYes⟩, ⟨3, .tag kBl vYes⟩]⟩,
      ⟨6, 5, [⟨3, .tag kSt vYes⟩, ⟨3, .tag kHw vHw⟩]⟩] }

theorem exStat_ok : exStat.Ok := by
  refine ⟨⟨_, _, rfl, by simp [isNode]⟩, by simp [exStat], ?_, ?_, ?_, ?_, ?_⟩
  · exact ⟨by simp [exStat], by simp [exStat], by simp [exStat]⟩
  · exact ⟨by simp [exStat, exCross], by simp [exStat, exCross], by simp [exStat, exCross]⟩
  · exact ⟨by simp [exStat, exCross, exRel], by simp [exStat, exCross, exRel], by simp [exStat, exCross, exRel]⟩
  · simp [exStat, exCross, Plain, isNode, isWay, isRel]
  · simp [exStat, exCross, Plain, isNode, isWay, isRel, exRel]

theorem exSt_flagged : FlaggedOpts exStPar.o := by
  obtain ⟨a1, a2, a3, a4, a5, a6, a7, a8, a9, a10, a11⟩ := exOpts_flagged
  have one : ∀ k v, Flagged [(k, [(v, 1)])] := by
    intro k0 v k vals h r hr
    have := FMap.mem_of_get h
    simp at this
    rw [this.2] at hr
    simp at hr
    simp [hr]
  constructor
  all_goals first | assumption | exact one _ _

theorem exStat_segs : mapSegs exStPar exStat [wayA, wayB, wayC] =
    [⟨.shared 1, .shared 3, wayA⟩, ⟨.shared 3, .shared 4, wayB⟩, ⟨.shared 3, .shared 5, wayC⟩] := by decide +kernel

theorem exStat_tidy : Tidy exStPar exStat (mapSegs exStPar exStat [wayA, wayB, wayC]) := by
  have na : ∀ s ∈ mapSegs exStPar exStat [wayA, wayB, wayC], ¬ Against exStPar.o s.way := by
    have hm : ∀ s ∈ mapSegs exStPar exStat [wayA, wayB, wayC], mk1 exStPar.o s.way ≠ 2 := by
      rw [exStat_segs]
      decide +kernel
    exact fun s hs k => hm s hs ((mk1_iff exSt_flagged s.way).1.2 k)
  refine ⟨?_, fun s hs t ht _ _ _ => iff_of_false (na s hs) (na t ht), Or.inr na, ?_, ?_⟩
  · rw [exStat_segs]; decide +kernel
  · rw [exStat_segs]
    intro s hs q hq
    simp only [List.mem_cons, List.not_mem_nil, or_false] at hs
    rcases hs with rfl | rfl | rfl <;> rcases hq with rfl | rfl <;> decide +kernel
  · rw [exStat_segs]
    have hne : ∀ x ∈ exStat.nodes, ∀ y ∈ exStat.nodes, x.id ≠ y.id → exStPar.near y.pos x.pos = false := by decide +kernel
    intro a b ⟨s, hs, hsa, _⟩ ⟨t, ht, htb, _⟩ hab x hx y hy hxa hyb
    refine hne x hx y hy ?_
    rw [hxa, hyb]
    intro hn
    refine hab ?_
    simp only [List.mem_cons, List.not_mem_nil, or_false] at hs ht
    rcases hs with rfl | rfl | rfl <;> rcases hsa with rfl | rfl <;> rcases ht with rfl | rfl | rfl <;> rcases htb with rfl | rfl <;>
      first | rfl | (simp [Place.node] at hn)

theorem exStat_kept : Kept exStPar exStat [wayA, wayB, wayC] := by
  have h : Kept exPar exStat (exStat.ways.map (readWay exPar.keysW)) := exPar_kept exStat (by decide +kernel)
  have e : exStat.ways.map (readWay exPar.keysW) = [wayA, wayB, wayC] := by decide +kernel
  rw [e] at h
  exact h

/-- The hypotheses of C77 hold for the example. The blocker, the stations and the turn cycle are at the nodes 0, 1, 2 and 3; the station beside
the ways is node 4. The station at 1 has got a track from one of the ways 10 and 20. -/
example : exStPar.f.Ok ∧ FlaggedOpts exStPar.o ∧ (∀ l, (exStPar.trackOrder l).Perm l) ∧ (∀ t s, exStPar.noTrack (exStPar.setTrack t s) = false) ∧
    (∀ l, (exStPar.orphOrder l).Perm l) ∧ (∀ x l, (exStPar.cfg.snap.order x l).Perm l) ∧ (∀ n u, u ∈ exStPar.cfg.nds n ↔ u < n) ∧ exStat.Ok ∧
    (build exStPar exStat.tags).pl.infos.length < u32max - 1 ∧ Kept exStPar exStat [wayA, wayB, wayC] ∧
    Tidy exStPar exStat (mapSegs exStPar exStat [wayA, wayB, wayC]) ∧
    ((List.range 5).map fun u => (raw exStPar exStat.tags).pl.view u) =
      [(true, false, some none), (false, false, some (some 303)), (false, true, some none), (false, false, some (some 5)),
        (false, false, some (some 6))] ∧
    (build exStPar exStat.tags).pl.getSI 1 = some (some 303) ∧ (build exStPar exStat.tags).pl.getSI 4 = some (some 6) := by
  refine ⟨exKeep_ok, exSt_flagged, fun _ => .refl _, fun t s => ?_, fun _ => .refl _, fun _ _ => .refl _, fun n u => List.mem_range, exStat_ok,
    by decide +kernel, exStat_kept, exStat_tidy, by decide +kernel, by decide +kernel, by decide +kernel⟩
  show decide (100 * (t + 1) + s < 100) = false
  simp
  omega

/-- C77, negation: the track of a station on ways with different tracks is up to the order of a hash map. -/
theorem C77_negation_track : (∀ l, (exStPar.trackOrder l).Perm l) ∧ (∀ l, (exStPar'.trackOrder l).Perm l) ∧ exStat.Ok ∧
    Tidy exStPar exStat (mapSegs exStPar exStat [wayA, wayB, wayC]) ∧
    (build exStPar exStat.tags).pl.getSI 1 = some (some 303) ∧ (build exStPar' exStat.tags).pl.getSI 1 = some (some 203) :=
  ⟨fun _ => .refl _, fun l => List.reverse_perm l, exStat_ok, exStat_tidy, by decide +kernel, by decide +kernel⟩

end Verif.Whole
