import Verif.Counts.Spec
import Verif.Share.Lemmas
import Verif.Build.Props

/-!
# The numbers that are reported after matching: lemmas
-/

namespace Verif.Counts
open Verif.Trie (Trie needsShape filings CEnv)
open Verif.Line (Geo)
open Verif.Dists (MRun)
open Verif.Build (Mode cluster leafs items forestItems trieItems leafItem Item mrun mruns)

variable {E C Pt D S P A X α β γ : Type}

theorem collect_map {f : α → Option β} {g : β → γ} {h : α → γ} (e : ∀ a b, f a = some b → g b = h a) : ∀ {l : List α} {bs : List β},
    Content.collect f l = some bs → bs.map g = l.map h
  | [], bs, hc => by cases hc; rfl
  | a :: l, bs, hc => by
    rw [Content.collect] at hc
    cases ha : f a with
    | none => rw [ha] at hc; cases hc
    | some b =>
      rw [ha] at hc
      cases hr : Content.collect f l with
      | none => rw [hr] at hc; cases hc
      | some bs' =>
        rw [hr] at hc
        cases hc
        rw [List.map_cons, List.map_cons, e a b ha, collect_map e hr]

/-- The trips of the leafs of a trie. -/
def groups (tr : Trie Nat P A) : List (List Nat) := (leafs tr).map tr.ndTrips

section
variable [DecidableEq E] {geo : Geo Pt} {m : Mode E C Pt D S P A}

theorem forest_groups : ∀ (f : List (Trie Nat P A)) (s : S) (l : List (Item E Pt)), forestItems geo m f s = some l →
    l.map (·.trips) = f.flatMap groups
  | [], _, l, h => by cases h; rfl
  | tr :: f, s, l, h => by
    rw [forestItems] at h
    cases ht : trieItems geo m tr s with
    | none => rw [ht] at h; cases h
    | some p =>
      obtain ⟨l1, s'⟩ := p
      rw [ht] at h
      obtain ⟨l2, h2, rfl⟩ := Option.map_eq_some_iff.mp h
      unfold trieItems at ht
      split at ht
      · cases ht
      · rename_i ecm _
        split at ht
        · cases ht
        · rename_i l3 hl
          cases ht
          rw [List.map_append, List.flatMap_cons, forest_groups f _ l2 h2,
            collect_map (g := fun it : Item E Pt => it.trips) (h := tr.ndTrips) (fun a b e => Share.leafItem_trips e) hl]
          rfl

theorem items_groups {n : Nat} {fs : List (List (Trie Nat P A))} (hfs : cluster m n = some fs) {its : List (List (Item E Pt))}
    (h : items geo m n = some its) : its.flatten.map (·.trips) = fs.flatten.flatMap groups := by
  simp only [items, hfs] at h
  have := collect_map (g := fun l : List (Item E Pt) => l.map (·.trips)) (h := fun f => f.flatMap groups)
    (fun a b e => forest_groups a m.cache b e) h
  rw [List.map_flatten, this, ← List.flatMap_def, List.flatten_eq_flatMap, List.flatMap_assoc]
  rfl
end

theorem count_eq : ∀ l : List (Trie Nat P A), (count l).totNumTrips = (l.flatMap groups).flatten.length ∧
    (count l).numTrieLeafs = (l.flatMap groups).length ∧ (count l).numTries = l.length
  | [] => ⟨rfl, rfl, rfl⟩
  | tr :: l => by
    obtain ⟨h1, h2, h3⟩ := count_eq l
    simp only [count, Stats.add, h1, h2, h3, List.flatMap_cons, List.flatten_append, List.length_append, List.length_cons]
    refine ⟨?_, ?_, by omega⟩
    · simp [groups, List.length_flatten, Function.comp_def]
    · simp [groups]

/-- A leaf has trips. -/
theorem groups_ne {tr : Trie Nat P A} {g : List Nat} (h : g ∈ groups tr) : g ≠ [] := by
  obtain ⟨j, hj, rfl⟩ := List.mem_map.mp h
  have := (List.mem_filter.mp hj).2
  intro e
  rw [e] at this
  cases this

/-- Groups of trips and ids. -/
theorem many_ids [DecidableEq β] {gs : List (List α)} (ne : ∀ g ∈ gs, g ≠ []) (nd : gs.flatten.Nodup) {H : α → β → Prop}
    (has : ∀ g ∈ gs, ∀ k ∈ g, ∃ x, H k x) (one : ∀ g ∈ gs, ∀ k ∈ g, ∀ k' ∈ g, ∀ x x', H k x → H k' x' → x = x')
    (apart : ∀ g ∈ gs, ∀ g' ∈ gs, ∀ k ∈ g, ∀ k' ∈ g', ∀ x, H k x → H k' x → k' ∈ g) :
    Many gs.length fun x => ∃ k ∈ gs.flatten, H k x := by
  induction gs with
  | nil => exact ⟨[], List.nodup_nil, rfl, fun a => by simp⟩
  | cons g gs ih =>
    rw [List.flatten_cons, List.nodup_append] at nd
    obtain ⟨n1, n2, n3⟩ := nd
    obtain ⟨l, l1, l2, l3⟩ := ih (fun g h => ne g (List.mem_cons_of_mem _ h)) n2 (fun g h => has g (List.mem_cons_of_mem _ h))
      (fun g h => one g (List.mem_cons_of_mem _ h)) (fun g h g' h' => apart g (List.mem_cons_of_mem _ h) g' (List.mem_cons_of_mem _ h'))
    have hg : g ∈ g :: gs := List.mem_cons_self ..
    obtain ⟨k, hk⟩ := List.exists_mem_of_ne_nil _ (ne g hg)
    obtain ⟨x, hx⟩ := has g hg k hk
    refine ⟨x :: l, List.nodup_cons.mpr ⟨fun hxl => ?_, l1⟩, by rw [List.length_cons, List.length_cons, l2], fun a => ?_⟩
    · obtain ⟨k', hk', hx'⟩ := (l3 x).mp hxl
      obtain ⟨g', hg', hk2⟩ := List.mem_flatten.mp hk'
      have := apart g hg g' (List.mem_cons_of_mem _ hg') k hk k' hk2 x hx hx'
      exact n3 k' this k' hk' rfl
    · rw [List.mem_cons, l3]
      constructor
      · rintro (e | ⟨k', h1, h2⟩)
        · exact ⟨k, List.mem_append_left _ hk, e ▸ hx⟩
        · exact ⟨k', List.mem_append_right _ h1, h2⟩
      · rintro ⟨k', h1, h2⟩
        rcases List.mem_append.mp h1 with h1 | h1
        · exact .inl (one g hg k' h1 k hk a x h2 hx)
        · exact .inr ⟨k', h1, h2⟩

/-! ## No trie is empty -/

section
open Verif.Trie (Inv CSys offer clusterTrip cstep crun cinit groupTrips groupItems todo)

variable {T : Type} [DecidableEq T]

/-- Some trip was added to the trie. -/
def Full (c : CEnv T P A) (tr : Trie T P A) : Prop := ∃ log, Inv c.toEnv tr log ∧ log ≠ []

theorem full_offer {c : CEnv T P A} (hnear : ∀ p, c.near p p = true) (key : A) (t : T) : ∀ (f : List (Trie T P A)) b f',
    offer c key t f = some (b, f') → (∀ tr ∈ f, Full c tr) → ∀ tr ∈ f', Full c tr
  | [], b, f', h, _ => by rw [offer] at h; cases h; simp
  | tr :: f, b, f', h, hg => by
    rw [offer] at h
    have g2 : ∀ tr ∈ f, Full c tr := fun x hx => hg x (List.mem_cons_of_mem _ hx)
    obtain ⟨log, I, hl⟩ := hg tr (List.mem_cons_self ..)
    rcases Trie.addTrip_spec c.toEnv hnear I ⟨t, key, c.timeEx, c.noTrie⟩ with ⟨ha, _⟩ | ⟨tr', nid, ha, F⟩
    · simp only at ha
      rw [ha] at h
      dsimp only at h
      cases ho : offer c key t f with
      | none => rw [ho] at h; cases h
      | some q =>
        obtain ⟨b2, f2⟩ := q
        rw [ho] at h
        cases h
        intro x hx
        rcases List.mem_cons.mp hx with rfl | hx
        · exact ⟨log, I, hl⟩
        · exact full_offer hnear key t f _ _ ho g2 x hx
    · simp only at ha
      rw [ha] at h
      cases h
      intro x hx
      rcases List.mem_cons.mp hx with rfl | hx
      · exact ⟨_, F.inv, by simp⟩
      · exact g2 x hx

theorem full_cluster {c : CEnv T P A} (hnear : ∀ p, c.near p p = true) {key : A} {t : T} (ht : c.stops t ≠ []) {f f' : List (Trie T P A)}
    (h : clusterTrip c key f t = some f') (hg : ∀ tr ∈ f, Full c tr) : ∀ tr ∈ f', Full c tr := by
  rw [clusterTrip] at h
  cases ho : offer c key t f with
  | none => rw [ho] at h; cases h
  | some q =>
    obtain ⟨b, f2⟩ := q
    have g2 := full_offer hnear key t f _ _ ho hg
    rw [ho] at h
    cases b with
    | true => cases h; exact g2
    | false =>
      dsimp only at h
      rcases Trie.addTrip_spec c.toEnv hnear (Inv.empty c.toEnv) ⟨t, key, c.timeEx, false⟩ with ⟨_, h' | h' | h'⟩ | ⟨tr', nid, ha, F⟩
      · exact absurd h' ht
      · cases h'
      · exact absurd rfl h'
      · simp only at ha
        rw [ha] at h
        cases h
        intro x hx
        rcases List.mem_append.mp hx with hx | hx
        · exact g2 x hx
        · rw [List.mem_singleton] at hx
          subst hx
          exact ⟨_, F.inv, by simp⟩

theorem full_crun {c : CEnv T P A} (hnear : ∀ p, c.near p p = true) (groups : List (A × List T)) : ∀ (sched : List Nat) (s s' : CSys T P A),
    crun c groups sched s = some s' → (∀ l ∈ s.pend, ∀ x ∈ l, c.stops x.2 ≠ []) → (∀ f ∈ s.forests, ∀ tr ∈ f, Full c tr) →
    ∀ f ∈ s'.forests, ∀ tr ∈ f, Full c tr
  | [], s, s', h, _, hg => by cases h; exact hg
  | i :: sched, s, s', h, hp, hg => by
    rw [crun] at h
    cases hs : cstep c groups s i with
    | none => rw [hs] at h; cases h
    | some s1 =>
      rw [hs] at h
      have : (∀ l ∈ s1.pend, ∀ x ∈ l, c.stops x.2 ≠ []) ∧ ∀ f ∈ s1.forests, ∀ tr ∈ f, Full c tr := by
        unfold cstep at hs
        split at hs
        · cases hs; exact ⟨hp, hg⟩
        · cases hs; exact ⟨hp, hg⟩
        · rename_i g t rest hpe
          have hm := List.mem_of_getElem? hpe
          split at hs
          · rename_i key _ f _ hf
            split at hs
            · cases hs
            · rename_i f' hc
              cases hs
              constructor
              · intro l hl x hx
                rcases List.mem_or_eq_of_mem_set hl with hl | rfl
                · exact hp l hl x hx
                · exact hp _ hm x (List.mem_cons_of_mem _ hx)
              · intro x hx
                rcases List.mem_or_eq_of_mem_set hx with hx | rfl
                · exact hg x hx
                · exact full_cluster hnear (hp _ hm _ (List.mem_cons_self ..)) hc (hg f (List.mem_of_getElem? hf))
          · cases hs
      exact full_crun hnear groups sched s1 s' h this.1 this.2
end

theorem full_leafs {c : CEnv Nat P A} {tr : Trie Nat P A} (h : Full c tr) : 0 < (leafs tr).length := by
  obtain ⟨log, I, hl⟩ := h
  obtain ⟨x, hx⟩ := List.exists_mem_of_ne_nil _ hl
  have h1 : x.1.t ∈ tr.ndTrips x.2 := by
    rw [I.ndTrips]
    exact List.mem_map.mpr ⟨x, List.mem_filter.mpr ⟨hx, by simp⟩, rfl⟩
  refine List.length_pos_of_mem (a := x.2) (List.mem_filter.mpr ⟨List.mem_range.mpr (I.lt _ hx), ?_⟩)
  cases e : tr.ndTrips x.2 with
  | nil => rw [e] at h1; cases h1
  | cons _ _ => rfl

theorem cluster_full {m : Mode E C Pt D S P A} {n : Nat} (hnear : ∀ p, m.c.near p p = true) {fs : List (List (Trie Nat P A))}
    (h : cluster m n = some fs) : ∀ f ∈ fs, ∀ tr ∈ f, Full m.c tr := by
  rw [cluster] at h
  cases hc : Trie.cinit m.c m.thr (List.range n) with
  | none => rw [hc] at h; cases h
  | some s =>
    rw [hc] at h
    obtain ⟨s', h1, rfl⟩ := Option.map_eq_some_iff.mp h
    refine full_crun hnear _ _ s s' h1 ?_ ?_
    · rw [Trie.cinit] at hc
      split at hc
      · cases hc
      · cases hc
        intro l hl x hx
        obtain ⟨gs, _, rfl⟩ := List.mem_map.mp hl
        obtain ⟨g, _, hx⟩ := List.mem_flatMap.mp hx
        rw [Trie.groupItems] at hx
        split at hx
        · cases hx
        · rename_i ts hg
          obtain ⟨t, ht, rfl⟩ := List.mem_map.mp hx
          exact Trie.group_stops _ (List.mem_of_getElem? hg) t ht
    · rw [Trie.cinit] at hc
      split at hc
      · cases hc
      · cases hc
        intro f hf
        obtain ⟨_, _, rfl⟩ := List.mem_map.mp hf
        simp

theorem tries_le {c : CEnv Nat P A} : ∀ l : List (Trie Nat P A), (∀ tr ∈ l, Full c tr) → (count l).numTries ≤ (count l).numTrieLeafs
  | [], _ => Nat.le_refl _
  | tr :: l, h => by
    have h1 := full_leafs (h tr (List.mem_cons_self ..))
    have h2 := tries_le l fun x hx => h x (List.mem_cons_of_mem _ hx)
    simp only [count, Stats.add]
    omega

/-! ## All mode configurations -/

theorem total_eq [DecidableEq E] {geo : Geo Pt} {enc : Line.ShpPt Pt → Shapes.Point} {encD : Rat → List Nat} {n : Nat} :
    ∀ (ms : List (Mode E C Pt D S P A)) (rs : List (MRun (List Nat))) (s : Stats), (∀ m ∈ ms, ∀ p, m.c.near p p = true) →
    mruns geo enc encD n ms = some rs → ∃ s', total n ms s = some s' ∧
      s'.totNumTrips = s.totNumTrips + (((rs.map (·.run)).flatMap (·.jobs)).flatten.map (·.trips)).flatten.length ∧
      s'.numTrieLeafs = s.numTrieLeafs + (((rs.map (·.run)).flatMap (·.jobs)).flatten.map (·.trips)).length ∧
      s'.numTries + s.numTrieLeafs ≤ s'.numTrieLeafs + s.numTries ∧
      ∀ g ∈ ((rs.map (·.run)).flatMap (·.jobs)).flatten.map (·.trips), g ≠ []
  | [], rs, s, _, h => by cases h; exact ⟨s, rfl, rfl, rfl, by omega, by simp⟩
  | m :: ms, rs, s, hnear, h => by
    rw [mruns, Content.collect] at h
    cases hi : items geo m n with
    | none => rw [hi] at h; cases h
    | some its =>
      rw [hi] at h
      cases hc : Content.collect (fun m => (items geo m n).map (mrun enc encD m)) ms with
      | none => simp only [Option.map_some, hc] at h; cases h
      | some rs' =>
        simp only [Option.map_some, hc] at h
        cases h
        cases hfs : cluster m n with
        | none => simp only [items, hfs] at hi; cases hi
        | some fs =>
          have hg := items_groups hfs hi
          have ej : (mrun enc encD m its).run.jobs.flatten.map (·.trips) = fs.flatten.flatMap groups := by
            rw [← hg]
            show (its.map fun f => f.map (Item.leaf enc)).flatten.map (·.trips) = _
            rw [← List.map_flatten, List.map_map]
            rfl
          obtain ⟨c1, c2, _⟩ := count_eq fs.flatten
          have c3 := tries_le (c := m.c) fs.flatten fun tr htr => by
            obtain ⟨f, hf, htr⟩ := List.mem_flatten.mp htr
            exact cluster_full (hnear m (List.mem_cons_self ..)) hfs f hf tr htr
          obtain ⟨s', t1, t2, t3, t4, t5⟩ := total_eq ms rs' (s.add (count fs.flatten)) (fun x hx => hnear x (List.mem_cons_of_mem _ hx)) hc
          refine ⟨s', by simp only [total, shapeify, hfs, Option.map_some]; exact t1, ?_, ?_, ?_, ?_⟩
          · rw [t2]
            simp only [Stats.add, List.map_cons, List.flatMap_cons, List.flatten_append, List.map_append, List.length_append, ej, c1]
            omega
          · rw [t3]
            simp only [Stats.add, List.map_cons, List.flatMap_cons, List.flatten_append, List.map_append, List.length_append, ej, c2]
            omega
          · simp only [Stats.add] at t4
            omega
          · intro g hgm
            simp only [List.map_cons, List.flatMap_cons, List.flatten_append, List.map_append, ej] at hgm
            rcases List.mem_append.mp hgm with hgm | hgm
            · obtain ⟨tr, _, h⟩ := List.mem_flatMap.mp hgm
              exact groups_ne h
            · exact t5 g hgm

end Verif.Counts
