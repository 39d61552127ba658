import Verif.Share.Spec
import Verif.Build.Lemmas
import Verif.Trie.CanonForest

/-!
# Which trips share a shape (lemmas)
-/

namespace Verif.Share
open Verif.Trie (CEnv needsShape StopTime Trie spell Ev Op Alike groupTrips filings StrictWeak equiv)
open Verif.Build (Mode ModeOk Item Good cluster items forestItems trieItems leafItem leafs)
open Verif.Line (Geo)

variable {E C Pt D S P A : Type}

/-! ## Trips that ask for the same line -/

theorem spell_later (st d : Int) : ∀ l l' : List (StopTime P), Later d l l' → (d = 0 ∨ Timed l) →
    (spell l').map (Ev.time (st + d)) = (spell l).map (Ev.time st) := by
  have one : ∀ (x x' : Option Int), x' = x.map (· + d) → (d = 0 ∨ x ≠ none) →
      (match x' with | some t => t - (st + d) | none => st + d) = (match x with | some t => t - st | none => st) := by
    intro x x' e h
    subst e
    cases x with
    | none =>
      rcases h with rfl | h
      · simp
      · exact absurd rfl h
    | some t => simp only [Option.map_some]; omega
  intro l
  induction l with
  | nil =>
    intro l' h _
    have : l' = [] := List.map_eq_nil_iff.mp h
    rw [this]; rfl
  | cons s l ih =>
    intro l' h ht
    cases l' with
    | nil => exact absurd h.symm (by simp)
    | cons s' l' =>
      have h1 : (s'.arr, s'.dep) = (s.arr.map (· + d), s.dep.map (· + d)) := (List.cons.inj h).1
      have h2 : Later d l l' := (List.cons.inj h).2
      have ht' : d = 0 ∨ Timed l := ht.imp id fun h x hx => h x (List.mem_cons_of_mem _ hx)
      have := ih l' h2 ht'
      cases l with
      | nil =>
        have : l' = [] := List.map_eq_nil_iff.mp h2
        rw [this]; rfl
      | cons b l =>
        cases l' with
        | nil => exact absurd h2.symm (by simp)
        | cons b' l' =>
          have h3 : (b'.arr, b'.dep) = (b.arr.map (· + d), b.dep.map (· + d)) := (List.cons.inj h2).1
          simp only [spell, List.map_cons]
          rw [this]
          congr 1
          · exact one s.dep s'.dep (Prod.mk.inj h1).2 (ht.imp id fun h => (h s (List.mem_cons_self ..)).2)
          · congr 1
            exact one b.arr b'.arr (Prod.mk.inj h3).1 (ht'.imp id fun h => (h b (List.mem_cons_self ..)).1)

theorem alike_of {c : CEnv Nat P A} {k k' : Nat} (h : Same c k k') (key : A) :
    Alike c.toEnv ⟨k, key, c.timeEx, c.noTrie⟩ ⟨k', key, c.timeEx, c.noTrie⟩ := by
  refine ⟨h.stops, rfl, fun htx => ?_⟩
  obtain ⟨d, hl, hd⟩ := h.times htx
  have hst : Op.start c.toEnv ⟨k', key, c.timeEx, c.noTrie⟩ = Op.start c.toEnv ⟨k, key, c.timeEx, c.noTrie⟩ + d ∨
      (c.stops k = [] ∧ c.stops k' = []) := by
    unfold Op.start
    revert hl hd
    show Later d (c.stops k) (c.stops k') → (d = 0 ∨ Timed (c.stops k)) → _
    dsimp only
    generalize c.stops k = l
    generalize c.stops k' = l'
    intro hl hd
    cases l with
    | nil => exact .inr ⟨rfl, List.map_eq_nil_iff.mp hl⟩
    | cons s l =>
      cases l' with
      | nil => exact absurd hl.symm (by simp)
      | cons s' l' =>
        left
        have h1 : (s'.arr, s'.dep) = (s.arr.map (· + d), s.dep.map (· + d)) := (List.cons.inj hl).1
        have h2 := (Prod.mk.inj h1).2
        simp only [List.head?_cons, Option.bind_some, h2]
        cases hs : s.dep with
        | none =>
          rcases hd with rfl | hd
          · simp
          · exact absurd hs (hd s (List.mem_cons_self ..)).2
        | some x => rfl
  rcases hst with hst | ⟨e1, e2⟩
  · rw [hst]
    exact (spell_later _ d _ _ hl hd).symm
  · show (spell (c.stops k)).map _ = (spell (c.stops k')).map _
    rw [e1, e2]; rfl

/-! ## Trips at one node -/

theorem spell_names : ∀ l l' : List (StopTime P), 2 ≤ l.length → 2 ≤ l'.length →
    (spell l).map (fun e => (e.st.name, e.st.platform)) = (spell l').map (fun e => (e.st.name, e.st.platform)) →
    l.map (fun s => (s.name, s.platform)) = l'.map fun s => (s.name, s.platform)
  | a :: b :: l, a' :: b' :: l', _, _, h => by
    simp only [spell, List.map_cons, List.cons.injEq] at h
    obtain ⟨h1, h2, h3⟩ := h
    cases l with
    | nil =>
      cases l' with
      | nil => simp only [List.map_cons, h1, h2]
      | cons c' l' => exact absurd h3.symm (by simp [spell])
    | cons c l =>
      cases l' with
      | nil => exact absurd h3 (by simp [spell])
      | cons c' l' =>
        have := spell_names (b :: c :: l) (b' :: c' :: l') (by simp) (by simp) h3
        rw [List.map_cons, this, h1]
        rfl
  | [], _, h, _, _ => by simp at h
  | [_], _, h, _, _ => by simp at h
  | _ :: _ :: _, [], _, h, _ => by simp at h
  | _ :: _ :: _, [_], _, h, _ => by simp at h

theorem zip_names {env : Trie.Env Nat P A} {nds : List (Trie.Nd P A)} {tx tx' : Bool} {st st' : Int} : ∀ (p : List Nat) (l l' : List (Ev P)),
    p.length = l.length → p.length = l'.length → (∀ x ∈ p.zip l, Trie.Fits env nds tx st x.1 x.2) →
    (∀ x ∈ p.zip l', Trie.Fits env nds tx' st' x.1 x.2) →
    l.map (fun e => (e.st.name, e.st.platform)) = l'.map fun e => (e.st.name, e.st.platform)
  | [], l, l', h1, h2, _, _ => by
    rw [List.eq_nil_of_length_eq_zero h1.symm, List.eq_nil_of_length_eq_zero h2.symm]
  | i :: p, [], _, h1, _, _, _ => by simp at h1
  | i :: p, _ :: _, [], _, h2, _, _ => by simp at h2
  | i :: p, e :: l, e' :: l', h1, h2, f, f' => by
    obtain ⟨n, a1, a2, a3, _⟩ := f (i, e) (List.mem_cons_self ..)
    obtain ⟨n', b1, b2, b3, _⟩ := f' (i, e') (List.mem_cons_self ..)
    rw [a1] at b1
    cases b1
    rw [List.map_cons, List.map_cons, zip_names p l l' (by simpa using h1) (by simpa using h2) (fun x hx => f x (List.mem_cons_of_mem _ hx))
      (fun x hx => f' x (List.mem_cons_of_mem _ hx)), ← a2, ← a3, ← b2, ← b3]

/-- Trips at one node have the same names and platforms. -/
theorem node_names {c : CEnv Nat P A} (hnear : ∀ p, c.near p p = true) {tr : Trie Nat P A} (hg : Good c tr) {j k k' : Nat} (h1 : k ∈ tr.ndTrips j)
    (h2 : k' ∈ tr.ndTrips j) (l1 : 2 ≤ (c.stops k).length) (l2 : 2 ≤ (c.stops k').length) :
    (c.stops k).map (fun s => (s.name, s.platform)) = (c.stops k').map fun s => (s.name, s.platform) := by
  obtain ⟨ops, log, h⟩ := hg
  obtain ⟨I, _⟩ := Router.history_facts c.toEnv hnear ops h
  have find : ∀ t ∈ tr.ndTrips j, ∃ op : Op Nat A, op.t = t ∧ Trie.Spells c.toEnv tr.nds op j := by
    intro t ht
    rw [I.ndTrips j] at ht
    obtain ⟨p, hp, rfl⟩ := List.mem_map.mp ht
    obtain ⟨hp1, hp2⟩ := List.mem_filter.mp hp
    have e : p.2 = j := by simpa using hp2
    exact ⟨p.1, rfl, by rw [← e]; exact I.spells _ hp1⟩
  obtain ⟨o, rfl, s1, s2⟩ := find k h1
  obtain ⟨o', rfl, s3, s4⟩ := find k' h2
  exact spell_names _ _ l1 l2 (zip_names _ _ _ (by rw [Trie.spell_length]; exact s1) (by rw [Trie.spell_length]; exact s3) s2 s4)

/-! ## Items and nodes -/

section
variable [DecidableEq E] {geo : Geo Pt} {m : Mode E C Pt D S P A}

theorem leafItem_trips {tr : Trie Nat P A} {ecm : Router.Ecm E C (Line.Pos Pt)} {s : S} {nid : Nat} {it : Item E Pt}
    (h : leafItem geo m tr ecm s nid = some it) : it.trips = tr.ndTrips nid := by
  unfold leafItem at h
  split at h
  · rename_i ht
    split at h
    · cases h
    · split at h
      · cases h
      · cases h; rw [ht]
  · cases h

theorem forest_items : ∀ (f : List (Trie Nat P A)) (s : S) (l : List (Item E Pt)), forestItems geo m f s = some l →
    (∀ it ∈ l, ∃ tr ∈ f, ∃ j, it.trips = tr.ndTrips j) ∧ ∀ tr ∈ f, ∀ j ∈ leafs tr, ∃ it ∈ l, it.trips = tr.ndTrips j
  | [], _, l, h => by cases h; exact ⟨fun _ h => (by cases h), fun _ h => by cases h⟩
  | tr :: f, s, l, h => by
    rw [forestItems] at h
    cases ht : trieItems geo m tr s with
    | none => rw [ht] at h; cases h
    | some p =>
      obtain ⟨l1, s'⟩ := p
      rw [ht] at h
      obtain ⟨l2, h2, rfl⟩ := Option.map_eq_some_iff.mp h
      obtain ⟨i1, i2⟩ := forest_items f s' l2 h2
      unfold trieItems at ht
      split at ht
      · cases ht
      · rename_i ecm _
        split at ht
        · cases ht
        · rename_i l3 hl
          cases ht
          constructor
          · intro it hit
            rcases List.mem_append.mp hit with hit | hit
            · obtain ⟨j, _, e⟩ := Content.collect_mem hl hit
              exact ⟨tr, List.mem_cons_self .., j, leafItem_trips e⟩
            · obtain ⟨tr', h1, j, h2⟩ := i1 it hit
              exact ⟨tr', List.mem_cons_of_mem _ h1, j, h2⟩
          · intro tr' htr j hj
            rcases List.mem_cons.mp htr with rfl | htr
            · obtain ⟨i, hi⟩ := List.getElem?_of_mem hj
              obtain ⟨it, h1, h2⟩ := (Content.collect_get hl).2 i j hi
              exact ⟨it, List.mem_append_left _ (List.mem_of_getElem? h1), leafItem_trips h2⟩
            · obtain ⟨it, h1, h2⟩ := i2 tr' htr j hj
              exact ⟨it, List.mem_append_right _ h1, h2⟩

theorem items_nodes {n : Nat} {fs : List (List (Trie Nat P A))} (hfs : cluster m n = some fs) {its : List (List (Item E Pt))}
    (h : items geo m n = some its) : (∀ f ∈ its, ∀ it ∈ f, ∃ g ∈ fs, ∃ tr ∈ g, ∃ j, it.trips = tr.ndTrips j) ∧
      ∀ g ∈ fs, ∀ tr ∈ g, ∀ j ∈ leafs tr, ∃ f ∈ its, ∃ it ∈ f, it.trips = tr.ndTrips j := by
  simp only [items, hfs] at h
  constructor
  · intro f hf it hit
    obtain ⟨g, hg, e⟩ := Content.collect_mem h hf
    obtain ⟨tr, h1, j, h2⟩ := (forest_items g _ f e).1 it hit
    exact ⟨g, hg, tr, h1, j, h2⟩
  · intro g hg tr htr j hj
    obtain ⟨i, hi⟩ := List.getElem?_of_mem hg
    obtain ⟨f, h1, h2⟩ := (Content.collect_get h).2 i g hi
    obtain ⟨it, h3, h4⟩ := (forest_items g _ f h2).2 tr htr j hj
    exact ⟨f, List.mem_of_getElem? h1, it, h3, h4⟩
end

/-! ## Groups -/

theorem equiv_symm {c : CEnv Nat P A} {a b : A} (h : equiv c a b) : equiv c b a := ⟨h.2, h.1⟩

theorem equiv_trans {c : CEnv Nat P A} (sw : StrictWeak c.lt) {a b d : A} (h : equiv c a b) (h' : equiv c b d) : equiv c a d := by
  constructor
  · cases e : c.lt a d with
    | false => rfl
    | true =>
      rcases sw.weak a d b e with h1 | h1
      · rw [h.1] at h1; cases h1
      · rw [h'.1] at h1; cases h1
  · cases e : c.lt d a with
    | false => rfl
    | true =>
      rcases sw.weak d a b e with h1 | h1
      · rw [h'.2] at h1; cases h1
      · rw [h.2] at h1; cases h1

theorem pairwise_one {α : Type} {R : α → α → Prop} : ∀ {l : List α}, l.Pairwise (fun a b => ¬ R a b) → (∀ a b, R a b → R b a) →
    ∀ a ∈ l, ∀ b ∈ l, R a b → a = b
  | [], _, _, _, h, _, _, _ => by cases h
  | x :: l, hp, hs, a, ha, b, hb, h => by
    obtain ⟨h1, h2⟩ := List.pairwise_cons.mp hp
    rcases List.mem_cons.mp ha with e1 | m1
    · rcases List.mem_cons.mp hb with e2 | m2
      · exact e1.trans e2.symm
      · exact absurd (e1 ▸ h) (h1 b m2)
    · rcases List.mem_cons.mp hb with e2 | m2
      · exact absurd (hs _ _ (e2 ▸ h)) (h1 a m1)
      · exact pairwise_one h2 hs a m1 b m2 h

/-- Trips that ask for the same line are at one node; trips at one node have equivalent attributes. -/
theorem nodes_ok {m : Mode E C Pt D S P A} {n : Nat} (ok : ModeOk m n) (hs : Starts m.c n) : ∃ fs, cluster m n = some fs ∧
    (∀ f ∈ fs, ∀ tr ∈ f, Good m.c tr) ∧
    (∀ k k', k < n → k' < n → needsShape m.c k → needsShape m.c k' → Same m.c k k' → ∃ f ∈ fs, ∃ tr ∈ f, ∃ j ∈ leafs tr, k ∈ tr.ndTrips j ∧ k' ∈ tr.ndTrips j) ∧
    ∀ f ∈ fs, ∀ tr ∈ f, ∀ t ∈ filings tr, ∀ t' ∈ filings tr, equiv m.c (m.c.rAttrs t) (m.c.rAttrs t') := by
  obtain ⟨fs, hfs, hgood, _⟩ := Build.cluster_ok ok
  refine ⟨fs, hfs, hgood, ?_⟩
  obtain ⟨s, h1, h2⟩ := Trie.C12_each_trip_once m.c ok.near ok.lt (List.range n) m.thr ok.thr
  obtain ⟨s2, h3, h4⟩ := Trie.C12_alike_share m.c ok.near (List.range n) m.thr ok.thr (fun a b t ht => hs a b t (List.mem_range.mp ht))
  rw [h1] at h3
  cases h3
  obtain ⟨s', h5, h6⟩ := h2 m.csched
  obtain ⟨_, h7, h8, h9⟩ := h6 (ok.done s h1)
  obtain ⟨s3, h10, h11⟩ := h4 m.csched (ok.done s h1)
  rw [h5] at h10
  cases h10
  have e : fs = s'.forests := by
    rw [cluster, h1] at hfs
    simp only [h5, Option.map_some] at hfs
    exact (Option.some.inj hfs).symm
  subst e
  constructor
  · intro k k' hk hk' n1 n2 hsame
    have inGroup : ∀ t, t < n → needsShape m.c t → ∃ p ∈ groupTrips m.c (List.range n), t ∈ p.2 := by
      intro t ht hn
      have := (Trie.groups_perm m.c (List.range n)).mem_iff.mpr (List.mem_filter.mpr ⟨List.mem_range.mpr ht, by simpa using hn⟩)
      exact List.mem_flatMap.mp this
    obtain ⟨p, hp, kp⟩ := inGroup k hk n1
    obtain ⟨q, hq, kq⟩ := inGroup k' hk' n2
    have G := Trie.groups_inv m.c ok.lt (List.range n)
    have hpq : p = q := pairwise_one (R := fun p q => equiv m.c p.1 q.1) h9 (fun _ _ => equiv_symm) p hp q hq
      (equiv_trans ok.lt (equiv_trans ok.lt (equiv_symm (G.mem p hp k kp)) hsame.attrs) (G.mem q hq k' kq))
    subst hpq
    obtain ⟨g, hg⟩ := List.getElem?_of_mem hp
    have hlt : g < s'.forests.length := by rw [h7]; exact (List.getElem?_eq_some_iff.mp hg).1
    obtain ⟨⟨tr, htr, j, hj, hj'⟩, _⟩ := h11 g p.1 p.2 _ hg (List.getElem?_eq_getElem hlt) k kp k' kq (alike_of hsame p.1)
    refine ⟨_, List.getElem_mem hlt, tr, htr, j, ?_, hj, hj'⟩
    have hgd := hgood _ (List.getElem_mem hlt) tr htr
    obtain ⟨ops, log, h⟩ := hgd
    refine List.mem_filter.mpr ⟨List.mem_range.mpr ?_, ?_⟩
    · obtain ⟨I, _⟩ := Router.history_facts m.c.toEnv ok.near ops h
      rw [I.ndTrips j] at hj
      obtain ⟨x, hx, _⟩ := List.mem_map.mp hj
      obtain ⟨hx1, hx2⟩ := List.mem_filter.mp hx
      have e : x.2 = j := by simpa using hx2
      rw [← e]
      exact I.lt _ hx1
    · cases e : tr.ndTrips j with
      | nil => rw [e] at hj; cases hj
      | cons _ _ => rfl
  · intro f hf tr htr t ht t' ht'
    obtain ⟨g, hg⟩ := List.getElem?_of_mem hf
    have hlt : g < (groupTrips m.c (List.range n)).length := by rw [← h7]; exact (List.getElem?_eq_some_iff.mp hg).1
    obtain ⟨hperm, heq⟩ := h8 g _ _ f (List.getElem?_eq_getElem hlt) hg
    have a1 := heq t (hperm.mem_iff.mp (List.mem_flatMap.mpr ⟨tr, htr, ht⟩))
    have a2 := heq t' (hperm.mem_iff.mp (List.mem_flatMap.mpr ⟨tr, htr, ht'⟩))
    exact equiv_trans ok.lt a1 (equiv_symm a2)

end Verif.Share
