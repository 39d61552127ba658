import Verif.Trie.Props
import Verif.Trie.Cluster

/-!
# Clustering of trips (property C12)
-/

namespace Verif.Trie
variable {T P A : Type}

/-! ### specification -/

/-- The trips that need a shape. -/
def needsShape (c : CEnv T P A) (t : T) : Prop :=
  (c.dropShapes = true ∨ c.shapeEmpty t = true) ∧ 2 ≤ (c.stops t).length ∧
    c.mot t ∈ c.mots ∧ c.mot t ∈ c.cfgMots

instance (c : CEnv T P A) (t : T) : Decidable (needsShape c t) := by
  unfold needsShape; infer_instance

/-- Two attributes fall into the same group. -/
def equiv (c : CEnv T P A) (a b : A) : Prop := c.lt a b = false ∧ c.lt b a = false

/-- All trips filed under some node of a trie, once per node and occurrence. -/
def filings (tr : Trie T P A) : List T := (List.range tr.nds.length).flatMap tr.ndTrips

structure StrictWeak (lt : A → A → Bool) : Prop where
  irrefl : ∀ a, lt a a = false
  trans : ∀ a b c, lt a b = true → lt b c = true → lt a c = true
  weak : ∀ a b c, lt a b = true → lt a c = true ∨ lt c b = true

/-! ### grouping -/

theorem mapAdd_perm (lt : A → A → Bool) (a : A) (t : T) (m : List (A × List T)) :
    ((mapAdd lt a t m).flatMap (·.2)).Perm (m.flatMap (·.2) ++ [t]) := by
  induction m with
  | nil => simp [mapAdd]
  | cons p m ih =>
    obtain ⟨k, ts⟩ := p
    simp only [mapAdd]
    split
    · simp only [List.flatMap_cons]
      exact List.perm_append_comm (l₁ := [t])
    · split
      · simp only [List.flatMap_cons, List.append_assoc]
        exact ih.append_left ts
      · simp only [List.flatMap_cons, List.append_assoc]
        exact List.Perm.append_left ts List.perm_append_comm

structure GInv (c : CEnv T P A) (m : List (A × List T)) : Prop where
  sorted : m.Pairwise fun p q => c.lt p.1 q.1 = true
  mem : ∀ p ∈ m, ∀ t ∈ p.2, equiv c (c.rAttrs t) p.1
  first : ∀ p ∈ m, ∃ t ts, p.2 = t :: ts ∧ p.1 = c.rAttrs t

theorem mapAdd_keys (lt : A → A → Bool) (a : A) (t : T) (m : List (A × List T)) :
    ∀ p ∈ mapAdd lt a t m, p.1 = a ∨ ∃ q ∈ m, q.1 = p.1 := by
  induction m with
  | nil => simp [mapAdd]
  | cons q m ih =>
    obtain ⟨k, ts⟩ := q
    intro p hp
    simp only [mapAdd] at hp
    split at hp
    · rcases List.mem_cons.mp hp with rfl | hp
      · exact Or.inl rfl
      · exact Or.inr ⟨p, hp, rfl⟩
    · split at hp
      · rcases List.mem_cons.mp hp with rfl | hp
        · exact Or.inr ⟨(k, ts), by simp, rfl⟩
        · rcases ih p hp with h | ⟨q, h, h'⟩
          · exact Or.inl h
          · exact Or.inr ⟨q, by simp [h], h'⟩
      · rcases List.mem_cons.mp hp with rfl | hp
        · exact Or.inr ⟨(k, ts), by simp, rfl⟩
        · exact Or.inr ⟨p, by simp [hp], rfl⟩

theorem GInv.add {c : CEnv T P A} (sw : StrictWeak c.lt) (t : T) {m : List (A × List T)} (h : GInv c m) :
    GInv c (mapAdd c.lt (c.rAttrs t) t m) := by
  induction m with
  | nil =>
    refine ⟨by simp [mapAdd], ?_, ?_⟩
    · intro p hp t' ht'
      simp only [mapAdd, List.mem_singleton] at hp
      subst hp
      simp only [List.mem_singleton] at ht'
      subst ht'
      exact ⟨sw.irrefl _, sw.irrefl _⟩
    · intro p hp
      simp only [mapAdd, List.mem_singleton] at hp
      subst hp
      exact ⟨t, [], rfl, rfl⟩
  | cons q m ih =>
    obtain ⟨k, ts⟩ := q
    have hs := List.pairwise_cons.mp h.sorted
    have ih := ih ⟨hs.2, fun p hp => h.mem p (by simp [hp]), fun p hp => h.first p (by simp [hp])⟩
    have hm := h.mem (k, ts) (by simp)
    have hf := h.first (k, ts) (by simp)
    simp only [mapAdd]
    by_cases h1 : c.lt (c.rAttrs t) k = true
    · simp only [h1, if_true]
      refine ⟨?_, ?_, ?_⟩
      · rw [List.pairwise_cons]
        refine ⟨?_, h.sorted⟩
        intro p hp
        rcases List.mem_cons.mp hp with rfl | hp
        · exact h1
        · exact sw.trans _ _ _ h1 (hs.1 p hp)
      · intro p hp t' ht'
        rcases List.mem_cons.mp hp with rfl | hp
        · simp only [List.mem_singleton] at ht'; subst ht'; exact ⟨sw.irrefl _, sw.irrefl _⟩
        · exact h.mem p hp t' ht'
      · intro p hp
        rcases List.mem_cons.mp hp with rfl | hp
        · exact ⟨t, [], rfl, rfl⟩
        · exact h.first p hp
    · have h1' : c.lt (c.rAttrs t) k = false := by simpa using h1
      by_cases h2 : c.lt k (c.rAttrs t) = true
      · simp only [h1', h2, if_true]
        refine ⟨?_, ?_, ?_⟩
        · simp only [Bool.false_eq_true, if_false]
          rw [List.pairwise_cons]
          refine ⟨?_, ih.sorted⟩
          intro p hp
          rcases mapAdd_keys c.lt _ t m p hp with e | ⟨q, hq, e⟩
          · show c.lt k p.1 = true
            rw [e]; exact h2
          · rw [← e]; exact hs.1 q hq
        · intro p hp t' ht'
          rcases List.mem_cons.mp hp with rfl | hp
          · exact hm t' ht'
          · exact ih.mem p hp t' ht'
        · intro p hp
          rcases List.mem_cons.mp hp with rfl | hp
          · exact hf
          · exact ih.first p hp
      · have h2' : c.lt k (c.rAttrs t) = false := by simpa using h2
        simp only [h1', h2']
        refine ⟨?_, ?_, ?_⟩
        · simp only [Bool.false_eq_true, if_false]
          rw [List.pairwise_cons]
          exact ⟨fun p hp => hs.1 p hp, hs.2⟩
        · intro p hp t' ht'
          rcases List.mem_cons.mp hp with rfl | hp
          · rcases List.mem_append.mp ht' with ht' | ht'
            · exact hm t' ht'
            · simp only [List.mem_singleton] at ht'; subst ht'; exact ⟨h1', h2'⟩
          · exact h.mem p (by simp [hp]) t' ht'
        · intro p hp
          rcases List.mem_cons.mp hp with rfl | hp
          · obtain ⟨t0, ts0, e1, e2⟩ := hf
            simp only at e1 e2
            exact ⟨t0, ts0 ++ [t], by simp [e1], e2⟩
          · exact h.first p (by simp [hp])

/-- The step of the grouping loop. -/
def gstep (c : CEnv T P A) (m : List (A × List T)) (t : T) : List (A × List T) :=
  if !c.dropShapes && !c.shapeEmpty t then m
    else if (c.stops t).length < 2 then m
    else if !c.mots.contains (c.mot t) || !c.cfgMots.contains (c.mot t) then m
    else mapAdd c.lt (c.rAttrs t) t m

theorem gstep_eq (c : CEnv T P A) (m : List (A × List T)) (t : T) :
    gstep c m t = if needsShape c t then mapAdd c.lt (c.rAttrs t) t m else m := by
  have e : needsShape c t ↔ (c.dropShapes = true ∨ c.shapeEmpty t = true) ∧ 2 ≤ (c.stops t).length ∧
    c.mot t ∈ c.mots ∧ c.mot t ∈ c.cfgMots := Iff.rfl
  unfold gstep
  by_cases h : needsShape c t
  · obtain ⟨h1, h2, h3, h4⟩ := e.mp h
    have : (!c.dropShapes && !c.shapeEmpty t) = false := by
      rcases h1 with h1 | h1 <;> simp [h1]
    simp [h, this, Nat.not_lt.mpr h2, h3, h4]
  · simp only [h, if_false]
    split
    · rfl
    · rename_i g1
      split
      · rfl
      · rename_i g2
        split
        · rfl
        · rename_i g3
          exfalso; apply h; apply e.mpr
          simp at g1 g3
          refine ⟨?_, by omega, g3.1, g3.2⟩
          cases hd : c.dropShapes with
          | true => exact Or.inl rfl
          | false => exact Or.inr (g1 hd)

theorem groupTrips_eq (c : CEnv T P A) (feed : List T) :
    groupTrips c feed = (feed.filter fun t => decide (needsShape c t)).foldl
      (fun m t => mapAdd c.lt (c.rAttrs t) t m) [] := by
  have : ∀ m, feed.foldl (gstep c) m = (feed.filter fun t => decide (needsShape c t)).foldl
      (fun m t => mapAdd c.lt (c.rAttrs t) t m) m := by
    induction feed with
    | nil => intro m; rfl
    | cons t feed ih =>
      intro m
      simp only [List.foldl_cons, List.filter_cons]
      rw [gstep_eq]
      by_cases h : needsShape c t
      · simp only [h, if_true, decide_true, List.foldl_cons]; exact ih _
      · simp only [h, if_false, decide_false]; exact ih _
  exact this []

theorem groups_perm (c : CEnv T P A) (feed : List T) :
    ((groupTrips c feed).flatMap (·.2)).Perm (feed.filter fun t => decide (needsShape c t)) := by
  rw [groupTrips_eq]
  generalize (feed.filter fun t => decide (needsShape c t)) = l
  have : ∀ (m : List (A × List T)), ((l.foldl (fun m t => mapAdd c.lt (c.rAttrs t) t m) m).flatMap (·.2)).Perm
      (m.flatMap (·.2) ++ l) := by
    induction l with
    | nil => intro m; simp
    | cons t l ih =>
      intro m
      refine (ih _).trans ?_
      have := (mapAdd_perm c.lt (c.rAttrs t) t m).append_right l
      simpa [List.append_assoc] using this
  simpa using this []

theorem groups_inv (c : CEnv T P A) (sw : StrictWeak c.lt) (feed : List T) :
    GInv c (groupTrips c feed) := by
  rw [groupTrips_eq]
  generalize (feed.filter fun t => decide (needsShape c t)) = l
  have : ∀ (m : List (A × List T)), GInv c m →
      GInv c (l.foldl (fun m t => mapAdd c.lt (c.rAttrs t) t m) m) := by
    induction l with
    | nil => intro m h; exact h
    | cons t l ih => intro m h; exact ih _ (h.add sw t)
  exact this [] ⟨by simp, by simp, by simp⟩

/-! ### forests -/

variable [DecidableEq T]

def AllInv (c : CEnv T P A) (key : A) (forest : List (Trie T P A)) (trips : List T) : Prop :=
  ∃ logs : List (List (Op T A × Nat)), logs.length = forest.length ∧
    (∀ p ∈ forest.zip logs, Inv c.toEnv p.1 p.2 ∧ ∀ q ∈ p.2, q.1.a = key) ∧
    (logs.flatMap fun l => l.map (·.1.t)).Perm trips

theorem offer_spec (c : CEnv T P A) (hnear : ∀ p, c.near p p = true) (key : A) (t : T) :
    ∀ (forest : List (Trie T P A)) (trips : List T), AllInv c key forest trips →
      (offer c key t forest = some (false, forest)) ∨
      ∃ forest', offer c key t forest = some (true, forest') ∧ AllInv c key forest' (trips ++ [t]) := by
  intro forest
  induction forest with
  | nil => intro trips _; exact Or.inl rfl
  | cons tr rest ih =>
    intro trips ⟨logs, h1, h2, h3⟩
    match logs with
    | log :: logs =>
      obtain ⟨I, hk⟩ := h2 (tr, log) (by simp)
      rcases addTrip_spec c.toEnv hnear I ⟨t, key, c.timeEx, c.noTrie⟩ with ⟨h, _⟩ | ⟨tr', nid, h, F⟩
      · simp only at h
        rcases ih (logs.flatMap fun l => l.map (·.1.t))
          ⟨logs, by simpa using h1, fun p hp => h2 p (List.mem_cons_of_mem _ hp), List.Perm.refl _⟩ with
          g | ⟨f', g, logs', g1, g2, g3⟩
        · left; simp [offer, h, g]
        · right
          refine ⟨tr :: f', by simp [offer, h, g], log :: logs', by simp [g1], ?_, ?_⟩
          · intro p hp
            rcases List.mem_cons.mp hp with rfl | hp
            · exact ⟨I, hk⟩
            · exact g2 p hp
          · simp only [List.flatMap_cons] at h3 ⊢
            refine (g3.append_left _).trans ?_
            rw [← List.append_assoc]
            exact h3.append_right [t]
      · right
        simp only at h
        refine ⟨tr' :: rest, by simp [offer, h], (log ++ [(⟨t, key, c.timeEx, c.noTrie⟩, nid)]) :: logs,
          by simpa using h1, ?_, ?_⟩
        · intro p hp
          rcases List.mem_cons.mp hp with rfl | hp
          · refine ⟨F.inv, ?_⟩
            intro q hq
            rcases List.mem_append.mp hq with hq | hq
            · exact hk q hq
            · simp only [List.mem_singleton] at hq; subst hq; rfl
          · exact h2 p (List.mem_cons_of_mem _ hp)
        · simp only [List.flatMap_cons, List.map_append, List.map_cons, List.map_nil,
            List.append_assoc] at h3 ⊢
          refine List.Perm.trans (List.Perm.append_left _ List.perm_append_comm) ?_
          rw [← List.append_assoc]
          exact h3.append_right [t]

theorem clusterTrip_spec (c : CEnv T P A) (hnear : ∀ p, c.near p p = true) (key : A) (t : T)
    (ht : c.stops t ≠ []) {forest : List (Trie T P A)} {trips : List T} (h : AllInv c key forest trips) :
    ∃ forest', clusterTrip c key forest t = some forest' ∧ AllInv c key forest' (trips ++ [t]) := by
  rcases offer_spec c hnear key t forest trips h with g | ⟨f', g, a⟩
  · rcases addTrip_spec c.toEnv hnear (Inv.empty c.toEnv) ⟨t, key, c.timeEx, false⟩ with
      ⟨_, h' | h' | h'⟩ | ⟨tr', nid, h', F⟩
    · exact absurd h' ht
    · cases h'
    · exact absurd rfl h'
    · simp only at h'
      obtain ⟨logs, h1, h2, h3⟩ := h
      refine ⟨forest ++ [tr'], by simp [clusterTrip, g, h'],
        logs ++ [[(⟨t, key, c.timeEx, false⟩, nid)]], by simp [h1], ?_, ?_⟩
      · intro p hp
        rw [List.zip_append h1.symm] at hp
        rcases List.mem_append.mp hp with hp | hp
        · exact h2 p hp
        · simp only [List.zip_cons_cons, List.zip_nil_left, List.mem_singleton] at hp
          subst hp
          refine ⟨F.inv, ?_⟩
          intro q hq
          simp only [List.mem_singleton] at hq; subst hq; rfl
      · simp only [List.flatMap_append, List.flatMap_cons, List.flatMap_nil, List.append_nil,
          List.map_cons, List.map_nil]
        exact h3.append_right [t]
  · exact ⟨f', by simp [clusterTrip, g], a⟩

/-! ### distribution -/

theorem distribute_spec (n : Nat) (hn : 0 < n) : ∀ (k : Nat) (done : Nat) (attrs : List (List Nat)),
    attrs.length = n → (∀ j, j < n → attrs[j]? = some ((List.range done).filter fun g => g % n = j)) →
    ∃ attrs', distribute n (List.range' done k) (done % n) attrs = some attrs' ∧ attrs'.length = n ∧
      ∀ j, j < n → attrs'[j]? = some ((List.range (done + k)).filter fun g => g % n = j) := by
  intro k
  induction k with
  | zero => intro done attrs h1 h2; exact ⟨attrs, rfl, h1, h2⟩
  | succ k ih =>
    intro done attrs h1 h2
    have hm := Nat.mod_lt done hn
    have hnext : (if done % n + 1 = n then 0 else done % n + 1) = (done + 1) % n := by
      split
      · rename_i h
        rw [Nat.add_mod, ← Nat.add_mod_mod]
        have : (done % n + 1) % n = 0 := by rw [h]; exact Nat.mod_self n
        simpa [Nat.add_mod] using this.symm
      · rename_i h
        have : (done % n + 1) % n = done % n + 1 := Nat.mod_eq_of_lt (by omega)
        rw [← this]; simp [Nat.add_mod]
    have key : ∀ j, j < n →
        (attrs.set (done % n) (((List.range done).filter fun g => g % n = done % n) ++ [done]))[j]? =
        some ((List.range (done + 1)).filter fun g => g % n = j) := by
      intro j hj
      rw [List.range_succ, List.filter_append]
      by_cases h : j = done % n
      · subst h
        rw [List.getElem?_set_self (by omega)]
        simp
      · rw [List.getElem?_set_ne (fun e => h e.symm), h2 j hj]
        simp [Ne.symm h]
    obtain ⟨a', g1, g2, g3⟩ := ih (done + 1) _ (by simp [h1]) key
    refine ⟨a', ?_, g2, by intro j hj; rw [g3 j hj, Nat.add_right_comm done 1 k]; rfl⟩
    rw [List.range'_succ]
    simp only [distribute, pushAt, h2 _ hm, hnext]
    exact g1

/-! ### schedules -/

omit [DecidableEq T] in
theorem todo_filter (groups : List (A × List T)) (gs : List Nat) (hn : gs.Nodup) (g : Nat) :
    ((todo groups gs).filter fun p => p.1 = g).map (·.2) =
      if g ∈ gs then (groups[g]?.map (·.2)).getD [] else [] := by
  induction gs with
  | nil => rfl
  | cons k gs ih =>
    have hn' := List.nodup_cons.mp hn
    simp only [todo, List.flatMap_cons, List.filter_append, List.map_append] at ih ⊢
    rw [ih hn'.2]
    by_cases h : k = g
    · subst h
      simp only [hn'.1, if_false, List.append_nil, List.mem_cons, true_or, if_true]
      unfold groupItems
      cases groups[k]? with
      | none => rfl
      | some p => simp [List.filter_map, Function.comp_def]
    · have : ((groupItems groups k).filter fun p => p.1 = g) = [] := by
        unfold groupItems
        cases groups[k]? with
        | none => rfl
        | some p => simp [h]
      rw [this]
      simp [Ne.symm h]

structure SInv (c : CEnv T P A) (groups : List (A × List T)) (n : Nat) (init s : CSys T P A)
    (done : Nat → List T) : Prop where
  len : s.pend.length = n
  flen : s.forests.length = groups.length
  other : ∀ (i : Nat) l g t, s.pend[i]? = some l → (g, t) ∈ l → g % n = i ∧ g < groups.length
  split : ∀ g, g < groups.length → ∀ l, s.pend[g % n]? = some l →
    done g ++ (l.filter fun p => p.1 = g).map (·.2) = (groups[g]?.map (·.2)).getD []
  forest : ∀ (g : Nat) key ts, groups[g]? = some (key, ts) → ∃ f, s.forests[g]? = some f ∧
    AllInv c key f (done g) ∧ (done g).foldlM (clusterTrip c key) [] = some f

theorem SInv.step {c : CEnv T P A} (hnear : ∀ p, c.near p p = true) {groups : List (A × List T)}
    (hst : ∀ p ∈ groups, ∀ t ∈ p.2, c.stops t ≠ []) {n : Nat} {init s : CSys T P A} {done}
    (h : SInv c groups n init s done) (i : Nat) :
    ∃ s' done', cstep c groups s i = some s' ∧ SInv c groups n init s' done' ∧
      (∀ j : Nat, s'.pend[j]? = (s.pend[j]?).map fun l => if j = i then l.drop 1 else l) := by
  cases hp : s.pend[i]? with
  | none =>
    refine ⟨s, done, by simp [cstep, hp], h, ?_⟩
    intro j
    by_cases e : j = i
    · subst e; simp [hp]
    · cases s.pend[j]? <;> simp [e]
  | some l =>
    match l with
    | [] =>
      refine ⟨s, done, by simp [cstep, hp], h, ?_⟩
      intro j
      by_cases e : j = i
      · subst e; simp [hp]
      · cases s.pend[j]? <;> simp [e]
    | (g, t) :: rest =>
      obtain ⟨hg, hgl⟩ := h.other i _ g t hp (by simp)
      have hsplit := h.split g hgl _ (hg ▸ hp)
      obtain ⟨⟨key, ts⟩, hge⟩ : ∃ p, groups[g]? = some p := ⟨_, List.getElem?_eq_getElem hgl⟩
      rw [hge] at hsplit
      simp only [Option.map_some, Option.getD_some, List.filter_cons, decide_true, if_true,
        List.map_cons] at hsplit
      obtain ⟨f, hf, a, hfold⟩ := h.forest g key ts hge
      have ht : c.stops t ≠ [] := by
        apply hst (key, ts) (List.mem_of_getElem? hge) t
        show t ∈ ts
        rw [← hsplit]; simp
      obtain ⟨f', hf', a'⟩ := clusterTrip_spec c hnear key t ht a
      have hil : i < s.pend.length := (List.getElem?_eq_some_iff.mp hp).1
      have hfl : g < s.forests.length := by rw [h.flen]; exact hgl
      refine ⟨⟨s.forests.set g f', s.pend.set i rest⟩, fun k => if k = g then done k ++ [t] else done k,
        by simp [cstep, hp, hge, hf, hf'], ⟨?_, ?_, ?_, ?_, ?_⟩, ?_⟩
      · simpa using h.len
      · simpa using h.flen
      · intro j l k u hj hku
        by_cases e : j = i
        · subst e
          simp only [List.getElem?_set_self hil, Option.some.injEq] at hj
          subst hj
          exact h.other j _ k u hp (by simp [hku])
        · rw [List.getElem?_set_ne (fun x => e x.symm)] at hj
          exact h.other j l k u hj hku
      · intro k hkl l hl
        by_cases e : k = g
        · subst e
          simp only [if_true]
          rw [hg, List.getElem?_set_self hil] at hl
          cases hl
          rw [hge]
          simp only [Option.map_some, Option.getD_some, ← hsplit, List.append_assoc, List.singleton_append]
        · simp only [e, if_false]
          by_cases e' : k % n = i
          · rw [e', List.getElem?_set_self hil] at hl
            cases hl
            have := h.split k hkl _ (e' ▸ hp)
            simpa [List.filter_cons, Ne.symm e] using this
          · rw [List.getElem?_set_ne (fun x => e' x.symm)] at hl
            exact h.split k hkl l hl
      · intro k key' ts' hk'
        by_cases e : k = g
        · subst e
          rw [hge] at hk'
          cases hk'
          refine ⟨f', List.getElem?_set_self hfl, by simpa using a', ?_⟩
          simp only [if_true, List.foldlM_append, hfold]
          simp [hf']
        · obtain ⟨f0, g1, g2⟩ := h.forest k key' ts' hk'
          refine ⟨f0, by rw [List.getElem?_set_ne (fun x => e x.symm)]; exact g1, ?_⟩
          simpa only [e, if_false] using g2
      · intro j
        by_cases e : j = i
        · subst e; simp [List.getElem?_set_self hil, hp]
        · simp only [List.getElem?_set_ne (fun x => e x.symm)]
          cases s.pend[j]? <;> simp [e]

theorem SInv.run {c : CEnv T P A} (hnear : ∀ p, c.near p p = true) {groups : List (A × List T)}
    (hst : ∀ p ∈ groups, ∀ t ∈ p.2, c.stops t ≠ []) {n : Nat} {init : CSys T P A} :
    ∀ (sched : List Nat) (s : CSys T P A) (done), SInv c groups n init s done →
    ∃ s' done', crun c groups sched s = some s' ∧ SInv c groups n init s' done' ∧
      ∀ j : Nat, s'.pend[j]? = (s.pend[j]?).map fun l => l.drop (sched.count j) := by
  intro sched
  induction sched with
  | nil => intro s done h; exact ⟨s, done, rfl, h, by intro j; cases s.pend[j]? <;> simp⟩
  | cons i sched ih =>
    intro s done h
    obtain ⟨s1, d1, h1, h2, h3⟩ := h.step hnear hst i
    obtain ⟨s2, d2, g1, g2, g3⟩ := ih s1 d1 h2
    refine ⟨s2, d2, by simp [crun, h1, g1], g2, ?_⟩
    intro j
    rw [g3 j, h3 j, Option.map_map]
    congr 1
    funext l
    by_cases e : j = i
    · subst e; simp
    · simp [e, Ne.symm e]

theorem init_spec (c : CEnv T P A) (n : Nat) (hn : 0 < n) (feed : List T) :
    ∃ s, cinit c n feed = some s ∧ SInv c (groupTrips c feed) n s s fun _ => [] := by
  obtain ⟨attrs, h1, h2, h3⟩ := distribute_spec n hn (groupTrips c feed).length 0 (List.replicate n [])
    (by simp) (by intro j hj; simp [hj])
  rw [← List.range_eq_range', Nat.zero_mod] at h1
  refine ⟨⟨(groupTrips c feed).map fun _ => [], attrs.map (todo (groupTrips c feed))⟩,
    by simp [cinit, h1], ?_, ?_, ?_, ?_, ?_⟩
  · simp [h2]
  · simp
  · intro i l g t hl hgt
    simp only [List.getElem?_map, Option.map_eq_some_iff] at hl
    obtain ⟨gs, hgs, rfl⟩ := hl
    have hi : i < n := by rw [← h2]; exact (List.getElem?_eq_some_iff.mp hgs).1
    rw [h3 i hi] at hgs
    cases hgs
    simp only [todo, List.mem_flatMap] at hgt
    obtain ⟨k, hk, hk'⟩ := hgt
    simp only [List.mem_filter, List.mem_range, Nat.zero_add, decide_eq_true_eq] at hk
    unfold groupItems at hk'
    cases hgk : (groupTrips c feed)[k]? with
    | none => rw [hgk] at hk'; simp at hk'
    | some p =>
      rw [hgk] at hk'
      simp only [List.mem_map, Prod.mk.injEq] at hk'
      obtain ⟨_, _, rfl, _⟩ := hk'
      exact ⟨hk.2, hk.1⟩
  · intro g hg l hl
    have hm := Nat.mod_lt g hn
    simp only [List.getElem?_map, h3 _ hm, Option.map_some, Option.some.injEq] at hl
    subst hl
    rw [List.nil_append, todo_filter _ _ (List.nodup_range.filter _)]
    simp [hg]
  · intro g key ts hg
    refine ⟨[], by simp [hg], ⟨[], rfl, by simp, by simp⟩, rfl⟩

theorem filings_perm {env : Env T P A} {tr : Trie T P A} {log} (I : Inv env tr log) :
    (filings tr).Perm (log.map (·.1.t)) := by
  have hd : ∀ (n : Nat) (log : List (Op T A × Nat)), (∀ p ∈ log, p.2 < n) →
      ((List.range n).flatMap fun j => (log.filter fun p => p.2 = j).map (·.1.t)).Perm
        (log.map (·.1.t)) := by
    intro n
    induction n with
    | zero =>
      intro log h
      match log with
      | [] => simp
      | p :: _ => exact absurd (h p (by simp)) (by omega)
    | succ n ih =>
      intro log h
      rw [List.range_succ, List.flatMap_append]
      simp only [List.flatMap_cons, List.flatMap_nil, List.append_nil]
      have h1 := ih (log.filter fun p => !decide (p.2 = n)) (by
        intro p hp
        obtain ⟨a, b⟩ := List.mem_filter.mp hp
        have := h p a
        simp at b
        omega)
      have h2 : ((List.range n).flatMap fun j => (log.filter fun p => p.2 = j).map (·.1.t)) =
          ((List.range n).flatMap fun j =>
            ((log.filter fun p => !decide (p.2 = n)).filter fun p => p.2 = j).map (·.1.t)) := by
        apply flatMap_congr'
        intro j hj
        rw [List.filter_filter]
        congr 1
        apply List.filter_congr
        intro p _
        have := List.mem_range.mp hj
        by_cases e : p.2 = j
        · simp [e]; omega
        · simp [e]
      rw [h2]
      refine (h1.append_right _).trans ?_
      rw [← List.map_append]
      apply List.Perm.map
      exact (List.perm_append_comm).trans (List.filter_append_perm (fun p => decide (p.2 = n)) log)
  have e : filings tr = (List.range tr.nds.length).flatMap fun j =>
      (log.filter fun p => p.2 = j).map (·.1.t) := by
    unfold filings
    apply flatMap_congr'
    intro j _
    exact I.ndTrips j
  rw [e]
  exact hd _ log I.lt

theorem allInv_filings {c : CEnv T P A} {key : A} {forest : List (Trie T P A)} {trips : List T}
    (h : AllInv c key forest trips) : (forest.flatMap filings).Perm trips := by
  obtain ⟨logs, h1, h2, h3⟩ := h
  refine List.Perm.trans ?_ h3
  clear h3
  induction forest generalizing logs with
  | nil => match logs with
    | [] => simp
  | cons tr forest ih =>
    match logs with
    | log :: logs =>
      simp only [List.flatMap_cons]
      exact (filings_perm (h2 (tr, log) (by simp)).1).append
        (ih logs (by simpa using h1) fun p hp => h2 p (List.mem_cons_of_mem _ hp))

/-! ### C12 -/

/-- A schedule that lets every thread finish. -/
def Complete (s : CSys T P A) (sched : List Nat) : Prop :=
  ∀ (i : Nat) l, s.pend[i]? = some l → l.length ≤ sched.count i

omit [DecidableEq T] in
theorem group_stops {c : CEnv T P A} {feed : List T} :
    ∀ p ∈ groupTrips c feed, ∀ t ∈ p.2, c.stops t ≠ [] := by
  intro p hp t ht
  have : t ∈ (groupTrips c feed).flatMap (·.2) := List.mem_flatMap.mpr ⟨p, hp, ht⟩
  have := (groups_perm c feed).mem_iff.mp this
  have := (List.mem_filter.mp this).2
  have h2 := (of_decide_eq_true this).2.1
  intro h; rw [h] at h2; simp at h2

theorem sched_end {c : CEnv T P A} {feed : List T} {n : Nat} {s s' : CSys T P A} {done}
    (h : SInv c (groupTrips c feed) n s s' done) (hn : 0 < n)
    (hpend : ∀ (i : Nat) l, s'.pend[i]? = some l → l = []) :
    ∀ g, g < (groupTrips c feed).length →
      done g = ((groupTrips c feed)[g]?.map (·.2)).getD [] := by
  intro g hg
  have hm := Nat.mod_lt g hn
  have hl : g % n < s'.pend.length := by rw [h.len]; exact hm
  have := h.split g hg _ (List.getElem?_eq_getElem hl)
  rw [hpend _ _ (List.getElem?_eq_getElem hl)] at this
  simpa using this

theorem flatMap_perm_pointwise {α β : Type} {γ : Type} (f : α → List γ) (g : β → List γ) :
    ∀ (l : List α) (m : List β), l.length = m.length →
      (∀ (i : Nat) x y, l[i]? = some x → m[i]? = some y → (f x).Perm (g y)) →
      (l.flatMap f).Perm (m.flatMap g) := by
  intro l
  induction l with
  | nil => intro m h _; match m with
    | [] => simp
  | cons x l ih =>
    intro m h h2
    match m with
    | y :: m =>
      simp only [List.flatMap_cons]
      exact (h2 0 x y rfl rfl).append (ih m (by simpa using h) fun i a b ha hb => h2 (i + 1) a b ha hb)

/-- C12. With at least one thread and under every schedule clustering never runs into
undefined behaviour, and when all threads are done: the filings of all nodes of all
tries are, with multiplicity, the trips that need a shape; there is one forest per
group, the forest of a group contains exactly the trips of the group, all of whose
attributes are equivalent to the key, and keys of different groups are not equivalent. -/
theorem C12_each_trip_once (c : CEnv T P A) (hnear : ∀ p, c.near p p = true) (sw : StrictWeak c.lt)
    (feed : List T) (n : Nat) (hn : 0 < n) :
    ∃ s, cinit c n feed = some s ∧ ∀ sched, ∃ s', crun c (groupTrips c feed) sched s = some s' ∧
      (Complete s sched →
        (s'.forests.flatMap fun f => f.flatMap filings).Perm
            (feed.filter fun t => decide (needsShape c t)) ∧
        s'.forests.length = (groupTrips c feed).length ∧
        (∀ (g : Nat) key ts f, (groupTrips c feed)[g]? = some (key, ts) → s'.forests[g]? = some f →
          (f.flatMap filings).Perm ts ∧ ∀ t ∈ ts, equiv c (c.rAttrs t) key) ∧
        (groupTrips c feed).Pairwise fun p q => ¬ equiv c p.1 q.1) := by
  obtain ⟨s, h1, h2⟩ := init_spec c n hn feed
  refine ⟨s, h1, fun sched => ?_⟩
  obtain ⟨s', done, g1, g2, g3⟩ := h2.run hnear group_stops sched
  refine ⟨s', g1, fun hc => ?_⟩
  have hpend : ∀ (i : Nat) l, s'.pend[i]? = some l → l = [] := by
    intro i l hl
    rw [g3 i] at hl
    simp only [Option.map_eq_some_iff] at hl
    obtain ⟨l0, e1, e2⟩ := hl
    rw [← e2]; exact List.drop_of_length_le (hc i l0 e1)
  have hdone := sched_end g2 hn hpend
  have hG := groups_inv c sw feed
  have each : ∀ (g : Nat) key ts f, (groupTrips c feed)[g]? = some (key, ts) → s'.forests[g]? = some f →
      (f.flatMap filings).Perm ts := by
    intro g key ts f e1 e2
    obtain ⟨f', e3, e4, _⟩ := g2.forest g key ts e1
    rw [e2] at e3; cases e3
    rw [hdone g (List.getElem?_eq_some_iff.mp e1).1, e1] at e4
    exact allInv_filings e4
  refine ⟨?_, g2.flen, ?_, ?_⟩
  · refine List.Perm.trans ?_ (groups_perm c feed)
    apply flatMap_perm_pointwise _ _ _ _ g2.flen
    intro i f p e1 e2
    exact each i p.1 p.2 f e2 e1
  · intro g key ts f e1 e2
    exact ⟨each g key ts f e1 e2, hG.mem (key, ts) (List.mem_of_getElem? e1)⟩
  · refine hG.sorted.imp ?_
    intro p q h e
    rw [e.1] at h; cases h

/-- C12. The result does not depend on the number of threads or the schedule: the
forest of each group is the one obtained by inserting its trips one after the other. -/
theorem C12_schedule_independent (c : CEnv T P A) (hnear : ∀ p, c.near p p = true)
    (feed : List T) (n : Nat) (hn : 0 < n) :
    ∃ s, cinit c n feed = some s ∧ ∀ sched, Complete s sched →
      ∃ s', crun c (groupTrips c feed) sched s = some s' ∧
        ∀ (g : Nat) key ts, (groupTrips c feed)[g]? = some (key, ts) →
          s'.forests[g]? = ts.foldlM (clusterTrip c key) [] := by
  obtain ⟨s, h1, h2⟩ := init_spec c n hn feed
  refine ⟨s, h1, fun sched hc => ?_⟩
  obtain ⟨s', done, g1, g2, g3⟩ := h2.run hnear group_stops sched
  refine ⟨s', g1, ?_⟩
  have hpend : ∀ (i : Nat) l, s'.pend[i]? = some l → l = [] := by
    intro i l hl
    rw [g3 i] at hl
    simp only [Option.map_eq_some_iff] at hl
    obtain ⟨l0, e1, e2⟩ := hl
    rw [← e2]; exact List.drop_of_length_le (hc i l0 e1)
  intro g key ts e1
  obtain ⟨f, e3, _, e5⟩ := g2.forest g key ts e1
  have hd := sched_end g2 hn hpend g (List.getElem?_eq_some_iff.mp e1).1
  rw [e1] at hd
  rw [hd] at e5
  rw [e3]; exact e5.symm

omit [DecidableEq T] in
/-- C12, limit. `std::thread::hardware_concurrency()` may return 0 (the number of
threads is unknown). Then the first group is put into a vector that does not exist:
undefined behaviour as soon as one trip needs a shape. -/
theorem C12_limit_no_threads (c : CEnv T P A) (feed : List T) (t : T) (ht : t ∈ feed)
    (h : needsShape c t) : cinit c 0 feed = none := by
  have : t ∈ (groupTrips c feed).flatMap (·.2) :=
    (groups_perm c feed).mem_iff.mpr (List.mem_filter.mpr ⟨ht, by simpa using h⟩)
  obtain ⟨p, hp, _⟩ := List.mem_flatMap.mp this
  cases hg : groupTrips c feed with
  | nil => rw [hg] at hp; exact absurd hp List.not_mem_nil
  | cons q m =>
    have : List.range (m.length + 1) = 0 :: (List.range m.length).map Nat.succ := List.range_succ_eq_map
    simp [cinit, hg, this, distribute, pushAt]

/-- C27, limit in clustering: every trip of a group is inserted with the attributes of
the group's first trip, so the attributes of every node are merged from copies of
these; the destinations of the other trips never get in. -/
theorem C27_cluster_first_attrs (c : CEnv T P A) (hnear : ∀ p, c.near p p = true)
    (sw : StrictWeak c.lt) (feed : List T) (n : Nat) (hn : 0 < n) :
    ∃ s, cinit c n feed = some s ∧ ∀ sched, ∃ s', crun c (groupTrips c feed) sched s = some s' ∧
      ∀ (g : Nat) key ts f, (groupTrips c feed)[g]? = some (key, ts) → s'.forests[g]? = some f →
        (∃ t0 rest, ts = t0 :: rest ∧ key = c.rAttrs t0) ∧
        ∀ tr ∈ f, ∀ (i : Nat) nd, i ≠ 0 → tr.nds[i]? = some nd →
          ∃ m, nd.attrs = (List.replicate m key).foldl c.merge key := by
  obtain ⟨s, h1, h2⟩ := init_spec c n hn feed
  refine ⟨s, h1, fun sched => ?_⟩
  obtain ⟨s', done, g1, g2, g3⟩ := h2.run hnear group_stops sched
  refine ⟨s', g1, ?_⟩
  intro g key ts f e1 e2
  obtain ⟨t0, rest, k1, k2⟩ := (groups_inv c sw feed).first _ (List.mem_of_getElem? e1)
  refine ⟨⟨t0, rest, k1, k2⟩, ?_⟩
  obtain ⟨f', e3, ⟨logs, l1, l2, _⟩, _⟩ := g2.forest g key ts e1
  rw [e2] at e3; cases e3
  intro tr htr i nd h0 hnd
  obtain ⟨k, hk, rfl⟩ := List.mem_iff_getElem.mp htr
  have hz : (f[k], logs[k]'(by omega)) ∈ f.zip logs := by
    rw [List.mem_iff_getElem]
    exact ⟨k, by simp; omega, by simp⟩
  obtain ⟨I, hall⟩ := l2 _ hz
  obtain ⟨_, _, x, tl, q1, q2⟩ := I.stat.1 i nd h0 hnd
  have hkey : ∀ y ∈ Hist c.toEnv f[k].nds (logs[k]'(by omega)) i, y.1 = key := by
    intro y hy
    simp only [Hist, List.mem_map] at hy
    obtain ⟨z, hz, rfl⟩ := hy
    simp only [hits, List.mem_flatMap, List.mem_filterMap] at hz
    obtain ⟨⟨op, nid⟩, hlog, ⟨_, _⟩, _, hz⟩ := hz
    split at hz
    · cases hz
      exact hall _ (List.mem_filter.mp hlog).1
    · cases hz
  refine ⟨tl.length, ?_⟩
  rw [q2, hkey x (by simp only [] at q1; rw [q1]; simp)]
  congr 1
  rw [List.eq_replicate_iff]
  refine ⟨by simp, ?_⟩
  intro b hb
  obtain ⟨y, hy, rfl⟩ := List.mem_map.mp hb
  exact hkey y (by simp only [] at q1; rw [q1]; simp [hy])

/-! ### non-vacuity -/

/-- attributes: (group, destinations) -/
def exC : CEnv Nat Nat (Nat × List Nat) :=
  { stops := exEnv.stops
    near := exEnv.near
    merge := fun a b => (a.1, (a.2 ++ b.2).eraseDups)
    emptySecs := 3660
    rootPos := 0
    rootAttrs := (0, [])
    lt := fun a b => decide (a.1 < b.1)
    rAttrs := fun t => (if t = 2 then 2 else 1, [t])
    shapeEmpty := fun t => t ≠ 3
    mot := fun _ => 3
    dropShapes := false
    mots := [2, 3]
    cfgMots := [3]
    timeEx := false
    noTrie := false }

example : ∀ p, exC.near p p = true := by intro p; simp [exC, exEnv]
example : StrictWeak exC.lt :=
  ⟨by simp [exC], by simp [exC]; omega, by simp [exC]; omega⟩
example : groupTrips exC [0, 1, 2, 3] = [((1, [0]), [0, 1]), ((2, [2]), [2])] := by decide +kernel
example : ((cinit exC 2 [0, 1, 2, 3]).bind (crun exC (groupTrips exC [0, 1, 2, 3]) [0, 1, 0, 1])).map
    (fun s => (s.forests.map fun f => f.map filings, s.pend)) =
    some ([[[0, 1]], [[2]]], [[], []]) := by decide +kernel

end Verif.Trie
