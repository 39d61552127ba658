import Verif.Net.Spec
import Verif.Shapes.WorkersLemmas

/-! # The transit network graph (lemmas) -/

namespace Verif.Net
open Verif.Shapes.Workers (flatMap_upd_perm)

variable {E N P G T : Type} [DecidableEq E] [DecidableEq N]

/-! ### maps -/

/-- The entries of a map, one by one. -/
def flat (m : Map E T) : List (Option E × T) := m.flatMap fun p => p.2.map fun t => (p.1, t)

def Wf (m : Map E T) : Prop := (m.map (·.1)).Nodup ∧ ∀ p ∈ m, p.2 ≠ []

omit [DecidableEq N] in
theorem keys_insertAt (m : Map E T) (k : Option E) (ts : List T) (k' : Option E) :
    k' ∈ (insertAt m k ts).map (·.1) ↔ k' = k ∨ k' ∈ m.map (·.1) := by
  induction m with
  | nil => simp [insertAt]
  | cons p m ih =>
    obtain ⟨a, us⟩ := p
    unfold insertAt
    by_cases h : a = k
    · rw [if_pos h]; subst h; simp
    · rw [if_neg h]
      simp only [List.map_cons, List.mem_cons]
      rw [ih]
      constructor
      · rintro (h | h | h) <;> simp_all
      · rintro (h | h | h) <;> simp_all

omit [DecidableEq N] in
theorem wf_insertAt {m : Map E T} (h : Wf m) (k : Option E) {ts : List T} (ht : ts ≠ []) : Wf (insertAt m k ts) := by
  induction m with
  | nil => exact ⟨by simp [insertAt], by simpa [insertAt] using ht⟩
  | cons p m ih =>
    obtain ⟨a, us⟩ := p
    have hc := List.nodup_cons.1 h.1
    have ih := ih ⟨hc.2, fun p hp => h.2 p (List.mem_cons_of_mem _ hp)⟩
    unfold insertAt
    by_cases hk : a = k
    · rw [if_pos hk]
      refine ⟨h.1, ?_⟩
      intro p hp
      rcases List.mem_cons.1 hp with rfl | hp
      · simp [ht]
      · exact h.2 p (List.mem_cons_of_mem _ hp)
    · rw [if_neg hk]
      refine ⟨?_, ?_⟩
      · rw [List.map_cons, List.nodup_cons]
        refine ⟨?_, ih.1⟩
        rw [keys_insertAt]
        rintro (h' | h')
        · exact hk h'
        · exact hc.1 h'
      · intro p hp
        rcases List.mem_cons.1 hp with rfl | hp
        · exact h.2 (a, us) (List.mem_cons_self ..)
        · exact ih.2 p hp

omit [DecidableEq N] in
theorem flat_insertAt (m : Map E T) (k : Option E) (ts : List T) : (flat (insertAt m k ts)).Perm (ts.map (fun t => (k, t)) ++ flat m) := by
  induction m with
  | nil => simp [insertAt, flat]
  | cons p m ih =>
    obtain ⟨a, us⟩ := p
    unfold insertAt
    by_cases hk : a = k
    · rw [if_pos hk]; subst hk
      simp [flat]
    · rw [if_neg hk]
      have : flat ((a, us) :: insertAt m k ts) = us.map (fun t => (a, t)) ++ flat (insertAt m k ts) := rfl
      rw [this]
      have : flat ((a, us) :: m) = us.map (fun t => (a, t)) ++ flat m := rfl
      rw [this]
      refine (ih.append_left _).trans ?_
      rw [← List.append_assoc, ← List.append_assoc]
      exact List.perm_append_comm.append_right _

/-- The entry of a key holds the trips filed under it. -/
theorem entry_perm {m : Map E T} (h : Wf m) {k : Option E} {ts : List T} (hm : (k, ts) ∈ m) :
    (((flat m).filter fun p => decide (p.1 = k)).map (·.2)).Perm ts := by
  induction m with
  | nil => simp at hm
  | cons p m ih =>
    obtain ⟨a, us⟩ := p
    have hc := List.nodup_cons.1 h.1
    have hf : flat ((a, us) :: m) = us.map (fun t => (a, t)) ++ flat m := rfl
    rw [hf, List.filter_append, List.map_append]
    have none_of : ∀ (m : Map E T) (k : Option E), k ∉ m.map (·.1) → (flat m).filter (fun p => decide (p.1 = k)) = [] := by
      intro m k hk
      rw [List.filter_eq_nil_iff]
      intro q hq
      obtain ⟨r, hr, hq⟩ := List.mem_flatMap.1 hq
      obtain ⟨t, _, rfl⟩ := List.mem_map.1 hq
      simp only [decide_eq_true_eq]
      intro e
      exact hk (e ▸ List.mem_map.2 ⟨r, hr, rfl⟩)
    by_cases hk : a = k
    · subst hk
      rw [none_of m a hc.1]
      have : us = ts := by
        rcases List.mem_cons.1 hm with e | e
        · cases e; rfl
        · exact absurd (List.mem_map.2 ⟨_, e, rfl⟩) hc.1
      subst this
      have h1 : (us.map fun t => (a, t)).filter (fun p => decide (p.1 = a)) = us.map fun t => (a, t) := by
        rw [List.filter_eq_self]; intro q hq; obtain ⟨t, _, rfl⟩ := List.mem_map.1 hq; simp
      rw [h1, List.map_map]
      have h2 : us.map ((fun p : Option E × T => p.2) ∘ fun t => (a, t)) = us := by
        conv => rhs; rw [← List.map_id us]
        rfl
      rw [h2]; simp
    · have h1 : (us.map fun t => (a, t)).filter (fun p => decide (p.1 = k)) = [] := by
        rw [List.filter_eq_nil_iff]; intro q hq; obtain ⟨t, _, rfl⟩ := List.mem_map.1 hq; simp [hk]
      rw [h1]
      have hm' : (k, ts) ∈ m := by
        rcases List.mem_cons.1 hm with e | e
        · cases e; exact absurd rfl hk
        · exact e
      simpa using ih ⟨hc.2, fun p hp => h.2 p (List.mem_cons_of_mem _ hp)⟩ hm'

omit [DecidableEq E] [DecidableEq N] in
theorem flat_perm {m m' : Map E T} (h : m.Perm m') : (flat m).Perm (flat m') := h.flatMap_right _

omit [DecidableEq E] [DecidableEq N] in
theorem wf_perm {m m' : Map E T} (h : m.Perm m') (hw : Wf m) : Wf m' :=
  ⟨((h.map (·.1)).nodup_iff).1 hw.1, fun p hp => hw.2 p (h.mem_iff.2 hp)⟩

omit [DecidableEq E] [DecidableEq N] in
theorem key_iff {m : Map E T} (hw : Wf m) (k : Option E) : k ∈ m.map (·.1) ↔ ∃ t, (k, t) ∈ flat m := by
  constructor
  · intro h
    obtain ⟨p, hp, rfl⟩ := List.mem_map.1 h
    obtain ⟨t, ht⟩ := List.exists_mem_of_ne_nil _ (hw.2 p hp)
    exact ⟨t, List.mem_flatMap.2 ⟨p, hp, List.mem_map.2 ⟨t, ht, rfl⟩⟩⟩
  · rintro ⟨t, ht⟩
    obtain ⟨p, hp, h⟩ := List.mem_flatMap.1 ht
    obtain ⟨u, _, h⟩ := List.mem_map.1 h
    cases h
    exact List.mem_map.2 ⟨p, hp, rfl⟩

/-! ### one leaf -/

/-- The rides of a leaf, by key. -/
def keyed (g : Gr E N P G) (l : Leaf E T) : List (Option E × T) :=
  l.hops.flatten.flatMap fun x => l.trips.map fun t => (keyOf g x, t)

theorem write_flatten (g : Gr E N P G) (l : Leaf E T) (m : Map E T) :
    writeTransitGraph g l m = l.hops.flatten.foldl (fun m e => insertAt m (keyOf g e) l.trips) m := by
  unfold writeTransitGraph
  rw [List.foldl_flatten]

theorem write_aux (g : Gr E N P G) (ts : List T) (ht : ts ≠ []) :
    ∀ (xs : List E) (m : Map E T), Wf m →
      Wf (xs.foldl (fun m e => insertAt m (keyOf g e) ts) m) ∧
      (flat (xs.foldl (fun m e => insertAt m (keyOf g e) ts) m)).Perm ((xs.flatMap fun x => ts.map fun t => (keyOf g x, t)) ++ flat m)
  | [], m, h => ⟨h, by simp⟩
  | x :: xs, m, h => by
    obtain ⟨h1, h2⟩ := write_aux g ts ht xs _ (wf_insertAt h (keyOf g x) ht)
    refine ⟨h1, h2.trans ?_⟩
    rw [List.flatMap_cons]
    refine ((flat_insertAt m (keyOf g x) ts).append_left _).trans ?_
    rw [← List.append_assoc]
    exact List.perm_append_comm.append_right _

theorem write_ok (g : Gr E N P G) (l : Leaf E T) (ht : l.trips ≠ []) (m : Map E T) (h : Wf m) :
    Wf (writeTransitGraph g l m) ∧ (flat (writeTransitGraph g l m)).Perm (keyed g l ++ flat m) := by
  rw [write_flatten]
  exact write_aux g l.trips ht _ m h

/-! ### the workers -/

/-- What is filed or still to be filed. -/
def total (g : Gr E N P G) (forests : List (List (Leaf E T))) (W : Nat) (s : Sys E T) : List (Option E × T) :=
  (List.range W).flatMap (fun w => flat (s.thr w).map ++ (s.thr w).todo.flatMap (keyed g)) ++ (forests.drop s.next).flatten.flatMap (keyed g)

structure Inv (g : Gr E N P G) (forests : List (List (Leaf E T))) (W : Nat) (s : Sys E T) : Prop where
  wf : ∀ w, Wf (s.thr w).map
  todo : ∀ w, ∀ l ∈ (s.thr w).todo, l.trips ≠ []
  total : (total g forests W s).Perm (forests.flatten.flatMap (keyed g))
  stopped : ∀ w, (s.thr w).stopped = true → (s.thr w).todo = [] ∧ forests.length ≤ s.next

omit [DecidableEq E] [DecidableEq N] in
theorem setThr_same (s : Sys E T) (w : Nat) (t : Thr E T) : (setThr s w t).thr w = t := by simp [setThr]

omit [DecidableEq E] [DecidableEq N] in
theorem setThr_ne (s : Sys E T) {w v : Nat} (t : Thr E T) (h : v ≠ w) : (setThr s w t).thr v = s.thr v := by simp [setThr, h]

theorem inv_init (g : Gr E N P G) (forests : List (List (Leaf E T))) (W : Nat) : Inv g forests W init := by
  refine ⟨fun w => ⟨by simp [init], by simp [init]⟩, fun w l hl => by simp [init] at hl, ?_, fun w h => by simp [init] at h⟩
  have e : (List.range W).flatMap (fun _ => ([] : List (Option E × T))) = [] := List.flatMap_eq_nil_iff.2 fun _ _ => rfl
  simp [total, init, flat, e]

theorem inv_step (g : Gr E N P G) (forests : List (List (Leaf E T))) (hne : ∀ f ∈ forests, ∀ l ∈ f, l.trips ≠ []) (W : Nat) (s : Sys E T)
    (w : Nat) (hw : w < W) (h : Inv g forests W s) : Inv g forests W (step g forests s w) := by
  unfold step
  dsimp only
  by_cases hst : (s.thr w).stopped = true
  · rw [if_pos hst]; exact h
  rw [if_neg hst]
  have hrange : w ∈ List.range W := List.mem_range.2 hw
  cases htd : (s.thr w).todo with
  | cons l ls =>
    dsimp only
    have hl := h.todo w l (by rw [htd]; exact List.mem_cons_self ..)
    obtain ⟨h1, h2⟩ := write_ok g l hl _ (h.wf w)
    refine ⟨fun v => ?_, fun v x hx => ?_, ?_, fun v hv => ?_⟩
    · by_cases e : v = w
      · subst e; rw [setThr_same]; exact h1
      · rw [setThr_ne _ _ e]; exact h.wf v
    · by_cases e : v = w
      · subst e; rw [setThr_same] at hx
        exact h.todo v x (by rw [htd]; exact List.mem_cons_of_mem _ hx)
      · rw [setThr_ne _ _ e] at hx; exact h.todo v x hx
    · refine List.Perm.trans ?_ h.total
      refine List.Perm.append_right _ ?_
      refine flatMap_upd_perm (x := []) List.nodup_range hrange (fun v hv => ?_) ?_
      · rw [setThr_ne _ _ hv]
      · rw [setThr_same, htd]
        simp only [List.nil_append, List.flatMap_cons]
        refine (h2.append_right _).trans ?_
        rw [List.append_assoc]
        refine List.perm_append_comm.trans ?_
        rw [List.append_assoc]
        exact List.perm_append_comm.append_left _
    · by_cases e : v = w
      · subst e; rw [setThr_same] at hv; exact absurd hv hst
      · rw [setThr_ne _ _ e] at hv ⊢; exact h.stopped v hv
  | nil =>
    dsimp only
    cases hf : forests[s.next]? with
    | some f =>
      dsimp only
      have hlt := (List.getElem?_eq_some_iff.1 hf).1
      have hfe := (List.getElem?_eq_some_iff.1 hf).2
      refine ⟨fun v => ?_, fun v x hx => ?_, ?_, fun v hv => ?_⟩
      · show Wf ((setThr s w _).thr v).map
        by_cases e : v = w
        · subst e; rw [setThr_same]; exact h.wf v
        · rw [setThr_ne _ _ e]; exact h.wf v
      · have hx' : x ∈ ((setThr s w { s.thr w with todo := f }).thr v).todo := hx
        by_cases e : v = w
        · subst e; rw [setThr_same] at hx'
          exact hne f (hfe ▸ List.getElem_mem _) x hx'
        · rw [setThr_ne _ _ e] at hx'; exact h.todo v x hx'
      · refine List.Perm.trans ?_ h.total
        show ((List.range W).flatMap (fun v => flat ((setThr s w _).thr v).map ++ ((setThr s w _).thr v).todo.flatMap (keyed g)) ++
          (forests.drop (s.next + 1)).flatten.flatMap (keyed g)).Perm _
        unfold total
        have hd : forests.drop s.next = f :: forests.drop (s.next + 1) := by rw [List.drop_eq_getElem_cons hlt, hfe]
        rw [hd, List.flatten_cons, List.flatMap_append]
        rw [← List.append_assoc]
        refine List.Perm.append_right _ ?_
        refine (flatMap_upd_perm (x := f.flatMap (keyed g)) (g := fun v => flat (s.thr v).map ++ (s.thr v).todo.flatMap (keyed g))
          List.nodup_range hrange (fun v hv => ?_) ?_).trans List.perm_append_comm
        · rw [setThr_ne _ _ hv]
        · rw [setThr_same, htd]
          simpa using List.perm_append_comm
      · show ((setThr s w _).thr v).todo = [] ∧ _
        have hv' : ((setThr s w { s.thr w with todo := f }).thr v).stopped = true := hv
        by_cases e : v = w
        · subst e; rw [setThr_same] at hv'; exact absurd hv' hst
        · rw [setThr_ne _ _ e] at hv' ⊢
          exact ⟨(h.stopped v hv').1, by have := (h.stopped v hv').2; show forests.length ≤ s.next + 1; omega⟩
    | none =>
      dsimp only
      have hge := List.getElem?_eq_none_iff.1 hf
      refine ⟨fun v => ?_, fun v x hx => ?_, ?_, fun v hv => ?_⟩
      · show Wf ((setThr s w _).thr v).map
        by_cases e : v = w
        · subst e; rw [setThr_same]; exact h.wf v
        · rw [setThr_ne _ _ e]; exact h.wf v
      · have hx' : x ∈ ((setThr s w ⟨[], (s.thr w).map, true⟩).thr v).todo := hx
        by_cases e : v = w
        · subst e; rw [setThr_same] at hx'; cases hx'
        · rw [setThr_ne _ _ e] at hx'; exact h.todo v x hx'
      · refine List.Perm.trans ?_ h.total
        show ((List.range W).flatMap (fun v => flat ((setThr s w _).thr v).map ++ ((setThr s w _).thr v).todo.flatMap (keyed g)) ++
          (forests.drop (s.next + 1)).flatten.flatMap (keyed g)).Perm _
        unfold total
        rw [List.drop_eq_nil_of_le hge, List.drop_eq_nil_of_le (by omega)]
        refine List.Perm.append_right _ ?_
        refine flatMap_upd_perm (x := []) List.nodup_range hrange (fun v hv => ?_) ?_
        · rw [setThr_ne _ _ hv]
        · rw [setThr_same, htd]; exact .refl _
      · show ((setThr s w _).thr v).todo = [] ∧ _
        have hv' : ((setThr s w ⟨[], (s.thr w).map, true⟩).thr v).stopped = true := hv
        by_cases e : v = w
        · subst e; rw [setThr_same]; exact ⟨rfl, by show forests.length ≤ s.next + 1; omega⟩
        · rw [setThr_ne _ _ e] at hv' ⊢
          exact ⟨(h.stopped v hv').1, by show forests.length ≤ s.next + 1; omega⟩

theorem inv_run (g : Gr E N P G) (forests : List (List (Leaf E T))) (hne : ∀ f ∈ forests, ∀ l ∈ f, l.trips ≠ []) (W : Nat)
    (sched : List Nat) (hs : ∀ w ∈ sched, w < W) : Inv g forests W (run g forests sched) := by
  unfold run
  have : ∀ (sched : List Nat) (s : Sys E T), (∀ w ∈ sched, w < W) → Inv g forests W s → Inv g forests W (sched.foldl (step g forests) s) := by
    intro sched
    induction sched with
    | nil => intro s _ h; exact h
    | cons w l ih =>
      intro s hs h
      exact ih _ (fun v hv => hs v (List.mem_cons_of_mem _ hv)) (inv_step g forests hne W s w (hs w (List.mem_cons_self ..)) h)
  exact this sched _ hs (inv_init g forests W)

/-- After a complete run the maps hold all rides. -/
theorem complete_maps (g : Gr E N P G) (forests : List (List (Leaf E T))) (hne : ∀ f ∈ forests, ∀ l ∈ f, l.trips ≠ []) (W : Nat) (hW : 0 < W)
    (sched : List Nat) (hc : Complete g forests W sched) :
    ((List.range W).flatMap fun w => flat ((run g forests sched).thr w).map).Perm (forests.flatten.flatMap (keyed g)) := by
  have h := inv_run g forests hne W sched hc.1
  have hn := (h.stopped 0 (hc.2 0 hW)).2
  have ht := h.total
  unfold total at ht
  rw [List.drop_eq_nil_of_le hn] at ht
  simp only [List.flatten_nil, List.flatMap_nil, List.append_nil] at ht
  have e : ((List.range W).flatMap fun w => flat ((run g forests sched).thr w).map ++ ((run g forests sched).thr w).todo.flatMap (keyed g)) =
      (List.range W).flatMap fun w => flat ((run g forests sched).thr w).map := by
    rw [List.flatMap_def, List.flatMap_def]
    congr 1
    apply List.map_congr_left
    intro w hw
    rw [(h.stopped w (hc.2 w (List.mem_range.1 hw))).1]
    simp
  rw [e] at ht
  exact ht

/-! ### merging -/

omit [DecidableEq N] in
theorem merge_one : ∀ (m r : Map E T), (∀ p ∈ m, p.2 ≠ []) → Wf r →
    Wf (m.foldl (fun r p => insertAt r p.1 p.2) r) ∧ (flat (m.foldl (fun r p => insertAt r p.1 p.2) r)).Perm (flat m ++ flat r)
  | [], r, _, h => ⟨h, by simp [flat]⟩
  | p :: m, r, hm, h => by
    obtain ⟨h1, h2⟩ := merge_one m _ (fun q hq => hm q (List.mem_cons_of_mem _ hq)) (wf_insertAt h p.1 (hm p (List.mem_cons_self ..)))
    refine ⟨h1, h2.trans ?_⟩
    have : flat (p :: m) = p.2.map (fun t => (p.1, t)) ++ flat m := rfl
    rw [this]
    refine ((flat_insertAt r p.1 p.2).append_left _).trans ?_
    rw [← List.append_assoc]
    exact List.perm_append_comm.append_right _

omit [DecidableEq N] in
theorem merge_aux (order : Map E T → Map E T) (ho : ∀ m, (order m).Perm m) : ∀ (ms : List (Map E T)) (r : Map E T), (∀ m ∈ ms, Wf m) → Wf r →
    Wf (ms.foldl (fun r m => (order m).foldl (fun r p => insertAt r p.1 p.2) r) r) ∧
    (flat (ms.foldl (fun r m => (order m).foldl (fun r p => insertAt r p.1 p.2) r) r)).Perm (ms.flatMap flat ++ flat r)
  | [], r, _, h => ⟨h, by simp⟩
  | m :: ms, r, hm, h => by
    have hm0 := hm m (List.mem_cons_self ..)
    obtain ⟨a1, a2⟩ := merge_one (order m) r (wf_perm (ho m).symm hm0).2 h
    obtain ⟨h1, h2⟩ := merge_aux order ho ms _ (fun q hq => hm q (List.mem_cons_of_mem _ hq)) a1
    refine ⟨h1, h2.trans ?_⟩
    rw [List.flatMap_cons]
    refine ((a2.trans ((flat_perm (ho m)).append_right _)).append_left _).trans ?_
    rw [← List.append_assoc]
    exact List.perm_append_comm.append_right _

omit [DecidableEq N] in
theorem merge_ok (order : Map E T → Map E T) (ho : ∀ m, (order m).Perm m) (ms : List (Map E T)) (hm : ∀ m ∈ ms, Wf m) :
    Wf (merge order ms) ∧ (flat (merge order ms)).Perm (ms.flatMap flat) := by
  obtain ⟨h1, h2⟩ := merge_aux order ho ms [] hm ⟨by simp, by simp⟩
  exact ⟨h1, by simpa [flat, merge] using h2⟩

/-! ### names -/

theorem lt_or_eq_of_not_lt {x y : Name} (h1 : ¬ x < y) (h2 : ¬ y < x) : x = y := by
  rcases Std.lt_trichotomy x y with h | h | h
  · exact absurd h h1
  · exact h
  · exact absurd h h2

theorem mem_insName (x : Name) (l : List Name) (z : Name) : z ∈ insName x l ↔ z = x ∨ z ∈ l := by
  induction l with
  | nil => simp [insName]
  | cons y l ih =>
    unfold insName
    by_cases h1 : x < y
    · rw [if_pos h1]; simp
    · rw [if_neg h1]
      by_cases h2 : y < x
      · rw [if_pos h2, List.mem_cons, ih, List.mem_cons]
        constructor
        · rintro (h | h | h) <;> simp [h]
        · rintro (h | h | h) <;> simp [h]
      · rw [if_neg h2]
        have := lt_or_eq_of_not_lt h1 h2
        subst this
        simp

theorem sorted_insName (x : Name) (l : List Name) (h : l.Pairwise (· < ·)) : (insName x l).Pairwise (· < ·) := by
  induction l with
  | nil => simp [insName]
  | cons y l ih =>
    have hc := List.pairwise_cons.1 h
    unfold insName
    by_cases h1 : x < y
    · rw [if_pos h1]
      refine List.pairwise_cons.2 ⟨?_, h⟩
      intro z hz
      rcases List.mem_cons.1 hz with rfl | hz
      · exact h1
      · exact List.lt_trans h1 (hc.1 z hz)
    · rw [if_neg h1]
      by_cases h2 : y < x
      · rw [if_pos h2]
        refine List.pairwise_cons.2 ⟨?_, ih hc.2⟩
        intro z hz
        rcases (mem_insName x l z).1 hz with rfl | hz
        · exact h2
        · exact hc.1 z hz
      · rw [if_neg h2]; exact h

theorem names_ok (f : T → Name) : ∀ (ts : List T) (s : List Name), s.Pairwise (· < ·) →
    (ts.foldl (fun s t => insName (f t) s) s).Pairwise (· < ·) ∧
    ∀ x, x ∈ ts.foldl (fun s t => insName (f t) s) s ↔ x ∈ s ∨ ∃ t ∈ ts, x = f t
  | [], s, h => ⟨h, by simp⟩
  | t :: ts, s, h => by
    obtain ⟨h1, h2⟩ := names_ok f ts _ (sorted_insName (f t) s h)
    refine ⟨h1, fun x => ?_⟩
    rw [List.foldl_cons, h2 x, mem_insName]
    constructor
    · rintro ((rfl | h) | ⟨u, hu, rfl⟩)
      · exact Or.inr ⟨t, List.mem_cons_self .., rfl⟩
      · exact Or.inl h
      · exact Or.inr ⟨u, List.mem_cons_of_mem _ hu, rfl⟩
    · rintro (h | ⟨u, hu, rfl⟩)
      · exact Or.inl (Or.inr h)
      · rcases List.mem_cons.1 hu with rfl | hu
        · exact Or.inl (Or.inl rfl)
        · exact Or.inr ⟨u, hu, rfl⟩

end Verif.Net
