import Verif.Report.Lemmas

namespace Verif.Report

open Verif (FMap)
open Verif.Main (Code)

/-! ## The configurations that are used -/

theorem used_iff (env : Env) (x : In) (c : Cfg) :
    (usedPost env x c = none ↔ ¬ Used x c) ∧
    ∀ p, usedPost env x c = some p → Used x c ∧ p = if x.cfgs.length > 1 then fileName env (motISect c.mots x.mots) else [] := by
  have hmem : ∀ m, m ∈ motISect c.mots x.mots ↔ For x c m := fun m => isect_mem _ _ m
  unfold usedPost
  dsimp only
  by_cases h1 : (motISect c.mots x.mots).isEmpty
  · rw [if_pos h1]
    have : ¬ Used x c := by
      rintro ⟨⟨m, hm⟩, _⟩
      have := (hmem m).2 hm
      rw [List.isEmpty_iff.1 h1] at this
      cases this
    exact ⟨⟨fun _ => this, fun _ => rfl⟩, by intro p h; cases h⟩
  · rw [if_neg h1]
    have hex : ∃ m, For x c m := by
      cases hl : motISect c.mots x.mots with
      | nil => rw [hl] at h1; exact absurd rfl h1
      | cons m l => exact ⟨m, (hmem m).1 (by rw [hl]; simp)⟩
    cases ht : x.trip with
    | none =>
      have hu : Used x c := ⟨hex, by intro t h; rw [ht] at h; cases h⟩
      simp [hu]
    | some t =>
      by_cases h2 : t ∈ motISect c.mots x.mots
      · have hu : Used x c := ⟨hex, by intro t' h; rw [ht] at h; cases h; exact (hmem _).1 h2⟩
        simp [h2, hu]
      · have hu : ¬ Used x c := fun h => h2 ((hmem t).2 (h.2 t ht))
        simp [h2, hu]

/-- Number, ending of file names and configuration of all that are used. -/
def usedL (env : Env) (x : In) : List Cfg → Nat → List (Nat × Str × Cfg)
  | [], _ => []
  | c :: cs, i =>
    match usedPost env x c with
    | none => usedL env x cs (i + 1)
    | some p => (i, p, c) :: usedL env x cs (i + 1)

theorem usedL_map (env : Env) (x : In) (cs : List Cfg) (i : Nat) :
    (usedL env x cs i).map (·.2.2) = cs.filter (fun c => decide (Used x c)) := by
  induction cs generalizing i with
  | nil => rfl
  | cons c cs ih =>
    rw [usedL]
    have hu := used_iff env x c
    cases h : usedPost env x c with
    | none =>
      have := hu.1.1 h
      simp [this, ih]
    | some p =>
      have := (hu.2 p h).1
      simp [this, ih]

theorem usedL_mem (env : Env) (x : In) (cs : List Cfg) (i j : Nat) (p : Str) (c : Cfg) :
    (j, p, c) ∈ usedL env x cs i ↔ ∃ k, j = i + k ∧ cs[k]? = some c ∧ usedPost env x c = some p := by
  induction cs generalizing i with
  | nil => simp [usedL]
  | cons d cs ih =>
    have hrec : (∃ k, j = i + 1 + k ∧ cs[k]? = some c ∧ usedPost env x c = some p) ↔
        ∃ k, j = i + (k + 1) ∧ (d :: cs)[k + 1]? = some c ∧ usedPost env x c = some p := by
      simp only [List.getElem?_cons_succ]
      constructor <;> rintro ⟨k, hk, h⟩ <;> exact ⟨k, by omega, h⟩
    rw [usedL]
    cases h : usedPost env x d with
    | none =>
      dsimp only
      rw [ih, hrec]
      constructor
      · rintro ⟨k, h1, h2⟩; exact ⟨k + 1, h1, h2⟩
      · rintro ⟨k, h1, h2, h3⟩
        cases k with
        | zero =>
          simp only [List.getElem?_cons_zero, Option.some.injEq] at h2
          rw [h2, h3] at h
          cases h
        | succ k => exact ⟨k, h1, h2, h3⟩
    | some q =>
      dsimp only
      rw [List.mem_cons, ih, hrec]
      constructor
      · rintro (e | ⟨k, h1, h2⟩)
        · cases e
          exact ⟨0, rfl, rfl, h⟩
        · exact ⟨k + 1, h1, h2⟩
      · rintro ⟨k, h1, h2, h3⟩
        cases k with
        | zero =>
          simp only [List.getElem?_cons_zero, Option.some.injEq] at h2
          subst h2
          rw [h] at h3
          cases h3
          exact .inl (by rw [h1]; rfl)
        | succ k => exact .inr ⟨k, h1, h2, h3⟩

theorem usedL_sorted (env : Env) (x : In) (cs : List Cfg) (i : Nat) :
    (usedL env x cs i).Pairwise (fun u v => u.1 < v.1) := by
  induction cs generalizing i with
  | nil => exact .nil
  | cons c cs ih =>
    rw [usedL]
    cases h : usedPost env x c with
    | none => exact ih (i + 1)
    | some p =>
      refine List.Pairwise.cons ?_ (ih (i + 1))
      rintro ⟨j, q, d⟩ hm
      obtain ⟨k, hk, _⟩ := (usedL_mem env x cs (i + 1) j q d).1 hm
      show i < j
      omega

/-- One round without a single trip. -/
def step (x : In) (s : St) (u : Nat × Str × Cfg) : St :=
  outTrans x u.1 u.2.1 (outGraph x u.1 (match_ x u.1 u.2.2 (count u.2.2 u.2.1 s)))

theorem loop_all (env : Env) (x : In) (ht : x.trip = none) (cs : List Cfg) (hf : ∀ c ∈ cs, Used x c → Fine c) (i : Nat) (s : St) :
    loop env x cs i s = (none, (usedL env x cs i).foldl (step x) s) := by
  induction cs generalizing i s with
  | nil => rfl
  | cons c cs ih =>
    have hf' : ∀ c ∈ cs, Used x c → Fine c := fun d hd => hf d (List.mem_cons_of_mem _ hd)
    rw [loop, usedL]
    cases h : usedPost env x c with
    | none => exact ih hf' (i + 1) s
    | some p =>
      have hc := hf c List.mem_cons_self ((used_iff env x c).2 p h).1
      dsimp only
      have h1 : (!c.noStops && !c.osmOk) = false := by rcases hc.osm with h | h <;> simp [h]
      rw [h1, hc.simi, hc.method, ht, ih hf']
      simp [step]

/-! ## Single fields -/

theorem write_other (s : St) (f : Str) (c : Content) :
    (s.write f c).dims = s.dims ∧ (s.write f c).hops = s.hops ∧ (s.write f c).tries = s.tries ∧
    (s.write f c).leafs = s.leafs ∧ (s.write f c).iters = s.iters ∧ (s.write f c).dir = s.dir := by
  unfold St.write
  split <;> exact ⟨rfl, rfl, rfl, rfl, rfl, rfl⟩

/-- The parts of the state that writing files does not change. -/
structure Same (x : In) (s t : St) : Prop where
  dims : t.dims = s.dims
  hops : t.hops = s.hops
  tries : t.tries = s.tries
  leafs : t.leafs = s.leafs
  iters : t.iters = s.iters
  dir : (t.dir || x.mkdir) = (s.dir || x.mkdir)

theorem Same.refl (x : In) (s : St) : Same x s s := ⟨rfl, rfl, rfl, rfl, rfl, rfl⟩

theorem same_write (x : In) (s : St) (f : Str) (c : Content) : Same x s ((s.mkd x).write f c) := by
  obtain ⟨h1, h2, h3, h4, h5, h6⟩ := write_other (s.mkd x) f c
  refine ⟨h1, h2, h3, h4, h5, ?_⟩
  rw [h6]
  show ((s.dir || x.mkdir) || x.mkdir) = _
  cases s.dir <;> cases x.mkdir <;> rfl

theorem same_graph (x : In) (i : Nat) (s : St) : Same x s (outGraph x i s) := by
  unfold outGraph
  split
  · exact same_write x s _ _
  · exact .refl x s

theorem same_trans (x : In) (i : Nat) (p : Str) (s : St) : Same x s (outTrans x i p s) := by
  unfold outTrans
  split
  · exact same_write x s _ _
  · exact .refl x s

theorem same_match (x : In) (i : Nat) (c : Cfg) (s : St) : Same x (s.add c) (match_ x i c s) := by
  unfold match_
  split
  · exact same_write x (s.add c) _ _
  · exact .refl x _

theorem same_step (x : In) (s : St) (u : Nat × Str × Cfg) : Same x ((count u.2.2 u.2.1 s).add u.2.2) (step x s u) := by
  unfold step
  have h1 := same_match x u.1 u.2.2 (count u.2.2 u.2.1 s)
  have h2 := same_graph x u.1 (match_ x u.1 u.2.2 (count u.2.2 u.2.1 s))
  have h3 := same_trans x u.1 u.2.1 (outGraph x u.1 (match_ x u.1 u.2.2 (count u.2.2 u.2.1 s)))
  exact ⟨h3.dims.trans (h2.dims.trans h1.dims), h3.hops.trans (h2.hops.trans h1.hops), h3.tries.trans (h2.tries.trans h1.tries),
    h3.leafs.trans (h2.leafs.trans h1.leafs), h3.iters.trans (h2.iters.trans h1.iters), h3.dir.trans (h2.dir.trans h1.dir)⟩

theorem step_dir (x : In) (s : St) (u : Nat × Str × Cfg) : ((step x s u).dir || x.mkdir) = (s.dir || x.mkdir) :=
  (same_step x s u).dir

theorem step_fields (x : In) (s : St) (u : Nat × Str × Cfg) :
    (step x s u).dims = dimsStep s.dims u.2.1 u.2.2.graph ∧ (step x s u).hops = s.hops ++ u.2.2.hops ∧
    (step x s u).tries = s.tries + u.2.2.tries ∧ (step x s u).leafs = s.leafs + u.2.2.leafs ∧
    (step x s u).iters = s.iters + u.2.2.iters :=
  have h := same_step x s u
  ⟨h.dims, h.hops, h.tries, h.leafs, h.iters⟩

theorem folded (x : In) (us : List (Nat × Str × Cfg)) (s : St) :
    (us.foldl (step x) s).dims = us.foldl (fun d u => dimsStep d u.2.1 u.2.2.graph) s.dims ∧
    (us.foldl (step x) s).hops = s.hops ++ ((us.map (·.2.2)).map (·.hops)).flatten ∧
    (us.foldl (step x) s).tries = s.tries + ((us.map (·.2.2)).map (·.tries)).sum ∧
    (us.foldl (step x) s).leafs = s.leafs + ((us.map (·.2.2)).map (·.leafs)).sum ∧
    (us.foldl (step x) s).iters = s.iters + ((us.map (·.2.2)).map (·.iters)).sum ∧
    ((us.foldl (step x) s).dir || x.mkdir) = (s.dir || x.mkdir) := by
  induction us generalizing s with
  | nil => simp
  | cons u us ih =>
    obtain ⟨h1, h2, h3, h4, h5, h6⟩ := ih (step x s u)
    obtain ⟨g1, g2, g3, g4, g5⟩ := step_fields x s u
    simp only [List.foldl_cons, List.map_cons, List.flatten_cons, List.sum_cons]
    rw [h1, h2, h3, h4, h5, h6, g1, g2, g3, g4, g5, step_dir]
    refine ⟨rfl, by simp, by omega, by omega, by omega, rfl⟩

/-! ## Files -/

theorem transFile_inj {p q : Str} (h : transFile p = transFile q) : p = q := by
  unfold transFile at h
  exact List.append_cancel_left (List.append_cancel_right h)

theorem transFile_head (p : Str) : ∃ r, transFile p = 't' :: r := by
  have h : "trgraph-".toList = 't' :: "rgraph-".toList := by decide
  exact ⟨"rgraph-".toList ++ p ++ ".json".toList, by unfold transFile; rw [h]; rfl⟩

theorem graphFile_head : ∃ r, graphFile = 'g' :: r := ⟨"raph.json".toList, by decide⟩

theorem statsFile_head : ∃ r, statsFile = 's' :: r := ⟨"tats.json".toList, by decide⟩

theorem trans_ne_graph (p : Str) : transFile p ≠ graphFile := by
  intro h
  obtain ⟨r, hr⟩ := transFile_head p
  obtain ⟨q, hq⟩ := graphFile_head
  rw [hr, hq] at h
  exact absurd (List.cons.inj h).1 (by decide)

theorem trans_ne_stats (p : Str) : transFile p ≠ statsFile := by
  intro h
  obtain ⟨r, hr⟩ := transFile_head p
  obtain ⟨q, hq⟩ := statsFile_head
  rw [hr, hq] at h
  exact absurd (List.cons.inj h).1 (by decide)

theorem graph_ne_stats : graphFile ≠ statsFile := by decide

theorem graph_files (x : In) (i : Nat) (s : St) (f : Str) :
    (outGraph x i s).files.get f =
      if (s.dir || x.mkdir) = true ∧ x.writeGraph = true ∧ f = graphFile then some (.graph i) else s.files.get f := by
  unfold outGraph St.write St.mkd
  cases x.writeGraph <;> cases s.dir <;> cases x.mkdir <;> simp [FMap.get_put]

theorem trans_files (x : In) (i : Nat) (p : Str) (s : St) (f : Str) :
    (outTrans x i p s).files.get f =
      if (s.dir || x.mkdir) = true ∧ x.buildTransitGraph = true ∧ f = transFile p then some (.trans i) else s.files.get f := by
  unfold outTrans St.write St.mkd
  cases x.buildTransitGraph <;> cases s.dir <;> cases x.mkdir <;> simp [FMap.get_put]

/-- What is in the files after one round. -/
theorem step_files (x : In) (ht : x.trip = none) (s : St) (u : Nat × Str × Cfg) (f : Str) :
    (step x s u).files.get f =
      if (s.dir || x.mkdir) = true ∧ x.buildTransitGraph = true ∧ f = transFile u.2.1 then some (.trans u.1)
      else if (s.dir || x.mkdir) = true ∧ x.writeGraph = true ∧ f = graphFile then some (.graph u.1) else s.files.get f := by
  have hm : match_ x u.1 u.2.2 (count u.2.2 u.2.1 s) = (count u.2.2 u.2.1 s).add u.2.2 := by unfold match_; rw [ht]; rfl
  unfold step
  rw [trans_files, (same_graph x u.1 _).dir, hm, graph_files]
  rfl

theorem files_graph (x : In) (ht : x.trip = none) (hg : x.writeGraph = true) (us : List (Nat × Str × Cfg)) (s : St)
    (hw : (s.dir || x.mkdir) = true) (u : Nat × Str × Cfg) (hu : us.getLast? = some u) :
    (us.foldl (step x) s).files.get graphFile = some (.graph u.1) := by
  induction us generalizing s with
  | nil => cases hu
  | cons v us ih =>
    rw [List.foldl_cons]
    cases us with
    | nil =>
      simp only [List.getLast?_singleton, Option.some.injEq] at hu
      subst hu
      rw [List.foldl_nil, step_files x ht s, if_neg (fun h => trans_ne_graph _ h.2.2.symm), if_pos ⟨hw, hg, rfl⟩]
    | cons w us => exact ih (step x s v) (by rw [step_dir]; exact hw) (by rw [← hu, List.getLast?_cons_cons])

/-- Each file is from before, the graph of a configuration, or a transit graph. -/
theorem files_kind (x : In) (ht : x.trip = none) (us : List (Nat × Str × Cfg)) (s : St) (f : Str) (c : Content)
    (h : (us.foldl (step x) s).files.get f = some c) :
    s.files.get f = some c ∨
    ((s.dir || x.mkdir) = true ∧ x.buildTransitGraph = true ∧ ∃ u ∈ us, c = .trans u.1 ∧ f = transFile u.2.1) ∨
    ((s.dir || x.mkdir) = true ∧ x.writeGraph = true ∧ f = graphFile ∧ ∃ u ∈ us, c = .graph u.1) := by
  induction us generalizing s with
  | nil => exact .inl h
  | cons u us ih =>
    rw [List.foldl_cons] at h
    rcases ih (step x s u) h with h1 | ⟨hw, hb, v, hv, h2⟩ | ⟨hw, hb, h2, v, hv, h3⟩
    · rw [step_files x ht s] at h1
      split at h1
      · next hc => cases h1; exact .inr (.inl ⟨hc.1, hc.2.1, u, by simp, rfl, hc.2.2⟩)
      · split at h1
        · next hc => cases h1; exact .inr (.inr ⟨hc.1, hc.2.1, hc.2.2, u, by simp, rfl⟩)
        · exact .inl h1
    · exact .inr (.inl ⟨step_dir x s u ▸ hw, hb, v, List.mem_cons_of_mem _ hv, h2⟩)
    · exact .inr (.inr ⟨step_dir x s u ▸ hw, hb, h2, v, List.mem_cons_of_mem _ hv, h3⟩)

theorem files_trans (x : In) (ht : x.trip = none) (hb : x.buildTransitGraph = true) (us : List (Nat × Str × Cfg)) (s : St)
    (hw : (s.dir || x.mkdir) = true) (u : Nat × Str × Cfg) (hu : u ∈ us) (hd : ∀ v ∈ us, v.2.1 = u.2.1 → v.1 = u.1) :
    (us.foldl (step x) s).files.get (transFile u.2.1) = some (.trans u.1) := by
  have key : ∀ (us : List (Nat × Str × Cfg)) (s : St), (s.dir || x.mkdir) = true → (∀ v ∈ us, v.2.1 = u.2.1 → v.1 = u.1) →
      (u ∈ us ∨ s.files.get (transFile u.2.1) = some (.trans u.1)) →
      (us.foldl (step x) s).files.get (transFile u.2.1) = some (.trans u.1) := by
    intro us
    induction us with
    | nil => intro s _ _ h; exact h.resolve_left (by simp)
    | cons v us ih =>
      intro s hw hd h
      rw [List.foldl_cons]
      refine ih (step x s v) (by rw [step_dir]; exact hw) (fun w h => hd w (List.mem_cons_of_mem _ h)) ?_
      by_cases hv : v.2.1 = u.2.1
      · refine .inr ?_
        rw [step_files x ht s, hv, if_pos ⟨hw, hb, rfl⟩, hd v List.mem_cons_self hv]
      · rcases h with h | h
        · rcases List.mem_cons.1 h with e | h
          · exact absurd (by rw [e]) hv
          · exact .inl h
        · refine .inr ?_
          rw [step_files x ht s, if_neg (fun hc => hv (transFile_inj hc.2.2).symm),
            if_neg (fun hc => trans_ne_graph _ hc.2.2)]
          exact h
  exact key us s hw hd (.inl hu)

/-! ## Sizes -/

/-- Sum over the entries. -/
def sumBy (f : Nat × Nat → Nat) (d : FMap Str (Nat × Nat)) : Nat := (d.map (fun p => f p.2)).sum

theorem sum_fold (f : Nat × Nat → Nat) (d : FMap Str (Nat × Nat)) (a : Nat) :
    d.foldl (fun a p => a + f p.2) a = a + sumBy f d := by
  unfold sumBy
  induction d generalizing a with
  | nil => rfl
  | cons p d ih => rw [List.foldl_cons, ih]; simp only [List.map_cons, List.sum_cons]; omega

theorem sum_erase (f : Nat × Nat → Nat) (h0 : f (0, 0) = 0) (d : FMap Str (Nat × Nat)) (w : d.WF) (k : Str) :
    sumBy f d = f ((d.get k).getD (0, 0)) + sumBy f (d.erase k) := by
  induction d with
  | nil => simp [sumBy, FMap.get, FMap.erase, h0]
  | cons p d ih =>
    have hn : p.1 ∉ FMap.keys d ∧ FMap.WF d := by
      unfold FMap.WF FMap.keys at w
      rw [List.map_cons, List.nodup_cons] at w
      exact w
    by_cases hk : p.1 = k
    · have hg : FMap.get d k = none := (FMap.get_eq_none_iff d k).2 (hk ▸ hn.1)
      have he : FMap.erase d k = d := FMap.erase_of_get_none hg
      have : FMap.erase (p :: d) k = d := by
        unfold FMap.erase at he ⊢
        rw [List.filter_cons, if_neg (by simp [hk]), he]
      rw [this, FMap.get_cons]
      simp [hk, sumBy]
    · have : FMap.erase (p :: d) k = p :: FMap.erase d k := by
        unfold FMap.erase
        rw [List.filter_cons]
        simp [hk]
      rw [this, FMap.get_cons, if_neg hk]
      have := ih hn.2
      unfold sumBy at this ⊢
      simp only [List.map_cons, List.sum_cons]
      omega

theorem sum_put (f : Nat × Nat → Nat) (h0 : f (0, 0) = 0) (d : FMap Str (Nat × Nat)) (w : d.WF) (k : Str) (v : Nat × Nat) :
    sumBy f (d.put k v) + f ((d.get k).getD (0, 0)) = sumBy f d + f v := by
  have := sum_erase f h0 d w k
  have hp : sumBy f (d.put k v) = f v + sumBy f (d.erase k) := by simp [sumBy, FMap.put]
  omega

theorem dims_edges (us : List (Nat × Str × Cfg)) (d : FMap Str (Nat × Nat)) (w : d.WF) :
    (us.foldl (fun d u => dimsStep d u.2.1 u.2.2.graph) d).WF ∧
    sumBy (·.2) (us.foldl (fun d u => dimsStep d u.2.1 u.2.2.graph) d) = sumBy (·.2) d + ((us.map (·.2.2)).map (fun c => c.graph.sum)).sum := by
  induction us generalizing d with
  | nil => exact ⟨w, rfl⟩
  | cons u us ih =>
    have h := ih (dimsStep d u.2.1 u.2.2.graph) (w.put _ _)
    refine ⟨h.1, ?_⟩
    rw [List.foldl_cons, h.2]
    have := sum_put (·.2) rfl d w u.2.1 (u.2.2.graph.length, ((d.get u.2.1).getD (0, 0)).2 + u.2.2.graph.sum)
    unfold dimsStep
    simp only [List.map_cons, List.sum_cons]
    dsimp only at this
    omega

theorem dims_nodes (us : List (Nat × Str × Cfg)) (d : FMap Str (Nat × Nat)) (w : d.WF) (hn : ∀ u ∈ us, d.get u.2.1 = none)
    (hp : us.Pairwise (fun u v => u.2.1 ≠ v.2.1)) :
    sumBy (·.1) (us.foldl (fun d u => dimsStep d u.2.1 u.2.2.graph) d) = sumBy (·.1) d + ((us.map (·.2.2)).map (fun c => c.graph.length)).sum := by
  induction us generalizing d with
  | nil => rfl
  | cons u us ih =>
    rw [List.pairwise_cons] at hp
    rw [List.foldl_cons, ih (dimsStep d u.2.1 u.2.2.graph) (w.put _ _) _ hp.2]
    · have := sum_put (·.1) rfl d w u.2.1 (u.2.2.graph.length, ((d.get u.2.1).getD (0, 0)).2 + u.2.2.graph.sum)
      rw [hn u List.mem_cons_self] at this
      unfold dimsStep
      rw [hn u List.mem_cons_self]
      simp only [List.map_cons, List.sum_cons]
      simp only [Option.getD_none] at this ⊢
      omega
    · intro v hv
      unfold dimsStep
      rw [FMap.get_put, if_neg (fun h => hp.1 v hv h.symm)]
      exact hn v (List.mem_cons_of_mem _ hv)

theorem dims_keep (us : List (Nat × Str × Cfg)) (d : FMap Str (Nat × Nat)) (p : Str) (h : ∀ u ∈ us, u.2.1 ≠ p) :
    (us.foldl (fun d u => dimsStep d u.2.1 u.2.2.graph) d).get p = d.get p := by
  induction us generalizing d with
  | nil => rfl
  | cons u us ih =>
    rw [List.foldl_cons, ih _ (fun v hv => h v (List.mem_cons_of_mem _ hv))]
    unfold dimsStep
    rw [FMap.get_put, if_neg (fun e => h u List.mem_cons_self e.symm)]

/-- The entry of a name that only one configuration has. -/
theorem dims_one (us : List (Nat × Str × Cfg)) (d : FMap Str (Nat × Nat)) (hp : us.Pairwise (fun u v => u.2.1 ≠ v.2.1))
    (u : Nat × Str × Cfg) (hu : u ∈ us) (hn : d.get u.2.1 = none) :
    (us.foldl (fun d u => dimsStep d u.2.1 u.2.2.graph) d).get u.2.1 = some (u.2.2.graph.length, u.2.2.graph.sum) := by
  induction us generalizing d with
  | nil => cases hu
  | cons v us ih =>
    rw [List.pairwise_cons] at hp
    rw [List.foldl_cons]
    rcases List.mem_cons.1 hu with e | hu
    · subst e
      rw [dims_keep us _ _ (fun w hw e => hp.1 w hw e.symm)]
      unfold dimsStep
      rw [FMap.get_put, if_pos rfl, hn]
      simp
    · refine ih _ hp.2 hu ?_
      unfold dimsStep
      rw [FMap.get_put, if_neg (fun e => hp.1 u hu e.symm)]
      exact hn

end Verif.Report
