import Verif.Report.Loop

/-!
# Debug files and statistics (properties)
-/

namespace Verif.Report

open Verif (FMap)
open Verif.Main (Code)

/-- What the main program of `Verif.Main` uses of a configuration. -/
def Cfg.toMain (c : Cfg) : Main.MotCfg := ⟨c.mots, c.noStops, c.osmOk, c.simiKnown, c.methodKnown⟩

theorem loop_code (env : Env) (x : In) (y : Main.In) (hm : y.mots = x.mots) (hy : y.outputOk = x.outputOk) (cs : List Cfg) (i j : Nat)
    (s : St) (es : List Main.Eff) :
    (Main.cfgLoop y x.trip (cs.map Cfg.toMain) i es).1 =
      (match (loop env x cs j s).1 with
        | some c => c
        | none => if x.outputOk then .success else .gtfsWrite) := by
  induction cs generalizing i j s es with
  | nil =>
    simp only [List.map_nil, Main.cfgLoop, loop, hy]
    cases x.outputOk <;> rfl
  | cons c cs ih =>
    rw [List.map_cons, Main.cfgLoop.eq_def, loop]
    dsimp only
    have hus : Main.motISect c.toMain.mots y.mots = motISect c.mots x.mots := by rw [hm]; rfl
    rw [hus]
    unfold usedPost
    dsimp only
    by_cases h1 : (motISect c.mots x.mots).isEmpty = true
    · rw [if_pos h1, if_pos h1]; exact ih _ _ _ _
    · rw [if_neg h1, if_neg h1]
      cases ht : x.trip with
      | none =>
        rw [ht] at ih
        dsimp only [Option.any, Cfg.toMain, Option.isSome]
        rcases Bool.eq_false_or_eq_true c.noStops with hn | hn <;> rcases Bool.eq_false_or_eq_true c.osmOk with ho | ho <;>
          rcases Bool.eq_false_or_eq_true c.simiKnown with hs | hs <;> rcases Bool.eq_false_or_eq_true c.methodKnown with hk | hk <;>
          simp [hn, ho, hs, hk] <;> exact ih _ _ _ _
      | some t =>
        rw [ht] at ih
        dsimp only [Option.any, Cfg.toMain, Option.isSome]
        rcases Bool.eq_false_or_eq_true ((motISect c.mots x.mots).contains t) with hc | hc <;> simp only [hc, Bool.not_true, Bool.not_false, if_true, Bool.false_eq_true, if_false]
        · rcases Bool.eq_false_or_eq_true c.noStops with hn | hn <;> rcases Bool.eq_false_or_eq_true c.osmOk with ho | ho <;>
          rcases Bool.eq_false_or_eq_true c.simiKnown with hs | hs <;> rcases Bool.eq_false_or_eq_true c.methodKnown with hk | hk <;>
          simp [hn, ho, hs, hk]
        · exact ih _ _ _ _

/-- C92. The files do not change how the program ends: the code is that of `Verif.Main` (C54). -/
theorem C92_code (env : Env) (x : In) (y : Main.In) (hm : y.mots = x.mots) (hy : y.outputOk = x.outputOk) (es : List Main.Eff) :
    (run env x).1 = (Main.cfgLoop y x.trip (x.cfgs.map Cfg.toMain) 0 es).1 := by
  rw [loop_code env x y hm hy x.cfgs 0 0 { dir := x.dir, files := x.files } es]
  unfold run
  split
  · next h => rw [h]
  · next h => rw [h]

/-- C92. If the names of modes are different, different sets of modes have different file names. -/
theorem C92_names_partial (env : Env) (ok : NamesOk env) (a b : List Nat) (ha : Asc a) (hb : Asc b) :
    fileName env a = fileName env b ↔ a = b :=
  ⟨fileName_inj env ok ha hb, fun h => by rw [h]⟩

/-- The whole run, if no configuration ends the program. -/
theorem run_all (env : Env) (x : In) (ht : x.trip = none) (hf : ∀ c ∈ x.cfgs, Used x c → Fine c) :
    run env x = (if x.outputOk then .success else .gtfsWrite,
      (outStats x ((usedL env x x.cfgs 0).foldl (step x) { dir := x.dir, files := x.files })).files) := by
  unfold run
  rw [loop_all env x ht x.cfgs hf]

theorem stats_files (x : In) (s : St) (f : Str) :
    (outStats x s).files.get f =
      if s.dir = true ∧ x.writeStats = true ∧ f = statsFile then some (.stats (statsOf x s)) else s.files.get f := by
  unfold outStats St.write
  cases x.writeStats <;> cases s.dir <;> simp [FMap.get_put]

theorem graph_length (c : Cfg) : c.graph.length = c.numNodes := by
  unfold Cfg.graph Cfg.numNodes; split <;> rfl

theorem graph_sum (c : Cfg) : c.graph.sum = c.numEdges := by
  unfold Cfg.graph Cfg.numEdges; split <;> rfl

theorem rat_fold (l : List Rat) (a : Rat) : l.foldl (· + ·) a = a + l.sum := by
  induction l generalizing a with
  | nil => simp [Rat.add_zero]
  | cons b l ih => rw [List.foldl_cons, ih, List.sum_cons, Rat.add_assoc]

/-- The state before the statistics are written. -/
def final (env : Env) (x : In) : St := (usedL env x x.cfgs 0).foldl (step x) { dir := x.dir, files := x.files }

theorem sums_final (env : Env) (x : In) : Sums x (statsOf x (final env x)) := by
  obtain ⟨h1, h2, h3, h4, h5, h6⟩ := folded x (usedL env x x.cfgs 0) { dir := x.dir, files := x.files }
  rw [usedL_map] at h2 h3 h4 h5
  have hh : (final env x).hops = allHops x := by
    show ((usedL env x x.cfgs 0).foldl (step x) _).hops = _
    rw [h2]
    rfl
  refine ⟨rfl, rfl, ?_, ?_, ?_, ?_, ?_, ?_⟩
  · show (final env x).dims.foldl (fun a p => a + p.2.2) 0 = _
    rw [sum_fold (·.2)]
    unfold final
    rw [h1, (dims_edges _ _ FMap.WF.nil).2, usedL_map]
    unfold total usedCfgs
    rw [List.map_congr_left (fun c _ => graph_sum c)]
    simp [sumBy]
  · exact h3.trans (Nat.zero_add _)
  · exact h4.trans (Nat.zero_add _)
  · exact h5.trans (Nat.zero_add _)
  · show (if (final env x).hops.length = 0 then none else _) = none ↔ _
    rw [hh]
    split
    · next h => simp [List.length_eq_zero_iff.1 h]
    · next h => simp; exact fun e => h (by rw [e]; rfl)
  · intro a ha
    change (if (final env x).hops.length = 0 then none else some ((final env x).hops.foldl (· + ·) 0 / ((final env x).hops.length : Rat))) = some a at ha
    rw [hh] at ha
    split at ha
    · cases ha
    · next h =>
      cases ha
      rw [rat_fold, Rat.zero_add]
      refine Rat.div_mul_cancel ?_
      intro h0
      exact h (by exact_mod_cast h0)

theorem step_dir_eq (x : In) (ht : x.trip = none) (s : St) (u : Nat × Str × Cfg) :
    (step x s u).dir = (s.dir || (x.mkdir && (x.writeGraph || x.buildTransitGraph))) := by
  have hm : match_ x u.1 u.2.2 (count u.2.2 u.2.1 s) = (count u.2.2 u.2.1 s).add u.2.2 := by unfold match_; rw [ht]; rfl
  have hg : ∀ (t : St) (i : Nat), (outGraph x i t).dir = (t.dir || (x.mkdir && x.writeGraph)) := by
    intro t i
    unfold outGraph
    cases x.writeGraph
    · simp
    · simp; exact (write_other (t.mkd x) graphFile (.graph i)).2.2.2.2.2
  have htr : ∀ (t : St) (i : Nat) (p : Str), (outTrans x i p t).dir = (t.dir || (x.mkdir && x.buildTransitGraph)) := by
    intro t i p
    unfold outTrans
    cases x.buildTransitGraph
    · simp
    · simp; exact (write_other (t.mkd x) (transFile p) (.trans i)).2.2.2.2.2
  unfold step
  rw [htr, hg, hm]
  show (s.dir || (x.mkdir && x.writeGraph) || (x.mkdir && x.buildTransitGraph)) = _
  cases s.dir <;> cases x.mkdir <;> cases x.writeGraph <;> cases x.buildTransitGraph <;> rfl

theorem fold_dir (x : In) (ht : x.trip = none) (us : List (Nat × Str × Cfg)) (s : St) :
    (us.foldl (step x) s).dir = (s.dir || (!us.isEmpty && (x.mkdir && (x.writeGraph || x.buildTransitGraph)))) := by
  induction us generalizing s with
  | nil => simp
  | cons u us ih =>
    rw [List.foldl_cons, ih, step_dir_eq x ht]
    cases s.dir <;> cases x.mkdir <;> cases x.writeGraph <;> cases x.buildTransitGraph <;> cases us.isEmpty <;> rfl

theorem final_dir (env : Env) (x : In) (ht : x.trip = none) : (final env x).dir = true ↔ StatsDir x := by
  have he : (usedL env x x.cfgs 0).isEmpty = true ↔ usedCfgs x = [] := by
    have := usedL_map env x x.cfgs 0
    unfold usedCfgs
    rw [← this, List.isEmpty_iff, List.map_eq_nil_iff]
  unfold final
  rw [fold_dir x ht]
  unfold StatsDir
  rw [Bool.or_eq_true, Bool.and_eq_true, Bool.and_eq_true, Bool.or_eq_true, Bool.not_eq_true', ← Bool.not_eq_true, he]
  constructor
  · rintro (h | ⟨h1, h2, h3⟩)
    · exact .inl h
    · exact .inr ⟨h2, h3, h1⟩
  · rintro (h | ⟨h2, h3, h1⟩)
    · exact .inl h
    · exact .inr ⟨h1, h2, h3⟩

/-- C92. If all trips are matched and the directory is there (the exact condition is `StatsDir`), the statistics are written, and they are the sums
over the configurations that are used. -/
theorem C92_stats_partial (env : Env) (x : In) (ht : x.trip = none) (hf : ∀ c ∈ x.cfgs, Used x c → Fine c)
    (hs : x.writeStats = true) (hd : StatsDir x) : ∃ st, (run env x).2.get statsFile = some (.stats st) ∧ Sums x st := by
  refine ⟨statsOf x (final env x), ?_, sums_final env x⟩
  rw [run_all env x ht hf]
  show (outStats x (final env x)).files.get statsFile = _
  rw [stats_files, if_pos ⟨(final_dir env x ht).2 hd, hs, rfl⟩]

theorem asc_isect (a b : List Nat) (h : Asc a) : Asc (motISect a b) := by
  unfold Asc motISect at *
  exact h.filter _

theorem posts_apart (env : Env) (ok : NamesOk env) (x : In) (ha : ∀ c ∈ x.cfgs, Asc c.mots) (hdiff : Different x)
    (u v : Nat × Str × Cfg) (hu : u ∈ usedL env x x.cfgs 0) (hv : v ∈ usedL env x x.cfgs 0) (h : u.2.1 = v.2.1) : u.1 = v.1 := by
  obtain ⟨i, p, c⟩ := u
  obtain ⟨j, q, d⟩ := v
  obtain ⟨k, hk, hc, hp⟩ := (usedL_mem env x x.cfgs 0 i p c).1 hu
  obtain ⟨l, hl, hd, hq⟩ := (usedL_mem env x x.cfgs 0 j q d).1 hv
  have hpu := (used_iff env x c).2 p hp
  have hqu := (used_iff env x d).2 q hq
  change p = q at h
  show i = j
  rw [Nat.zero_add] at hk hl
  subst hk hl
  rw [hpu.2, hqu.2] at h
  by_cases hlen : x.cfgs.length > 1
  · rw [if_pos hlen, if_pos hlen] at h
    have he := fileName_inj env ok (asc_isect _ _ (ha c (List.mem_of_getElem? hc))) (asc_isect _ _ (ha d (List.mem_of_getElem? hd))) h
    refine hdiff i j c d hc hd hpu.1 hqu.1 (fun m => ?_)
    have h1 : m ∈ motISect c.mots x.mots ↔ For x c m := isect_mem _ _ m
    have h2 : m ∈ motISect d.mots x.mots ↔ For x d m := isect_mem _ _ m
    rw [← h1, ← h2, he]
  · have hi := (List.getElem?_eq_some_iff.1 hc).1
    have hj := (List.getElem?_eq_some_iff.1 hd).1
    omega

theorem posts_pairwise (env : Env) (ok : NamesOk env) (x : In) (ha : ∀ c ∈ x.cfgs, Asc c.mots) (hdiff : Different x) :
    (usedL env x x.cfgs 0).Pairwise (fun u v => u.2.1 ≠ v.2.1) := by
  refine List.Pairwise.imp_of_mem ?_ (usedL_sorted env x x.cfgs 0)
  intro u v hu hv hlt h
  exact absurd (posts_apart env ok x ha hdiff u v hu hv h) (by omega)

theorem stats_final (env : Env) (x : In) (ht : x.trip = none) (hf : ∀ c ∈ x.cfgs, Used x c → Fine c)
    (st : Stats) (h : (run env x).2.get statsFile = some (.stats st)) (hn : FilesOld x) : st = statsOf x (final env x) := by
  rw [run_all env x ht hf] at h
  change (outStats x (final env x)).files.get statsFile = _ at h
  rw [stats_files] at h
  split at h
  · cases h; rfl
  · rcases files_kind x ht _ _ _ _ h with h | ⟨_, _, u, _, h, _⟩ | ⟨_, _, _, u, _, h⟩
    · have := hn _ _ h; cases this
    · cases h
    · cases h

/-- C92. If moreover different configurations are for different modes, the number of nodes is the sum, too. -/
theorem C92_nodes_partial (env : Env) (ok : NamesOk env) (x : In) (ht : x.trip = none) (hf : ∀ c ∈ x.cfgs, Used x c → Fine c)
    (ha : ∀ c ∈ x.cfgs, Asc c.mots) (hdiff : Different x)
    (st : Stats) (h : (run env x).2.get statsFile = some (.stats st)) (hn : FilesOld x) : st.nodes = total x Cfg.numNodes := by
  rw [stats_final env x ht hf st h hn]
  show (final env x).dims.foldl (fun a p => a + p.2.1) 0 = _
  rw [sum_fold (·.1)]
  unfold final
  rw [(folded x _ _).1, dims_nodes _ _ FMap.WF.nil (fun u _ => rfl) (posts_pairwise env ok x ha hdiff), usedL_map]
  unfold total usedCfgs
  rw [List.map_congr_left (fun c _ => graph_length c)]
  simp [sumBy]

/-- C92. Under the same conditions there is an entry with the size of the graph of each configuration that is used. -/
theorem C92_dims_partial (env : Env) (ok : NamesOk env) (x : In) (ht : x.trip = none) (hf : ∀ c ∈ x.cfgs, Used x c → Fine c)
    (ha : ∀ c ∈ x.cfgs, Asc c.mots) (hdiff : Different x)
    (st : Stats) (h : (run env x).2.get statsFile = some (.stats st)) (hn : FilesOld x)
    (i : Nat) (c : Cfg) (hc : x.cfgs[i]? = some c) (hu : Used x c) : ∃ name, st.dims.get name = some (c.numNodes, c.numEdges) := by
  rw [stats_final env x ht hf st h hn]
  cases hp : usedPost env x c with
  | none => exact absurd hu ((used_iff env x c).1.1 hp)
  | some p =>
    refine ⟨p, ?_⟩
    show (final env x).dims.get p = _
    unfold final
    rw [(folded x _ _).1, ← graph_length, ← graph_sum]
    exact dims_one _ _ (posts_pairwise env ok x ha hdiff) (i, p, c) ((usedL_mem env x x.cfgs 0 i p c).2 ⟨i, by omega, hc, hp⟩) rfl

theorem put_keep (x : In) (s : St) (f : Str) (h : f ≠ statsFile) : (outStats x s).files.get f = s.files.get f := by
  rw [stats_files, if_neg (fun hc => h hc.2.2)]

/-- C92. If different configurations are for different modes, the transit graph of each configuration that is used is in a file of its own. -/
theorem C92_trans_partial (env : Env) (ok : NamesOk env) (x : In) (ht : x.trip = none) (hf : ∀ c ∈ x.cfgs, Used x c → Fine c)
    (ha : ∀ c ∈ x.cfgs, Asc c.mots) (hdiff : Different x) (hw : Writable x) (hb : x.buildTransitGraph = true)
    (i : Nat) (c : Cfg) (hc : x.cfgs[i]? = some c) (hu : Used x c) : ∃ f, (run env x).2.get f = some (.trans i) := by
  have hp : ∃ p, usedPost env x c = some p := by
    cases h : usedPost env x c with
    | none => exact absurd hu ((used_iff env x c).1.1 h)
    | some p => exact ⟨p, rfl⟩
  obtain ⟨p, hp⟩ := hp
  have hm : (i, p, c) ∈ usedL env x x.cfgs 0 := (usedL_mem env x x.cfgs 0 i p c).2 ⟨i, by omega, hc, hp⟩
  refine ⟨transFile p, ?_⟩
  rw [run_all env x ht hf]
  show (outStats x (final env x)).files.get (transFile p) = _
  rw [put_keep x _ _ (trans_ne_stats p)]
  refine files_trans x ht hb _ _ ?_ (i, p, c) hm (fun v hv h => posts_apart env ok x ha hdiff v (i, p, c) hv hm h)
  rcases hw with h | h <;> simp [h]

/-- C92. With a single configuration the file is `trgraph-.json`, not the `trgraph.json` of the documentation. -/
theorem C92_trans_single (env : Env) (x : In) (ht : x.trip = none) (c : Cfg) (hx : x.cfgs = [c]) (hu : Used x c) (hf : Fine c)
    (hw : Writable x) (hb : x.buildTransitGraph = true) :
    (run env x).2.get "trgraph-.json".toList = some (.trans 0) ∧
    (run env x).2.get "trgraph.json".toList = x.files.get "trgraph.json".toList := by
  have hfa : ∀ d ∈ x.cfgs, Used x d → Fine d := by intro d hd _; rw [hx] at hd; rw [List.mem_singleton.1 hd]; exact hf
  have hp : usedPost env x c = some [] := by
    cases h : usedPost env x c with
    | none => exact absurd hu ((used_iff env x c).1.1 h)
    | some p => rw [((used_iff env x c).2 p h).2, hx]; rfl
  have hl : usedL env x x.cfgs 0 = [(0, [], c)] := by rw [hx]; simp [usedL, hp]
  rw [run_all env x ht hfa]
  have h1 : transFile [] = "trgraph-.json".toList := by decide
  refine ⟨?_, ?_⟩
  · rw [← h1]
    show (outStats x (final env x)).files.get (transFile []) = _
    rw [put_keep x _ _ (trans_ne_stats [])]
    refine files_trans x ht hb _ _ ?_ (0, [], c) (by rw [hl]; simp) (by rw [hl]; intro v hv _; rw [List.mem_singleton.1 hv])
    rcases hw with h | h <;> simp [h]
  · show (outStats x (final env x)).files.get "trgraph.json".toList = _
    rw [put_keep x _ _ (by decide)]
    unfold final
    rw [hl, List.foldl_cons, List.foldl_nil, step_files x ht, if_neg, if_neg]
    · exact fun h => absurd h.2.2 (by decide)
    · intro h
      have := h.2.2
      rw [show ((0, [], c) : Nat × Str × Cfg).2.1 = [] from rfl, h1] at this
      exact absurd this (by decide)

theorem last_iff (env : Env) (x : In) (i : Nat) :
    LastUsed x i ↔ ∃ u, (usedL env x x.cfgs 0).getLast? = some u ∧ u.1 = i := by
  have hm := usedL_mem env x x.cfgs 0
  have hpost : ∀ c, Used x c → ∃ p, usedPost env x c = some p := by
    intro c hu
    cases h : usedPost env x c with
    | none => exact absurd hu ((used_iff env x c).1.1 h)
    | some p => exact ⟨p, rfl⟩
  have hmax : ∀ u, (usedL env x x.cfgs 0).getLast? = some u → ∀ v ∈ usedL env x x.cfgs 0, v.1 ≤ u.1 := by
    intro u hu v hv
    obtain ⟨ys, hys⟩ := List.getLast?_eq_some_iff.1 hu
    have hsrt := usedL_sorted env x x.cfgs 0
    rw [hys, List.pairwise_append] at hsrt
    rw [hys] at hv
    rcases List.mem_append.1 hv with h | h
    · exact Nat.le_of_lt (hsrt.2.2 v h u (by simp))
    · rw [List.mem_singleton.1 h]; exact Nat.le_refl _
  constructor
  · rintro ⟨⟨c, hc, hu⟩, hle⟩
    obtain ⟨p, hp⟩ := hpost c hu
    have hmem : (i, p, c) ∈ usedL env x x.cfgs 0 := (hm i p c).2 ⟨i, by omega, hc, hp⟩
    cases hl : (usedL env x x.cfgs 0).getLast? with
    | none => rw [List.getLast?_eq_none_iff.1 hl] at hmem; cases hmem
    | some u =>
      refine ⟨u, rfl, ?_⟩
      have h1 := hmax u hl _ hmem
      obtain ⟨j, q, d⟩ := u
      obtain ⟨k, hk, hd, hq⟩ := (hm j q d).1 (List.mem_of_getLast? hl)
      have h2 := hle j d (by rw [show j = k by omega]; exact hd) ((used_iff env x d).2 q hq).1
      show j = i
      change i ≤ j at h1
      omega
  · rintro ⟨⟨j, q, d⟩, hl, rfl⟩
    obtain ⟨k, hk, hd, hq⟩ := (hm j q d).1 (List.mem_of_getLast? hl)
    refine ⟨⟨d, by rw [show j = k by omega]; exact hd, ((used_iff env x d).2 q hq).1⟩, ?_⟩
    intro i c hc hu
    obtain ⟨p, hp⟩ := hpost c hu
    exact hmax _ hl _ ((hm i p c).2 ⟨i, by omega, hc, hp⟩)

/-- C92. Exactly one graph is kept: that of the last configuration that is used, in `graph.json`. -/
theorem C92_graph (env : Env) (x : In) (ht : x.trip = none) (hf : ∀ c ∈ x.cfgs, Used x c → Fine c) (ho : FilesOld x)
    (hw : Writable x) (hg : x.writeGraph = true) (f : Str) (i : Nat) :
    (run env x).2.get f = some (.graph i) ↔ f = graphFile ∧ LastUsed x i := by
  have hw' : (x.dir || x.mkdir) = true := by rcases hw with h | h <;> simp [h]
  have hgl : ∀ u, (usedL env x x.cfgs 0).getLast? = some u → (final env x).files.get graphFile = some (.graph u.1) :=
    fun u hu => files_graph x ht hg _ _ hw' u hu
  rw [run_all env x ht hf, last_iff env]
  show (outStats x (final env x)).files.get f = _ ↔ _
  rw [stats_files]
  constructor
  · intro h
    split at h
    · cases h
    · rcases files_kind x ht _ _ _ _ h with h1 | ⟨_, _, u, _, h1, _⟩ | ⟨_, _, hfg, u, hu, h1⟩
      · have := ho _ _ h1; cases this
      · cases h1
      · refine ⟨hfg, ?_⟩
        cases hl : (usedL env x x.cfgs 0).getLast? with
        | none => rw [List.getLast?_eq_none_iff.1 hl] at hu; cases hu
        | some v =>
          have h2 := hgl v hl
          rw [hfg] at h
          rw [show (final env x).files.get graphFile = some (.graph i) from h] at h2
          cases h2
          exact ⟨v, rfl, rfl⟩
  · rintro ⟨rfl, u, hu, rfl⟩
    rw [if_neg (fun h => graph_ne_stats h.2.2)]
    exact hgl u hu

/-- C92. A single trip: it is matched with the first configuration that is for its mode, the result is in `path.json`, and the program ends
without statistics (even if they were asked for) and without transit graphs. -/
theorem C92_single (env : Env) (x : In) (t : Nat) (ht : x.trip = some t) (i : Nat) (c : Cfg) (hu : FirstUsed x i c) (hf : Fine c)
    (hw : Writable x) (ho : FilesOld x) :
    (run env x).1 = .success ∧ (run env x).2.get pathFile = some (.path i) ∧
    (∀ f s, (run env x).2.get f ≠ some (.stats s)) ∧ (∀ f j, (run env x).2.get f ≠ some (.trans j)) ∧
    ((run env x).2.get graphFile = some (.graph i) ↔ x.writeGraph = true) := by
  have hw' : (x.dir || x.mkdir) = true := by rcases hw with h | h <;> simp [h]
  have hloop : ∀ (cs : List Cfg) (k n : Nat) (s : St), cs[n]? = some c → (∀ j d, cs[j]? = some d → Used x d → n ≤ j) →
      ∃ p, usedPost env x c = some p ∧ loop env x cs k s = (some .success, outGraph x (k + n) (match_ x (k + n) c (count c p s))) := by
    intro cs
    induction cs with
    | nil => intro k n s h; simp at h
    | cons d cs ih =>
      intro k n s hn hmin
      cases n with
      | zero =>
        simp only [List.getElem?_cons_zero, Option.some.injEq] at hn
        subst hn
        cases hp : usedPost env x d with
        | none => exact absurd hu.2.1 ((used_iff env x d).1.1 hp)
        | some p =>
          refine ⟨p, rfl, ?_⟩
          rw [loop, hp]
          dsimp only
          have h1 : (!d.noStops && !d.osmOk) = false := by rcases hf.osm with h | h <;> simp [h]
          rw [h1, hf.simi, hf.method, ht]
          simp
      | succ n =>
        have hd : ¬ Used x d := fun h => absurd (hmin 0 d rfl h) (by omega)
        obtain ⟨p, hp, hl⟩ := ih (k + 1) n s (by simpa using hn) (fun j e hj he => by
          have := hmin (j + 1) e (by simpa using hj) he
          omega)
        refine ⟨p, hp, ?_⟩
        rw [loop, (used_iff env x d).1.2 hd]
        dsimp only
        rw [hl, show k + 1 + n = k + (n + 1) by omega]
  obtain ⟨p, hp, hl⟩ := hloop x.cfgs 0 i { dir := x.dir, files := x.files } hu.1 hu.2.2
  have hr : run env x = (.success, (outGraph x i (match_ x i c (count c p { dir := x.dir, files := x.files }))).files) := by
    unfold run
    rw [hl, Nat.zero_add]
  have hget : ∀ f, (run env x).2.get f = if x.writeGraph = true ∧ f = graphFile then some (.graph i)
      else if f = pathFile then some (.path i) else x.files.get f := by
    intro f
    rw [hr]
    show (outGraph x i _).files.get f = _
    rw [graph_files, (same_match x i c _).dir]
    have : (((count c p { dir := x.dir, files := x.files } : St).add c).dir || x.mkdir) = true := hw'
    rw [this]
    unfold match_
    rw [ht]
    simp only [Option.isSome_some, if_true, true_and]
    have hm : ((((count c p { dir := x.dir, files := x.files } : St).mkd x).add c).write pathFile (.path i)).files.get f =
        if f = pathFile then some (.path i) else x.files.get f := by
      unfold St.write
      rw [if_pos (show (((count c p { dir := x.dir, files := x.files } : St).mkd x).add c).dir = true from hw')]
      rw [FMap.get_put]
      rfl
    rw [hm]
  refine ⟨by rw [hr], ?_, ?_, ?_, ?_⟩
  · rw [hget, if_neg (fun h => absurd h.2 (by decide)), if_pos rfl]
  · intro f s h
    rw [hget] at h
    split at h
    · cases h
    · split at h
      · cases h
      · have := ho _ _ h; cases this
  · intro f s h
    rw [hget] at h
    split at h
    · cases h
    · split at h
      · cases h
      · have := ho _ _ h; cases this
  · rw [hget]
    constructor
    · intro h
      split at h
      · next hc => exact hc.1
      · rw [if_neg (by decide)] at h
        have := ho _ _ h; cases this
    · intro h
      rw [if_pos ⟨h, rfl⟩]

/-! ## Examples -/

/-- Every mode has a name of its own. -/
def exEnv : Env where
  types n := if n = "tram".toList then [0] else if n = "bus".toList then [3, 700] else [2]
  typeStr m := if m = 0 then "tram".toList else List.replicate (m + 1) 'x'

theorem exEnv_ok : NamesOk exEnv := by
  have hnx : ∀ k, List.replicate (k + 1) 'x' ∉ names := by
    intro k h
    have : ∀ n ∈ names, n.head? ≠ some 'x' := by decide
    exact this _ h rfl
  refine ⟨?_, ?_, ?_, ?_, ?_⟩
  · intro n
    unfold Asc exEnv
    dsimp only
    split
    · decide
    · split <;> decide
  · intro m
    show (if m = 0 then "tram".toList else List.replicate (m + 1) 'x') ≠ []
    split
    · decide
    · simp
  · intro m
    show '-' ∉ (if m = 0 then "tram".toList else List.replicate (m + 1) 'x')
    split
    · decide
    · intro h
      exact absurd (List.eq_of_mem_replicate h) (by decide)
  · intro m m' h
    change (if m = 0 then "tram".toList else List.replicate (m + 1) 'x') =
      (if m' = 0 then "tram".toList else List.replicate (m' + 1) 'x') at h
    split at h <;> split at h
    · omega
    · exact absurd (congrArg List.head? h) (by rw [List.replicate_succ, List.head?_cons]; decide)
    · exact absurd (congrArg List.head? h) (by rw [List.replicate_succ, List.head?_cons]; decide)
    · have := congrArg List.length h
      simp at this
      exact this
  · intro m h
    change (if m = 0 then "tram".toList else List.replicate (m + 1) 'x') ∈ names at h
    split at h
    · next h0 => subst h0; decide
    · exact absurd h (hnx m)

/-- Whole groups and single modes. -/
example : fileName exEnv [0, 1, 3, 700] = "tram-bus-xx".toList ∧ fileName exEnv [1, 3] = "xx-xxxx".toList := by decide

def exCfg (mots : List Nat) (adj : List Nat) (hops : List Rat) (n : Nat) : Cfg :=
  ⟨mots, false, true, true, true, adj, hops, n, n + 1, 10 * n⟩

/-- Three configurations, the second one is not used; the directory is made by the program. -/
def exIn : In where
  mots := [0, 3]
  cfgs := [exCfg [0] [1, 2, 1] [10, 20] 1, exCfg [1] [5] [7] 4, exCfg [3, 700] [2, 2] [30] 2]
  trip := none
  writeGraph := true
  buildTransitGraph := true
  writeStats := true
  dir := false
  mkdir := true
  files := []
  stations := 5
  trips := 3
  outputOk := true

theorem exIn_fine : ∀ c ∈ exIn.cfgs, Used exIn c → Fine c := by decide

theorem exIn_asc : ∀ c ∈ exIn.cfgs, Asc c.mots := by unfold Asc; decide

theorem exIn_different : Different exIn := by
  intro i j c d hc hd hu hv h
  have hi : i < 3 := (List.getElem?_eq_some_iff.1 hc).1
  have hj : j < 3 := (List.getElem?_eq_some_iff.1 hd).1
  have h0 := h 0
  have hi' : i = 0 ∨ i = 1 ∨ i = 2 := by omega
  have hj' : j = 0 ∨ j = 1 ∨ j = 2 := by omega
  rcases hi' with rfl | rfl | rfl <;> rcases hj' with rfl | rfl | rfl <;> cases hc <;> cases hd <;>
    first
      | rfl
      | exact absurd hu (by decide)
      | exact absurd hv (by decide)
      | exact absurd h0 (by decide)

example : StatsDir exIn := .inr ⟨rfl, .inl rfl, by decide⟩

/-- The conditions are met, and the numbers are as expected. -/
example : (∃ st, (run exEnv exIn).2.get statsFile = some (.stats st) ∧ Sums exIn st) ∧ total exIn Cfg.numEdges = 8 ∧
    total exIn Cfg.numNodes = 5 ∧ total exIn (·.tries) = 3 ∧ allHops exIn = [10, 20, 30] :=
  ⟨C92_stats_partial exEnv exIn rfl exIn_fine rfl (.inr ⟨rfl, .inl rfl, by decide⟩), by decide, by decide, by decide, by decide⟩

example : ∃ st, (run exEnv exIn).2.get statsFile = some (.stats st) ∧ st.nodes = 5 ∧ st.avg = some 20 := by
  obtain ⟨st, h, hs⟩ := C92_stats_partial exEnv exIn rfl exIn_fine rfl (.inr ⟨rfl, .inl rfl, by decide⟩)
  refine ⟨st, h, ?_, ?_⟩
  · rw [C92_nodes_partial exEnv exEnv_ok exIn rfl exIn_fine exIn_asc exIn_different st h (by intro f c h; cases h)]
    decide
  · have hl : allHops exIn = [10, 20, 30] := by decide
    cases ha : st.avg with
    | none => exact absurd (hs.none.1 ha) (by rw [hl]; decide)
    | some a =>
      have := hs.avg a ha
      rw [hl] at this
      have h3 : a * 3 = 60 := by
        rw [show (([10, 20, 30] : List Rat).length : Rat) = 3 by decide +kernel,
          show ([10, 20, 30] : List Rat).sum = 60 by decide +kernel] at this
        exact this
      have : a = 20 := by
        have h4 : a * 3 / 3 = 60 / 3 := by rw [h3]
        rw [Rat.mul_div_cancel (by decide)] at h4
        rw [h4]
        decide +kernel
      rw [this]

example : ∃ st, (run exEnv exIn).2.get statsFile = some (.stats st) ∧ (∃ name, st.dims.get name = some (3, 4)) ∧
    ∃ name, st.dims.get name = some (2, 4) := by
  obtain ⟨st, h, _⟩ := C92_stats_partial exEnv exIn rfl exIn_fine rfl (.inr ⟨rfl, .inl rfl, by decide⟩)
  exact ⟨st, h,
    C92_dims_partial exEnv exEnv_ok exIn rfl exIn_fine exIn_asc exIn_different st h (by intro f c h; cases h) 0 _ rfl (by decide),
    C92_dims_partial exEnv exEnv_ok exIn rfl exIn_fine exIn_asc exIn_different st h (by intro f c h; cases h) 2 _ rfl (by decide)⟩

example : (∃ f, (run exEnv exIn).2.get f = some (.trans 0)) ∧ (∃ f, (run exEnv exIn).2.get f = some (.trans 2)) :=
  ⟨C92_trans_partial exEnv exEnv_ok exIn rfl exIn_fine exIn_asc exIn_different (.inr rfl) rfl 0 _ rfl (by decide),
   C92_trans_partial exEnv exEnv_ok exIn rfl exIn_fine exIn_asc exIn_different (.inr rfl) rfl 2 _ rfl (by decide)⟩

/-- A single trip of mode 3. -/
example : (run exEnv { exIn with trip := some 3 }).2.get pathFile = some (.path 2) ∧
    (run exEnv { exIn with trip := some 3 }).2.get statsFile = none := by decide +kernel

example : FirstUsed { exIn with trip := some 3 } 2 (exCfg [3, 700] [2, 2] [30] 2) := by
  refine ⟨rfl, by decide, ?_⟩
  intro j d hd hu
  match j, hd with
  | 0, hd => cases hd; exact absurd hu (by decide)
  | 1, hd => cases hd; exact absurd hu (by decide)
  | j + 2, _ => omega

/-- One configuration. -/
example : (run exEnv { exIn with cfgs := [exCfg [0] [1] [] 1] }).2.get "trgraph-.json".toList = some (.trans 0) ∧
    (run exEnv { exIn with cfgs := [exCfg [0] [1] [] 1] }).2.get "trgraph.json".toList = none :=
  C92_trans_single exEnv { exIn with cfgs := [exCfg [0] [1] [] 1] } rfl _ rfl (by decide) (by decide) (.inr rfl) rfl

/-! ## What is false -/

/-- Negation: if the name of a mode is also that of a larger group, different sets of modes have the same file name. -/
theorem C92_negation_names : ∃ (env : Env) (a b : List Nat), (∀ n, Asc (env.types n)) ∧ Asc a ∧ Asc b ∧ a ≠ b ∧
    (∀ m m', env.typeStr m = env.typeStr m' → m = m') ∧ fileName env a = fileName env b := by
  refine ⟨⟨fun n => if n = "bus".toList then [3, 700] else [2], fun m => if m = 3 then "bus".toList else List.replicate m 'x'⟩,
    [3], [3, 700], ?_, by unfold Asc; decide, by unfold Asc; decide, by decide, ?_, by decide⟩
  · intro n
    unfold Asc
    dsimp only
    split <;> decide
  · intro m m' h
    dsimp only at h
    have hx : ∀ k, "bus".toList ≠ List.replicate k 'x' := by
      intro k hk
      have : 'b' ∈ List.replicate k 'x' := by rw [← hk]; decide
      exact absurd (List.eq_of_mem_replicate this) (by decide)
    split at h <;> split at h
    · omega
    · exact absurd h (hx _)
    · exact absurd h.symm (hx _)
    · simpa using congrArg List.length h

/-- Two configurations that are used for the same modes (for example sections for all buses and for mode 3, and `-m 3`). -/
def exSame : In := { exIn with mots := [3], cfgs := [exCfg [3, 700] [1, 2, 1] [] 1, exCfg [3] [1, 1] [] 1] }

/-- Negation: the number of nodes is not the sum over the configurations, although that of the edges is. -/
theorem C92_negation_nodes : ∃ st, (run exEnv exSame).2.get statsFile = some (.stats st) ∧ st.nodes ≠ total exSame Cfg.numNodes ∧
    st.edges = total exSame Cfg.numEdges ∧ (∀ c ∈ exSame.cfgs, Used exSame c ∧ Fine c) := by
  obtain ⟨st, h, hs⟩ := C92_stats_partial exEnv exSame rfl (by decide) rfl (.inr ⟨rfl, .inl rfl, by decide⟩)
  refine ⟨st, h, ?_, hs.edges, by decide⟩
  have h2 : (run exEnv exSame).2.get statsFile = some (.stats ⟨5, 3, none, [("xxxx".toList, (2, 6))], 2, 6, 2, 4, 20⟩) := by
    decide +kernel
  rw [h2] at h
  cases h
  decide

/-- Negation: the transit graph of the first configuration is overwritten. -/
theorem C92_negation_trans : (∀ c ∈ exSame.cfgs, Used exSame c ∧ Fine c) ∧ exSame.buildTransitGraph = true ∧ Writable exSame ∧
    ∀ f, (run exEnv exSame).2.get f ≠ some (.trans 0) := by
  refine ⟨by decide, rfl, .inr rfl, ?_⟩
  intro f h
  have hm := FMap.mem_of_get h
  have : ∀ p ∈ (run exEnv exSame).2, p.2 ≠ .trans 0 := by decide +kernel
  exact this _ hm rfl

/-- Negation: graphs are not kept for each configuration. -/
theorem C92_negation_graph : Used exIn (exCfg [0] [1, 2, 1] [10, 20] 1) ∧ exIn.writeGraph = true ∧
    ∀ f, (run exEnv exIn).2.get f ≠ some (.graph 0) := by
  refine ⟨by decide, rfl, ?_⟩
  intro f h
  have hl := ((C92_graph exEnv exIn rfl exIn_fine (by intro f c h; cases h) (.inr rfl) rfl f 0).1 h).2
  exact absurd (hl.2 2 _ rfl (by decide)) (by decide)

/-- Negation: without a debug directory the statistics are lost, although the program says that all is well and could make the directory. -/
theorem C92_negation_stats : ∃ x : In, x.writeStats = true ∧ x.mkdir = true ∧ x.trip = none ∧ (∀ c ∈ x.cfgs, Used x c → Fine c) ∧
    (run exEnv x).1 = .success ∧ (run exEnv x).2.get statsFile = none :=
  ⟨{ exIn with writeGraph := false, buildTransitGraph := false }, rfl, rfl, rfl, by decide, by decide +kernel, by decide +kernel⟩

end Verif.Report
