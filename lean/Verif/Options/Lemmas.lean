import Verif.Options.Spec

/-!
# The command line (proofs)
-/

namespace Verif.Options

/-- The code of a setting. -/
def codeOf : Setting → Code
  | .version => .chr 'v'
  | .help => .chr 'h'
  | .drop => .chr 'D'
  | .colors => .num 13
  | .config => .chr 'c'
  | .input => .chr 'i'
  | .keep => .chr 'F'
  | .osm => .chr 'x'
  | .mots => .chr 'm'
  | .out => .chr 'o'
  | .osmOut => .chr 'X'
  | .inplace => .num 9
  | .dbg => .chr 'd'
  | .trgraph => .num 4
  | .graph => .num 1
  | .trip => .chr 'T'
  | .overpass => .chr 'a'
  | .osmfilter => .chr 'f'
  | .grid => .chr 'g'
  | .padding => .chr 'b'
  | .noFast => .num 10
  | .noAStar => .num 11
  | .noTrie => .num 12
  | .noCache => .num 15
  | .stats => .num 14
  | .warn => .chr 'W'
  | .param => .chr 'P'
  | .noise => .num 16
  | .print => .chr 'p'

theorem ops_row : ∀ o ∈ ops, ∃ r ∈ actual, r.long = some (o.name, o.arg) ∧ o.code = codeOf r.set := by decide +kernel

theorem row_ops : ∀ r ∈ actual, ∀ p ∈ r.long, (⟨p.1, p.2, codeOf r.set⟩ : LongOpt) ∈ ops := by decide +kernel

theorem short_row : ∀ p ∈ shorts optstring, ∃ r ∈ actual, r.short = some p ∧ codeOf r.set = .chr p.1 := by decide +kernel

theorem row_short : ∀ r ∈ actual, ∀ p ∈ r.short, (shorts optstring).lookup p.1 = some p.2 ∧ codeOf r.set = .chr p.1 ∧ p.1 ≠ '-' := by
  decide +kernel

theorem ops_names : ∀ o ∈ ops, ∀ o' ∈ ops, o.name = o'.name → o = o' := by decide +kernel

theorem ops_nodup : ops.Nodup := by decide +kernel

theorem ops_eq : ∀ o ∈ ops, '=' ∉ o.name := by decide +kernel

theorem row_names : ∀ r ∈ actual, ∀ q ∈ actual, r.long.map (·.1) = q.long.map (·.1) → r.long ≠ none → r = q := by decide +kernel

theorem valued : ∀ r ∈ actual, (∀ p ∈ r.short, p.2 = true ∨ r.set ∈ [Setting.version, .help, .drop, .keep, .warn, .print]) ∧
    (∀ p ∈ r.long, p.2 = true ∨ r.set ∈ [Setting.version, .help, .colors, .keep, .inplace, .trgraph, .graph, .overpass, .osmfilter,
      .noFast, .noAStar, .noTrie, .noCache, .stats, .warn]) := by decide +kernel

theorem findLong_nil : findLong [] = none := by decide +kernel

theorem mem_single {α : Type} {l : List α} {a : α} (hn : l.Nodup) (ha : a ∈ l) (h : ∀ b ∈ l, b = a) : l = [a] := by
  cases l with
  | nil => simp at ha
  | cons x t =>
    have hx := h x List.mem_cons_self
    subst hx
    cases t with
    | nil => rfl
    | cons y t =>
      have hy := h y (by simp)
      subst hy
      simp at hn

theorem findLong_of {n : Str} {s : Setting} {v : Bool} (h : LongName actual true n s v) :
    ∃ o : LongOpt, findLong n = some o ∧ o.arg = v ∧ o.code = codeOf s := by
  obtain ⟨hne, r, hr, m, rfl, hl, h⟩ := h
  have ho := row_ops r hr (m, v) hl
  rcases h with rfl | ⟨-, hp, hu⟩
  · refine ⟨⟨n, v, codeOf r.set⟩, ?_, rfl, rfl⟩
    unfold findLong
    cases hf : ops.find? (fun o => o.name == n) with
    | none =>
      have := List.find?_eq_none.mp hf _ ho
      simp at this
    | some o =>
      have h1 := List.mem_of_find?_eq_some hf
      have h2 := List.find?_some hf
      simp only [beq_iff_eq] at h2
      simp only [Option.some.injEq]
      exact ops_names o h1 _ ho h2
  · refine ⟨⟨m, v, codeOf r.set⟩, ?_, rfl, rfl⟩
    unfold findLong
    have key : ∀ o ∈ ops, n <+: o.name → o = ⟨m, v, codeOf r.set⟩ := by
      intro o h1 h2
      obtain ⟨q, hq, hql, hqc⟩ := ops_row o h1
      have := hu q hq _ _ hql h2
      subst this
      rw [hl] at hql
      simp only [Option.some.injEq, Prod.mk.injEq] at hql
      exact ops_names o h1 _ ho hql.1.symm
    cases hf : ops.find? (fun o => o.name == n) with
    | some o =>
      have h1 := List.mem_of_find?_eq_some hf
      have h2 := List.find?_some hf
      simp only [beq_iff_eq] at h2
      simp only [Option.some.injEq]
      exact key o h1 (by rw [h2]; exact List.prefix_refl n)
    | none =>
      have : ops.filter (fun o => n.isPrefixOf o.name) = [⟨m, v, codeOf r.set⟩] := by
        apply mem_single (ops_nodup.filter _)
        · simp only [List.mem_filter, List.isPrefixOf_iff_prefix]
          exact ⟨ho, hp⟩
        · intro o h
          simp only [List.mem_filter, List.isPrefixOf_iff_prefix] at h
          exact key o h.1 h.2
      simp only [this]

theorem of_findLong {n : Str} {o : LongOpt} (h : findLong n = some o) :
    '=' ∉ n ∧ ∃ s : Setting, LongName actual true n s o.arg ∧ o.code = codeOf s := by
  have hne : n ≠ [] := by
    rintro rfl
    rw [findLong_nil] at h
    simp at h
  unfold findLong at h
  cases hf : ops.find? (fun o => o.name == n) with
  | some o' =>
    simp only [hf, Option.some.injEq] at h
    subst h
    have h1 := List.mem_of_find?_eq_some hf
    have h2 := List.find?_some hf
    simp only [beq_iff_eq] at h2
    obtain ⟨r, hr, hl, hc⟩ := ops_row _ h1
    exact ⟨h2 ▸ ops_eq _ h1, r.set, ⟨hne, r, hr, _, rfl, hl, .inl h2.symm⟩, hc⟩
  | none =>
    simp only [hf] at h
    cases hg : ops.filter (fun o => n.isPrefixOf o.name) with
    | nil => simp [hg] at h
    | cons x t =>
      cases t with
      | cons y t => simp [hg] at h
      | nil =>
        simp only [hg, Option.some.injEq] at h
        subst h
        have hx : x ∈ ops.filter (fun o => n.isPrefixOf o.name) := by rw [hg]; exact List.mem_cons_self
        have hx' := hx
        simp only [List.mem_filter, List.isPrefixOf_iff_prefix] at hx'
        obtain ⟨r, hr, hl, hc⟩ := ops_row _ hx'.1
        refine ⟨fun h => ops_eq _ hx'.1 (hx'.2.subset h), r.set, ⟨hne, r, hr, _, rfl, hl, .inr ⟨rfl, hx'.2, ?_⟩⟩, hc⟩
        intro q hq k b hk hp
        have h1 := row_ops q hq (k, b) hk
        have h2 : (⟨k, b, codeOf q.set⟩ : LongOpt) ∈ ops.filter (fun o => n.isPrefixOf o.name) := by
          simp only [List.mem_filter, List.isPrefixOf_iff_prefix]
          exact ⟨h1, hp⟩
        rw [hg] at h2
        simp only [List.mem_singleton] at h2
        refine row_names q hq r hr ?_ (by rw [hk]; simp)
        rw [hk, hl, ← h2]

/-! ### Words -/

/-- The returns of `getopt_long` an item leads to. -/
def evs (is : List Item) : List Ev := is.filterMap (fun i => match i with | .use s v => some (.opt (codeOf s) v) | .feed _ => none)

theorem evs_append (a b : List Item) : evs (a ++ b) = evs a ++ evs b := List.filterMap_append

theorem words_append (a b : List Item) : words (a ++ b) = words a ++ words b := List.filterMap_append

theorem words_bare (ss : List Setting) : words (bare ss) = [] := by simp [words, bare]

theorem evs_feeds (ws : List Str) : evs (ws.map .feed) = [] := by simp [evs]

theorem words_feeds (ws : List Str) : words (ws.map .feed) = ws := by
  induction ws with
  | nil => rfl
  | cons s ss ih => simpa [words] using ih

theorem cluster_flags {ss : List Setting} {cs : Str} (h : Flags actual ss cs) (w r : Str) :
    cluster w (cs ++ r) = (evs (bare ss) ++ (cluster w r).1, (cluster w r).2) := by
  induction h with
  | nil => rfl
  | cons hc _ ih =>
    obtain ⟨q, hq, rfl, hs⟩ := hc
    obtain ⟨h1, h2, -⟩ := row_short q hq _ hs
    rw [List.cons_append, cluster]
    simp only [] at h1
    simp only [h1, ih]
    simp [bare, evs, h2]

theorem flags_head {ss : List Setting} {c : Char} {cs : Str} (h : Flags actual ss (c :: cs)) : c ≠ '-' := by
  cases h with
  | cons hc _ =>
    obtain ⟨q, hq, rfl, hs⟩ := hc
    exact (row_short q hq _ hs).2.2

theorem scan_short {c : Char} {s : Str} {as : List Str} (h : c ≠ '-') :
    scan none (('-' :: c :: s) :: as) = ((cluster ('-' :: c :: s) (c :: s)).1 ++
      (scan ((cluster ('-' :: c :: s) (c :: s)).2.map (fun k => ('-' :: c :: s, k))) as).1,
      (scan ((cluster ('-' :: c :: s) (c :: s)).2.map (fun k => ('-' :: c :: s, k))) as).2) := by
  rw [scan.eq_def]
  split
  · simp_all
  · simp_all
  · simp_all
  · simp_all
  · simp_all
  · next hx _ heq =>
    simp only [List.cons.injEq] at heq
    exact absurd heq.1.symm (hx c s)

theorem scan_long {s : Str} {as : List Str} (h : s ≠ []) :
    scan none (('-' :: '-' :: s) :: as) = ((long ('-' :: '-' :: s) s).1 ++
      (scan ((long ('-' :: '-' :: s) s).2.map (fun k => ('-' :: '-' :: s, k))) as).1,
      (scan ((long ('-' :: '-' :: s) s).2.map (fun k => ('-' :: '-' :: s, k))) as).2) := by
  rw [scan.eq_def]
  simp [h]

theorem scan_word {w : Str} {as : List Str} (h : w.head? ≠ some '-' ∨ w = "-".toList) :
    scan none (w :: as) = ((scan none as).1, w :: (scan none as).2) := by
  rw [scan.eq_def]
  split
  all_goals simp_all

theorem scan_pend (w a : Str) (c : Code) (as : List Str) :
    scan (some (w, c)) (a :: as) = (.opt c (some a) :: (scan none as).1, (scan none as).2) := by
  rw [scan.eq_def]

theorem takeWhile_name {n v : Str} (h : '=' ∉ n) : (n ++ '=' :: v).takeWhile (· != '=') = n ∧ (n ++ '=' :: v).dropWhile (· != '=') = '=' :: v := by
  induction n with
  | nil => simp
  | cons c n ih =>
    simp only [List.mem_cons, not_or] at h
    have hc : (c != '=') = true := by simpa using fun e => h.1 e.symm
    have := ih h.2
    simp [hc, this]

theorem takeWhile_all {n : Str} (h : '=' ∉ n) : n.takeWhile (· != '=') = n ∧ n.dropWhile (· != '=') = [] := by
  induction n with
  | nil => simp
  | cons c n ih =>
    simp only [List.mem_cons, not_or] at h
    have hc : (c != '=') = true := by simpa using fun e => h.1 e.symm
    have := ih h.2
    simp [hc, this]

theorem name_eq {n : Str} {s : Setting} {v : Bool} (h : LongName actual true n s v) : '=' ∉ n := by
  obtain ⟨o, ho, -⟩ := findLong_of h
  exact (of_findLong ho).1

theorem evs_use (s : Setting) (v : Option Str) (is : List Item) : evs (.use s v :: is) = .opt (codeOf s) v :: evs is := rfl

theorem words_use (s : Setting) (v : Option Str) (is : List Item) : words (.use s v :: is) = words is := rfl

/-- The command line is read as meant. -/
theorem scan_line {is : List Item} {as : List Str} (h : Line actual true is as) : scan none as = (evs is, words is) := by
  induction h with
  | nil => rfl
  | stop ws =>
    rw [evs_feeds, words_feeds]
    show scan none (('-' :: '-' :: []) :: ws) = _
    rw [scan.eq_def]
    rfl
  | word hw _ ih =>
    rw [scan_word hw, ih]
    rfl
  | @flags ss cs is as hf hne _ ih =>
    cases cs with
    | nil => exact absurd rfl hne
    | cons c cs =>
      have := cluster_flags hf ('-' :: c :: cs) []
      rw [List.append_nil] at this
      rw [scan_short (flags_head hf), this]
      simp only [cluster, Option.map_none, ih, List.append_nil, evs_append, words_append, words_bare, List.nil_append]
  | @joined ss cs v c s is as hf hc hv _ ih =>
    obtain ⟨q, hq, rfl, hs⟩ := hc
    obtain ⟨h1, h2, h3⟩ := row_short q hq _ hs
    simp only [] at h1
    have hd : ∀ w : Str, cluster w (cs ++ c :: v) = (evs (bare ss) ++ [.opt (codeOf q.set) (some v)], none) := by
      intro w
      rw [cluster_flags hf, cluster]
      simp [h1, hv, h2]
    have : ∃ d e, cs ++ c :: v = d :: e ∧ d ≠ '-' := by
      cases cs with
      | nil => exact ⟨c, v, rfl, h3⟩
      | cons d e => exact ⟨d, _, rfl, flags_head hf⟩
    obtain ⟨d, e, h4, h5⟩ := this
    rw [h4] at hd
    rw [h4, scan_short h5, hd]
    simp only [Option.map_none, ih, evs_append, words_append, words_bare, evs_use, words_use, List.nil_append, List.append_assoc, List.cons_append]
  | @next ss cs v c s is as hf hc _ ih =>
    obtain ⟨q, hq, rfl, hs⟩ := hc
    obtain ⟨h1, h2, h3⟩ := row_short q hq _ hs
    simp only [] at h1
    have hd : ∀ w : Str, cluster w (cs ++ [c]) = (evs (bare ss), some (codeOf q.set)) := by
      intro w
      rw [cluster_flags hf, cluster]
      simp [h1, h2]
    have : ∃ d e, cs ++ [c] = d :: e ∧ d ≠ '-' := by
      cases cs with
      | nil => exact ⟨c, [], rfl, h3⟩
      | cons d e => exact ⟨d, _, rfl, flags_head hf⟩
    obtain ⟨d, e, h4, h5⟩ := this
    rw [h4] at hd
    rw [h4, scan_short h5, hd]
    simp only [Option.map_some, scan_pend, ih, evs_append, words_append, words_bare, evs_use, words_use, List.nil_append]
  | @long n s is as hn _ ih =>
    obtain ⟨o, h1, h2, h3⟩ := findLong_of hn
    obtain ⟨h4, h5⟩ := takeWhile_all (name_eq hn)
    have : ∀ w : Str, Verif.Options.long w n = ([.opt (codeOf s) none], none) := by
      intro w
      simp only [Verif.Options.long, h4, h5, h1, h2, h3]
    rw [scan_long hn.1, this]
    simp only [Option.map_none, ih, evs_use, words_use, List.cons_append, List.nil_append]
  | @longEq n v s is as hn _ ih =>
    obtain ⟨o, h1, h2, h3⟩ := findLong_of hn
    obtain ⟨h4, h5⟩ := takeWhile_name (v := v) (name_eq hn)
    have : ∀ w : Str, Verif.Options.long w (n ++ '=' :: v) = ([.opt (codeOf s) (some v)], none) := by
      intro w
      simp only [Verif.Options.long, h4, h5, h1, h2, h3]
    rw [scan_long (by simp), this]
    simp only [Option.map_none, ih, evs_use, words_use, List.cons_append, List.nil_append]
  | @longNext n v s is as hn _ ih =>
    obtain ⟨o, h1, h2, h3⟩ := findLong_of hn
    obtain ⟨h4, h5⟩ := takeWhile_all (name_eq hn)
    have : ∀ w : Str, Verif.Options.long w n = ([], some (codeOf s)) := by
      intro w
      simp only [Verif.Options.long, h4, h5, h1, h2, h3]
    rw [scan_long hn.1, this]
    simp only [Option.map_some, scan_pend, ih, evs_use, words_use, List.nil_append]

/-! ### What is accepted -/

/-- No error among the returns. -/
def Fine (l : List Ev) : Prop := ∀ e ∈ l, ∃ (c : Code) (a : Option Str), e = .opt c a

theorem fine_append {a b : List Ev} : Fine (a ++ b) ↔ Fine a ∧ Fine b := by
  simp only [Fine, List.mem_append]
  constructor
  · intro h
    exact ⟨fun e he => h e (.inl he), fun e he => h e (.inr he)⟩
  · rintro ⟨h1, h2⟩ e (he | he)
    · exact h1 e he
    · exact h2 e he

theorem shortName_of {c : Char} {b : Bool} (h : (shorts optstring).lookup c = some b) :
    ∃ s : Setting, ShortName actual c s b ∧ codeOf s = .chr c := by
  have hm : (c, b) ∈ shorts optstring := by
    rw [List.lookup_eq_some_iff] at h
    obtain ⟨l1, l2, h, -⟩ := h
    rw [h]
    simp
  obtain ⟨r, hr, hs, hc⟩ := short_row _ hm
  exact ⟨r.set, ⟨r, hr, rfl, hs⟩, hc⟩

/-- A word of short options without an error. -/
theorem of_cluster (w : Str) : ∀ (cs : Str), Fine (cluster w cs).1 →
    ((cluster w cs).2 = none ∧ ∃ ss : List Setting, Flags actual ss cs) ∨
    ((cluster w cs).2 = none ∧ ∃ (ss : List Setting) (ds v : Str) (c : Char) (s : Setting), Flags actual ss ds ∧ ShortName actual c s true ∧ v ≠ [] ∧
      cs = ds ++ c :: v) ∨
    (∃ (ss : List Setting) (ds : Str) (c : Char) (s : Setting), Flags actual ss ds ∧ ShortName actual c s true ∧ cs = ds ++ [c] ∧
      (cluster w cs).2 = some (codeOf s)) := by
  intro cs
  induction cs with
  | nil => exact fun _ => .inl ⟨rfl, [], .nil⟩
  | cons c cs ih =>
    intro h
    cases hc : (shorts optstring).lookup c with
    | none =>
      rw [cluster] at h
      simp only [hc] at h
      obtain ⟨_, _, h⟩ := h _ (List.mem_singleton.mpr rfl)
      simp at h
    | some b =>
      obtain ⟨s, hs, hco⟩ := shortName_of hc
      cases b with
      | true =>
        by_cases he : cs.isEmpty = true
        · right; right
          rw [cluster]
          simp only [hc, he, if_true]
          refine ⟨[], [], c, s, .nil, hs, ?_, by rw [hco]⟩
          rw [List.isEmpty_iff.mp he]
          rfl
        · right; left
          rw [cluster]
          simp only [hc, he]
          exact ⟨rfl, [], [], cs, c, s, .nil, hs, by simpa using he, rfl⟩
      | false =>
        have hf : Fine (cluster w cs).1 := by
          rw [cluster] at h
          simp only [hc] at h
          exact fun e he => h e (List.mem_cons_of_mem _ he)
        have h2 : (cluster w (c :: cs)).2 = (cluster w cs).2 := by
          rw [cluster]
          simp only [hc]
        rw [h2]
        rcases ih hf with ⟨h1, ss, h3⟩ | ⟨h1, ss, ds, v, d, t, h3, h4, h5, h6⟩ | ⟨ss, ds, d, t, h3, h4, h5, h6⟩
        · exact .inl ⟨h1, s :: ss, .cons hs h3⟩
        · exact .inr (.inl ⟨h1, s :: ss, c :: ds, v, d, t, .cons hs h3, h4, h5, by rw [h6]; rfl⟩)
        · exact .inr (.inr ⟨s :: ss, c :: ds, d, t, .cons hs h3, h4, by rw [h5]; rfl, h6⟩)

theorem split_name (s : Str) : s = s.takeWhile (· != '=') ++ s.dropWhile (· != '=') := List.takeWhile_append_dropWhile.symm

theorem drop_head (s : Str) (c : Char) (v : Str) (h : s.dropWhile (· != '=') = c :: v) : c = '=' := by
  have := List.head?_dropWhile_not (· != '=') s
  rw [h] at this
  simpa using this

/-- A long option without an error. -/
theorem of_long (w s : Str) (h : Fine (Verif.Options.long w s).1) :
    ((Verif.Options.long w s).2 = none ∧ ∃ t : Setting, LongName actual true s t false) ∨
    ((Verif.Options.long w s).2 = none ∧ ∃ (t : Setting) (n v : Str), LongName actual true n t true ∧ s = n ++ '=' :: v) ∨
    (∃ t : Setting, LongName actual true s t true ∧ (Verif.Options.long w s).2 = some (codeOf t)) := by
  unfold Verif.Options.long at h ⊢
  cases hf : findLong (s.takeWhile (· != '=')) with
  | none =>
    simp only [hf] at h
    obtain ⟨_, _, h⟩ := h _ (List.mem_singleton.mpr rfl)
    simp at h
  | some o =>
    obtain ⟨-, t, ht, hc⟩ := of_findLong hf
    cases hv : s.dropWhile (· != '=') with
    | nil =>
      have hs : s = s.takeWhile (· != '=') := by
        have := split_name s
        rwa [hv, List.append_nil] at this
      rw [← hs] at ht hf
      cases ha : o.arg with
      | false =>
        left
        rw [ha] at ht
        rw [← hs]
        simp only [hf, ha]
        exact ⟨trivial, t, ht⟩
      | true =>
        right; right
        rw [ha] at ht
        rw [← hs]
        simp only [hf, ha]
        exact ⟨t, ht, by rw [hc]⟩
    | cons c v =>
      have hcv := drop_head s c v hv
      subst hcv
      cases ha : o.arg with
      | false =>
        simp only [hf, hv, ha] at h
        obtain ⟨_, _, h⟩ := h _ (List.mem_singleton.mpr rfl)
        simp at h
      | true =>
        right; left
        rw [ha] at ht
        simp only [hf, ha]
        refine ⟨trivial, t, _, v, ht, ?_⟩
        have := split_name s
        rwa [hv] at this

/-- A command line without an error is one of the described ones. -/
theorem of_scan : ∀ (as : List Str) (p : Option (Str × Code)), Fine (scan p as).1 →
    match p with
    | none => ∃ is : List Item, Line actual true is as
    | some _ => ∃ (v : Str) (bs : List Str) (is : List Item), as = v :: bs ∧ Line actual true is bs := by
  intro as
  induction as with
  | nil =>
    intro p h
    cases p with
    | none => exact ⟨[], .nil⟩
    | some q =>
      rw [scan.eq_def] at h
      obtain ⟨_, _, h⟩ := h _ (List.mem_singleton.mpr rfl)
      simp at h
  | cons a as ih =>
    intro p h
    cases p with
    | some q =>
      rw [scan.eq_def] at h
      obtain ⟨is, hi⟩ := ih none (fun e he => h e (List.mem_cons_of_mem _ he))
      exact ⟨a, as, is, rfl, hi⟩
    | none =>
      show ∃ is : List Item, Line actual true is (a :: as)
      by_cases hw : a.head? ≠ some '-' ∨ a = "-".toList
      · rw [scan_word hw] at h
        obtain ⟨is, hi⟩ := ih none h
        exact ⟨_, .word hw hi⟩
      · simp only [not_or, Decidable.not_not] at hw
        cases a with
        | nil => simp at hw
        | cons x b =>
          simp only [List.head?_cons, Option.some.injEq] at hw
          obtain ⟨rfl, hw⟩ := hw
          cases b with
          | nil => exact absurd rfl hw
          | cons c s =>
            by_cases hc : c = '-'
            · subst hc
              by_cases hs : s = []
              · subst hs
                exact ⟨_, .stop as⟩
              · rw [scan_long hs] at h
                simp only [fine_append] at h
                rcases of_long _ _ h.1 with ⟨h1, t, h2⟩ | ⟨h1, t, n, v, h2, h3⟩ | ⟨t, h2, h3⟩
                · rw [h1] at h
                  obtain ⟨is, hi⟩ := ih none h.2
                  exact ⟨_, .long h2 hi⟩
                · rw [h1] at h
                  obtain ⟨is, hi⟩ := ih none h.2
                  rw [h3]
                  exact ⟨_, .longEq h2 hi⟩
                · rw [h3] at h
                  obtain ⟨v, bs, is, rfl, hi⟩ := ih (some _) h.2
                  exact ⟨_, .longNext h2 hi⟩
            · rw [scan_short hc] at h
              simp only [fine_append] at h
              rcases of_cluster _ _ h.1 with ⟨h1, ss, h3⟩ | ⟨h1, ss, ds, v, d, t, h3, h4, h5, h6⟩ | ⟨ss, ds, d, t, h3, h4, h5, h6⟩
              · rw [h1] at h
                obtain ⟨is, hi⟩ := ih none h.2
                exact ⟨_, .flags h3 (by simp) hi⟩
              · rw [h1] at h
                obtain ⟨is, hi⟩ := ih none h.2
                rw [h6]
                exact ⟨_, .joined h3 h4 h5 hi⟩
              · rw [h6] at h
                obtain ⟨v, bs, is, rfl, hi⟩ := ih (some _) h.2
                rw [h5]
                exact ⟨_, .next h3 h4 hi⟩

/-! ### What is set -/

/-- Settings with values have one. -/
def Full (is : List Item) : Prop := ∀ s : Setting, .use s none ∈ is → s ∈ [Setting.version, .help, .drop, .colors, .keep, .inplace, .trgraph, .graph,
  .overpass, .osmfilter, .noFast, .noAStar, .noTrie, .noCache, .stats, .warn, .print]

theorem flags_full {ss : List Setting} {cs : Str} (h : Flags actual ss cs) : Full (bare ss) := by
  induction h with
  | nil => intro s hs; simp [bare] at hs
  | cons hc _ ih =>
    obtain ⟨r, hr, rfl, hs⟩ := hc
    intro s h
    simp only [bare, List.map_cons, List.mem_cons, Item.use.injEq, and_true] at h
    rcases h with rfl | h
    · have := (valued r hr).1 _ hs
      simp only [Bool.false_eq_true, false_or] at this
      simp only [List.mem_cons, List.not_mem_nil, or_false] at this ⊢
      rcases this with h | h | h | h | h | h <;> simp [h]
    · exact ih s h

theorem full_append {a b : List Item} (ha : Full a) (hb : Full b) : Full (a ++ b) := by
  intro s h
  rcases List.mem_append.mp h with h | h
  · exact ha s h
  · exact hb s h

theorem full_some {s : Setting} {v : Str} {b : List Item} (hb : Full b) : Full (.use s (some v) :: b) := by
  intro t h
  simp only [List.mem_cons, Item.use.injEq, reduceCtorEq, and_false, false_or] at h
  exact hb t h

theorem line_full {is : List Item} {as : List Str} (h : Line actual true is as) : Full is := by
  induction h with
  | nil => intro s h; simp at h
  | stop ws => intro s h; simp at h
  | word _ _ ih => intro s h; simp only [List.mem_cons, reduceCtorEq, false_or] at h; exact ih s h
  | flags hf _ _ ih => exact full_append (flags_full hf) ih
  | joined hf _ _ _ ih => exact full_append (flags_full hf) (full_some ih)
  | next hf _ _ ih => exact full_append (flags_full hf) (full_some ih)
  | long hn _ ih =>
    obtain ⟨-, r, hr, m, rfl, hl, -⟩ := hn
    intro s h
    simp only [List.mem_cons, Item.use.injEq, and_true] at h
    rcases h with rfl | h
    · have := (valued r hr).2 _ hl
      simp only [Bool.false_eq_true, false_or] at this
      simp only [List.mem_cons, List.not_mem_nil, or_false] at this ⊢
      rcases this with h | h | h | h | h | h | h | h | h | h | h | h | h | h | h <;> simp [h]
    · exact ih s h
  | longEq _ _ ih => exact full_some ih
  | longNext _ _ ih => exact full_some ih

theorem lastOr_cons {α : Type} (d x : α) (l : List α) : lastOr d (x :: l) = lastOr x l := by
  simp [lastOr, List.getLast?_cons]

theorem lastOr_nil {α : Type} (d : α) : lastOr d [] = d := rfl

/-- From one configuration to another. -/
structure From {D T : Type} (E : Env D T) (g : Cfg D T) (is : List Item) (r : Cfg D T) : Prop where
  feeds : r.feedPaths = g.feedPaths ++ values .input is
  configs : r.configPaths = g.configPaths ++ values .config is
  osm : r.osmPath = lastOr g.osmPath (values .osm is)
  osmOut : r.writeOsm = lastOr g.writeOsm (values .osmOut is)
  out : r.outputPath = lastOr g.outputPath (values .out is)
  dbg : r.dbgOutputPath = lastOr g.dbgOutputPath (values .dbg is)
  trip : r.shapeTripId = lastOr g.shapeTripId (values .trip is)
  grid : r.gridSize = lastOr g.gridSize ((values .grid is).map (fun v => E.perDeg (E.atof v)))
  padding : r.boxPadding = lastOr g.boxPadding ((values .padding is).map E.atof)
  noise : r.gaussianNoise = lastOr g.gaussianNoise ((values .noise is).map E.atof)
  param : r.motCfgParam = g.motCfgParam ++ (values .param is).flatMap (fun v => '\n' :: v)
  mots : r.mots = g.mots ∧ r.motStr = lastOr g.motStr (values .mots is)
  drop : r.dropShapes = (g.dropShapes || given .drop is)
  colors : r.writeColors = (g.writeColors || given .colors is)
  keep : r.parseAdditionalGTFSFields = (g.parseAdditionalGTFSFields || given .keep is)
  inplace : r.inPlace = (g.inPlace || given .inplace is)
  trgraph : r.buildTransitGraph = (g.buildTransitGraph || given .trgraph is)
  graph : r.writeGraph = (g.writeGraph || given .graph is)
  overpass : r.writeOverpass = (g.writeOverpass || given .overpass is)
  osmfilter : r.writeOsmfilter = (g.writeOsmfilter || given .osmfilter is)
  noFast : r.noFastHops = (g.noFastHops || given .noFast is)
  noAStar : r.noAStar = (g.noAStar || given .noAStar is)
  noTrie : r.noTrie = (g.noTrie || given .noTrie is)
  noCache : r.noHopCache = (g.noHopCache || given .noCache is)
  stats : r.writeStats = (g.writeStats || given .stats is)
  warn : r.verbosity = if given .warn is then 1 else g.verbosity
  print : r.printOpts = (g.printOpts || given .print is)

theorem values_use (s t : Setting) (v : Option Str) (is : List Item) :
    values s (.use t v :: is) = if t = s then v.toList ++ values s is else values s is := by
  unfold values
  by_cases h : t = s
  · cases v <;> simp [h]
  · simp [h]

theorem given_use (s t : Setting) (v : Option Str) (is : List Item) : given s (.use t v :: is) = (t == s || given s is) := by
  simp [given]

theorem values_feed (s : Setting) (w : Str) (is : List Item) : values s (.feed w :: is) = values s is := rfl

theorem given_feed (s : Setting) (w : Str) (is : List Item) : given s (.feed w :: is) = given s is := by simp [given]

/-- A field is kept, or changed by this option. -/
local macro "fld " t:term : tactic =>
  `(tactic| first | exact $t | (have h0 := $t; simpa [values_use, given_use, lastOr_cons] using h0))

set_option maxHeartbeats 1000000 in
theorem loop_from {D T : Type} (E : Env D T) : ∀ (is : List Item) (g : Cfg D T), Full is → given .version is = false → given .help is = false →
    ∃ r : Cfg D T, loop E g (evs is) = .inr r ∧ From E g is r := by
  intro is
  induction is with
  | nil =>
    intro g _ _ _
    refine ⟨g, rfl, ?_⟩
    constructor <;> simp [values, given, lastOr]
  | cons i is ih =>
    intro g hf hv hh
    have hf' : Full is := fun s h => hf s (List.mem_cons_of_mem _ h)
    cases i with
    | feed w =>
      rw [given_feed] at hv hh
      obtain ⟨r, h1, h2⟩ := ih g hf' hv hh
      refine ⟨r, h1, ?_⟩
      cases h2
      constructor <;> simp only [values_feed, given_feed] <;> assumption
    | use s v =>
      rw [given_use] at hv hh
      simp only [Bool.or_eq_false_iff] at hv hh
      have hn : v = none → s ∈ [Setting.version, .help, .drop, .colors, .keep, .inplace, .trgraph, .graph,
          .overpass, .osmfilter, .noFast, .noAStar, .noTrie, .noCache, .stats, .warn, .print] := by
        rintro rfl
        exact hf s List.mem_cons_self
      obtain ⟨g1, hg, hF⟩ : ∃ g1 : Cfg D T, step E g (codeOf s) (v.getD []) = .inr g1 ∧
          ∀ r : Cfg D T, From E g1 is r → From E g (.use s v :: is) r := by
        cases s
        case version => simp at hv
        case help => simp at hh
        all_goals
          refine ⟨_, rfl, ?_⟩
          intro r h
          cases v
        all_goals first
          | (exfalso; revert hn; simp; done)
          | exact {
              feeds := by fld h.feeds
              configs := by fld h.configs
              osm := by fld h.osm
              osmOut := by fld h.osmOut
              out := by fld h.out
              dbg := by fld h.dbg
              trip := by fld h.trip
              grid := by fld h.grid
              padding := by fld h.padding
              noise := by fld h.noise
              param := by fld h.param
              mots := by fld h.mots
              drop := by fld h.drop
              colors := by fld h.colors
              keep := by fld h.keep
              inplace := by fld h.inplace
              trgraph := by fld h.trgraph
              graph := by fld h.graph
              overpass := by fld h.overpass
              osmfilter := by fld h.osmfilter
              noFast := by fld h.noFast
              noAStar := by fld h.noAStar
              noTrie := by fld h.noTrie
              noCache := by fld h.noCache
              stats := by fld h.stats
              warn := by fld h.warn
              print := by fld h.print }
      obtain ⟨r, h1, h2⟩ := ih g1 hf' hv.2 hh.2
      refine ⟨r, ?_, hF r h2⟩
      rw [evs_use, loop]
      simp only [hg, h1]

theorem loop_ends {D T : Type} (E : Env D T) : ∀ (is : List Item) (g : Cfg D T), (given .version is = true ∨ given .help is = true) →
    ∃ x : Exit, loop E g (evs is) = .inl x ∧ (x = .version ∨ x = .help) := by
  intro is
  induction is with
  | nil => intro g h; simp [given] at h
  | cons i is ih =>
    intro g h
    cases i with
    | feed w =>
      rw [given_feed, given_feed] at h
      exact ih g h
    | use s v =>
      rw [given_use, given_use] at h
      rw [evs_use, loop]
      by_cases h1 : s = .version
      · subst h1
        exact ⟨.version, rfl, .inl rfl⟩
      · by_cases h2 : s = .help
        · subst h2
          exact ⟨.help, rfl, .inr rfl⟩
        · have h3 : given .version is = true ∨ given .help is = true := by
            rcases h with h | h
            · left; simpa [h1] using h
            · right; simpa [h2] using h
          have : ∃ g1 : Cfg D T, step E g (codeOf s) (v.getD []) = .inr g1 := by
            cases s
            case version => exact absurd rfl h1
            case help => exact absurd rfl h2
            all_goals exact ⟨_, rfl⟩
          obtain ⟨g1, hg⟩ := this
          simp only [hg]
          exact ih g1 h3

/-- Without an error the loop saw none. -/
theorem loop_fine {D T : Type} (E : Env D T) : ∀ (es : List Ev) (g r : Cfg D T), loop E g es = .inr r → Fine es := by
  intro es
  induction es with
  | nil => intro g r _ e he; simp at he
  | cons e es ih =>
    intro g r h
    cases e with
    | missing w => simp [loop] at h
    | unknown w => simp [loop] at h
    | opt c a =>
      rw [loop] at h
      cases hs : step E g c (a.getD []) with
      | inl x => simp [hs] at h
      | inr g1 =>
        simp only [hs] at h
        intro e he
        rcases List.mem_cons.mp he with rfl | he
        · exact ⟨c, a, rfl⟩
        · exact ih g1 r h e he

theorem mem_types {D T : Type} (E : Env D T) (t : T) : ∀ (ps : List Str) (l : List T),
    t ∈ ps.foldl (fun l m => l ++ E.types (E.trim m)) l ↔ t ∈ l ∨ ∃ p ∈ ps, t ∈ E.types (E.trim p) := by
  intro ps
  induction ps with
  | nil => intro l; simp
  | cons p ps ih =>
    intro l
    rw [List.foldl_cons, ih]
    simp only [List.mem_append, List.mem_cons, exists_eq_or_imp, or_assoc]

end Verif.Options
