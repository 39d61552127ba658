import Verif.Options.Lemmas

/-!
# The command line (property C75)
-/

namespace Verif.Options

variable {D T : Type}

/-- Whatever form is chosen for the options, and wherever the feeds stand between them, the configuration is the one meant. -/
theorem C75_means (E : Env D T) {is : List Item} {args : List Str} (h : Line actual true is args)
    (hv : given .version is = false) (hh : given .help is = false) :
    ∃ g : Cfg D T, read E args = .inr g ∧ Means E is g := by
  obtain ⟨r, h1, h2⟩ := loop_from E is (init E) (line_full h) hv hh
  refine ⟨{ r with
      feedPaths := r.feedPaths ++ words is
      mots := (E.split r.motStr).foldl (fun l m => l ++ E.types (E.trim m)) r.mots }, ?_, ?_⟩
  · unfold read
    simp only [scan_line h, h1]
  · exact {
      feeds := by rw [h2.feeds]; rfl
      configs := by rw [h2.configs]; rfl
      osm := h2.osm
      osmOut := h2.osmOut
      out := h2.out
      dbg := h2.dbg
      trip := h2.trip
      grid := h2.grid
      padding := h2.padding
      noise := h2.noise
      param := by rw [h2.param]; rfl
      mots := by
        intro t
        simp only [mem_types, h2.mots.1, h2.mots.2]
        simp [init]
      drop := by rw [h2.drop]; rfl
      colors := by rw [h2.colors]; rfl
      keep := by rw [h2.keep]; rfl
      inplace := by rw [h2.inplace]; rfl
      trgraph := by rw [h2.trgraph]; rfl
      graph := by rw [h2.graph]; rfl
      overpass := by rw [h2.overpass]; rfl
      osmfilter := by rw [h2.osmfilter]; rfl
      noFast := by rw [h2.noFast]; rfl
      noAStar := by rw [h2.noAStar]; rfl
      noTrie := by rw [h2.noTrie]; rfl
      noCache := by rw [h2.noCache]; rfl
      stats := by rw [h2.stats]; rfl
      warn := h2.warn
      print := by rw [h2.print]; rfl }

/-- Nothing else is accepted: a run that goes on has a command line of the described form. -/
theorem C75_accept (E : Env D T) (args : List Str) :
    (∃ g : Cfg D T, read E args = .inr g) ↔ ∃ is : List Item, Line actual true is args ∧ given .version is = false ∧ given .help is = false := by
  constructor
  · rintro ⟨g, h⟩
    unfold read at h
    cases hl : loop E (init E) (scan none args).1 with
    | inl x => simp [hl] at h
    | inr r =>
      obtain ⟨is, hi⟩ := of_scan args none (loop_fine E _ _ _ hl)
      refine ⟨is, hi, ?_⟩
      rw [scan_line hi] at hl
      by_cases hv : given .version is = true ∨ given .help is = true
      · obtain ⟨x, hx, -⟩ := loop_ends E is (init E) hv
        rw [hx] at hl
        simp at hl
      · simpa using hv
  · rintro ⟨is, h, hv, hh⟩
    obtain ⟨g, hg, -⟩ := C75_means E h hv hh
    exact ⟨g, hg⟩

/-- Asked for the version or the help text, the program prints it and ends with 0. -/
theorem C75_ends (E : Env D T) {is : List Item} {args : List Str} (h : Line actual true is args)
    (hv : given .version is = true ∨ given .help is = true) : ∃ x : Exit, read E args = .inl x ∧ x.num = 0 := by
  obtain ⟨x, h1, h2⟩ := loop_ends E is (init E) hv
  refine ⟨x, ?_, ?_⟩
  · unfold read
    simp only [scan_line h, h1]
  · rcases h2 with rfl | rfl <;> rfl

/-- The form of the options makes no difference. -/
theorem C75_forms (E : Env D T) {is js : List Item} {as bs : List Str} (ha : Line actual true is as) (hb : Line actual true js bs)
    (ho : is.filter (fun i => match i with | .use _ _ => true | .feed _ => false) =
      js.filter (fun i => match i with | .use _ _ => true | .feed _ => false)) (hw : words is = words js) : read E as = read E bs := by
  have key : ∀ l : List Item, evs l = evs (l.filter (fun i => match i with | .use _ _ => true | .feed _ => false)) := by
    intro l
    induction l with
    | nil => rfl
    | cons i l ih =>
      cases i with
      | use s v =>
        rw [evs_use, ih]
        rfl
      | feed w => exact ih
  have : evs is = evs js := by rw [key is, key js, ho]
  unfold read
  simp only [scan_line ha, scan_line hb, hw, this]

/-- The errors name a word of the command line, if they name the right one. -/
theorem C75_message_partial (E : Env D T) (args : List Str) (w : Str) (h : read E args = .inl (.missing w) ∨ read E args = .inl (.unknown (some w))) :
    w ∈ args := by
  have cl : ∀ (v cs : Str), (∀ e ∈ (cluster v cs).1, e = .missing w ∨ e = .unknown (some w) → w = v) := by
    intro v cs
    induction cs with
    | nil => intro e he; simp [cluster] at he
    | cons c cs ih =>
      intro e he
      rw [cluster] at he
      cases hc : (shorts optstring).lookup c with
      | none =>
        simp only [hc, List.mem_singleton] at he
        subst he
        intro h
        simp only [reduceCtorEq, Ev.unknown.injEq, false_or] at h
        split at h
        · simpa using h.symm
        · simp at h
      | some b =>
        cases b with
        | true =>
          simp only [hc] at he
          split at he
          · simp at he
          · simp only [List.mem_singleton] at he
            subst he
            simp
        | false =>
          simp only [hc, List.mem_cons] at he
          rcases he with rfl | he
          · simp
          · exact ih e he
  have lo : ∀ (v s : Str), (∀ e ∈ (Verif.Options.long v s).1, e = .missing w ∨ e = .unknown (some w) → w = v) := by
    intro v s e he
    unfold Verif.Options.long at he
    cases hf : findLong (s.takeWhile (· != '=')) with
    | none =>
      simp only [hf, List.mem_singleton] at he
      subst he
      simpa using fun h => h.symm
    | some o =>
      simp only [hf] at he
      split at he
      · simp only [List.mem_singleton] at he; subst he; simp
      · simp at he
      · simp only [List.mem_singleton] at he
        subst he
        simpa using fun h => h.symm
      · simp only [List.mem_singleton] at he; subst he; simp
  have sc : ∀ (as : List Str) (p : Option (Str × Code)), ∀ e ∈ (scan p as).1, e = .missing w ∨ e = .unknown (some w) →
      w ∈ as ∨ ∃ c : Code, p = some (w, c) := by
    intro as
    induction as with
    | nil =>
      intro p e he h
      cases p with
      | none => simp [scan] at he
      | some q =>
        rw [scan.eq_def] at he
        simp only [List.mem_singleton] at he
        subst he
        simp only [Ev.missing.injEq, reduceCtorEq, or_false] at h
        exact .inr ⟨q.2, by rw [← h]⟩
    | cons a as ih =>
      intro p e he h
      have tail : ∀ (p' : Option (Str × Code)), (∀ (v : Str) (c : Code), p' = some (v, c) → v = a) → e ∈ (scan p' as).1 → w ∈ a :: as := by
        intro p' hp he
        rcases ih p' e he h with h | ⟨c, h⟩
        · exact List.mem_cons_of_mem _ h
        · rw [hp w c h]
          exact List.mem_cons_self
      cases p with
      | some q =>
        rw [scan_pend] at he
        rcases List.mem_cons.mp he with rfl | he
        · simp at h
        · exact .inl (tail none (by simp) he)
      | none =>
        left
        by_cases hw : a.head? ≠ some '-' ∨ a = "-".toList
        · rw [scan_word hw] at he
          exact tail none (by simp) he
        · simp only [not_or, Decidable.not_not] at hw
          cases a with
          | nil => simp at hw
          | cons x b =>
            simp only [List.head?_cons, Option.some.injEq] at hw
            obtain ⟨rfl, hw⟩ := hw
            cases b with
            | nil => exact absurd rfl hw
            | cons c s =>
              by_cases hc : c = '-'
              · subst hc
                by_cases hs : s = []
                · subst hs
                  rw [scan.eq_def] at he
                  simp at he
                · rw [scan_long hs] at he
                  rcases List.mem_append.mp he with he | he
                  · rw [lo _ _ e he h]
                    exact List.mem_cons_self
                  · refine tail _ ?_ he
                    intro v c hvc
                    obtain ⟨k, -, hk⟩ := Option.map_eq_some_iff.mp hvc
                    simp only [Prod.mk.injEq] at hk
                    exact hk.1.symm
              · rw [scan_short hc] at he
                rcases List.mem_append.mp he with he | he
                · rw [cl _ _ e he h]
                  exact List.mem_cons_self
                · refine tail _ ?_ he
                  intro v c hvc
                  obtain ⟨k, -, hk⟩ := Option.map_eq_some_iff.mp hvc
                  simp only [Prod.mk.injEq] at hk
                  exact hk.1.symm
  have lp : ∀ (es : List Ev) (g : Cfg D T), (loop E g es = .inl (.missing w) ∨ loop E g es = .inl (.unknown (some w))) →
      ∃ e ∈ es, e = .missing w ∨ e = .unknown (some w) := by
    intro es
    induction es with
    | nil => intro g h; simp [loop] at h
    | cons e es ih =>
      intro g h
      cases e with
      | missing v =>
        simp only [loop, Sum.inl.injEq, Exit.missing.injEq, reduceCtorEq, or_false] at h
        exact ⟨_, List.mem_cons_self, .inl (by rw [h])⟩
      | unknown v =>
        simp only [loop, Sum.inl.injEq, reduceCtorEq, Exit.unknown.injEq, false_or] at h
        exact ⟨_, List.mem_cons_self, .inr (by rw [h])⟩
      | opt c a =>
        rw [loop] at h
        cases hs : step E g c (a.getD []) with
        | inl x =>
          simp only [hs, Sum.inl.injEq] at h
          exfalso
          unfold step at hs
          split at hs <;> simp only [Sum.inl.injEq, reduceCtorEq] at hs <;> (subst hs; simp at h)
        | inr g1 =>
          simp only [hs] at h
          obtain ⟨e, he, h⟩ := ih g1 h
          exact ⟨e, List.mem_cons_of_mem _ he, h⟩
  have : ∃ e ∈ (scan none args).1, e = .missing w ∨ e = .unknown (some w) := by
    apply lp _ (init E)
    unfold read at h
    cases hl : loop E (init E) (scan none args).1 with
    | inl x => simpa [hl] using h
    | inr g => simp [hl] at h
  obtain ⟨e, he, h⟩ := this
  rcases sc args none e he h with h | ⟨c, h⟩
  · exact h
  · simp at h

/-! ### The help text -/

theorem reliable_short : ∀ r ∈ reliable, ∀ p ∈ r.short, ∃ q ∈ actual, q.set = r.set ∧ q.short = some p := by decide +kernel

theorem reliable_long : ∀ r ∈ reliable, ∀ p ∈ r.long, ∃ q ∈ actual, q.set = r.set ∧ q.long = some p := by decide +kernel

theorem shortName_reliable {c : Char} {s : Setting} {v : Bool} (h : ShortName reliable c s v) : ShortName actual c s v := by
  obtain ⟨r, hr, rfl, hs⟩ := h
  obtain ⟨q, hq, h1, h2⟩ := reliable_short r hr _ hs
  exact ⟨q, hq, h1, h2⟩

theorem longName_reliable {n : Str} {s : Setting} {v : Bool} (h : LongName reliable false n s v) : LongName actual true n s v := by
  obtain ⟨hne, r, hr, m, rfl, hl, h⟩ := h
  simp only [Bool.false_eq_true, false_and, or_false] at h
  subst h
  obtain ⟨q, hq, h1, h2⟩ := reliable_long r hr _ hl
  exact ⟨hne, q, hq, n, h1, h2, .inl rfl⟩

theorem flags_reliable {ss : List Setting} {cs : Str} (h : Flags reliable ss cs) : Flags actual ss cs := by
  induction h with
  | nil => exact .nil
  | cons h _ ih => exact .cons (shortName_reliable h) ih

theorem line_reliable {is : List Item} {args : List Str} (h : Line reliable false is args) : Line actual true is args := by
  induction h with
  | nil => exact .nil
  | stop ws => exact .stop ws
  | word hw _ ih => exact .word hw ih
  | flags hf hne _ ih => exact .flags (flags_reliable hf) hne ih
  | joined hf hc hv _ ih => exact .joined (flags_reliable hf) (shortName_reliable hc) hv ih
  | next hf hc _ ih => exact .next (flags_reliable hf) (shortName_reliable hc) ih
  | long hn _ ih => exact .long (longName_reliable hn) ih
  | longEq hn _ ih => exact .longEq (longName_reliable hn) ih
  | longNext hn _ ih => exact .longNext (longName_reliable hn) ih

/-- A command line written after the help text does what the help text says, if it has neither `--drop-shapes` nor `-F`. -/
theorem C75_documented_partial (E : Env D T) {is : List Item} {args : List Str} (h : Line reliable false is args) :
    if given .version is || given .help is then ∃ x : Exit, read E args = .inl x ∧ x.num = 0
    else ∃ g : Cfg D T, read E args = .inr g ∧ Means E is g := by
  split
  · next hv => exact C75_ends E (line_reliable h) (by simpa using hv)
  · next hv =>
    simp only [Bool.or_eq_true, not_or, Bool.not_eq_true] at hv
    exact C75_means E (line_reliable h) hv.1 hv.2

/-- `--drop-shapes` swallows the next word: with the command line `-x map.osm --drop-shapes feed.zip` there is no feed. -/
theorem C75_negation_drop (E : Env D T) : ∃ (is : List Item) (args : List Str) (g : Cfg D T),
    Line documented false is args ∧ read E args = .inr g ∧ words is = ["feed.zip".toList] ∧ g.dropShapes = true ∧ g.feedPaths = [] := by
  refine ⟨[.use .osm (some "map.osm".toList), .use .drop none, .feed "feed.zip".toList],
    ["-x".toList, "map.osm".toList, "--drop-shapes".toList, "feed.zip".toList],
    { init E with osmPath := "map.osm".toList, dropShapes := true,
                  mots := (E.split "all".toList).foldl (fun l m => l ++ E.types (E.trim m)) [] }, ?_, rfl, rfl, rfl, rfl⟩
  exact .next (ss := []) (cs := []) (c := 'x') .nil ⟨both .osm 'x' "osm-file" true, by decide +kernel, rfl, rfl⟩
    (.long (n := "drop-shapes".toList) ⟨by decide +kernel, both .drop 'D' "drop-shapes" false, by decide +kernel, _, rfl, rfl, .inl rfl⟩
      (.word (by decide +kernel) .nil))

/-- At the end of the command line `--drop-shapes` is refused. -/
theorem C75_negation_drop_last (E : Env D T) : ∃ (is : List Item) (args : List Str) (x : Exit),
    Line documented false is args ∧ given .version is = false ∧ given .help is = false ∧ read E args = .inl x ∧ x.num = 1 := by
  refine ⟨[.feed "feed.zip".toList, .use .drop none], ["feed.zip".toList, "--drop-shapes".toList], .missing "--drop-shapes".toList, ?_, rfl, rfl, rfl, rfl⟩
  exact .word (by decide +kernel)
    (.long (n := "drop-shapes".toList) ⟨by decide +kernel, both .drop 'D' "drop-shapes" false, by decide +kernel, _, rfl, rfl, .inl rfl⟩ .nil)

/-- The argument the help text shows for `-F` becomes a feed. -/
theorem C75_negation_keep (E : Env D T) : ∃ (is : List Item) (args : List Str) (g : Cfg D T),
    Line documented false is args ∧ read E args = .inr g ∧ words is = ["feed.zip".toList] ∧ g.feedPaths = ["yes".toList, "feed.zip".toList] := by
  refine ⟨[.use .keep (some "yes".toList), .feed "feed.zip".toList], ["-F".toList, "yes".toList, "feed.zip".toList],
    { init E with parseAdditionalGTFSFields := true, feedPaths := ["yes".toList, "feed.zip".toList],
                  mots := (E.split "all".toList).foldl (fun l m => l ++ E.types (E.trim m)) [] }, ?_, rfl, rfl, rfl⟩
  exact .next (ss := []) (cs := []) (c := 'F') .nil ⟨both .keep 'F' "keep-additional-gtfs-fields" true, by decide +kernel, rfl, rfl⟩
    (.word (by decide +kernel) .nil)

/-- An unknown option that is not the last character of its word: the message names the word before. -/
theorem C75_negation_message (E : Env D T) : read E ["feed.zip".toList, "-qD".toList] = .inl (.unknown none) := rfl

/-! ### Paths -/

/-- The configuration files: the given ones, or the ones found at the three usual places, in this order. -/
theorem C75_config (good : Str → Bool) (pref home : Str) (cwd : Option Str) (g : Cfg D T) :
    cfgPaths good pref home cwd g = if g.configPaths = [] then ([pref, home] ++ cwd.toList).filter good else g.configPaths := by
  unfold cfgPaths
  by_cases h : g.configPaths = []
  · cases cwd <;> simp only [h, List.isEmpty_nil, Bool.not_true, Bool.false_eq_true, if_false, if_true, Option.toList_none, Option.toList_some,
      List.append_nil, List.cons_append, List.nil_append, List.filter_cons, List.filter_nil] <;>
      by_cases h1 : good pref = true <;> by_cases h2 : good home = true <;> simp only [h1, h2] <;> try rfl
    all_goals
      next p => by_cases h3 : good p = true <;> simp [h3]
  · simp [h]

/-- With one feed and `--inplace` the feed itself is written, otherwise the last output path given. -/
theorem C75_target (E : Env D T) {is : List Item} {args : List Str} (h : Line actual true is args)
    (hv : given .version is = false) (hh : given .help is = false) :
    ∃ g : Cfg D T, read E args = .inr g ∧
      (∀ f : Str, values .input is ++ words is = [f] → given .inplace is = true → outPath g = f) ∧
      ((given .inplace is = false ∨ (values .input is ++ words is).length ≠ 1) → outPath g = lastOr "gtfs-out".toList (values .out is)) := by
  obtain ⟨g, hg, m⟩ := C75_means E h hv hh
  refine ⟨g, hg, ?_, ?_⟩
  · intro f hf hi
    unfold outPath
    rw [m.feeds, hf, m.inplace, hi]
    rfl
  · intro hc
    unfold outPath
    rw [m.feeds, m.inplace, m.out]
    split
    · next f hf =>
      rw [hf] at hc
      simp only [List.length_cons, List.length_nil, Nat.zero_add, ne_eq, not_true, or_false] at hc
      rw [hc]
      rfl
    · rfl

/-! ### A command line -/

/-- `pfaedle -Dx map.osm a.zip --out=dir --mots bus -W -- -b.zip` -/
def exArgs : List Str :=
  ["-Dx".toList, "map.osm".toList, "a.zip".toList, "--out=dir".toList, "--mots".toList, "bus".toList, "-W".toList, "--".toList, "-b.zip".toList]

def exItems : List Item :=
  [.use .drop none, .use .osm (some "map.osm".toList), .feed "a.zip".toList, .use .out (some "dir".toList), .use .mots (some "bus".toList),
   .use .warn none, .feed "-b.zip".toList]

theorem ex_line : Line actual true exItems exArgs :=
  .next (ss := [.drop]) (cs := ['D']) (c := 'x')
    (.cons ⟨⟨.drop, some ('D', false), some ("drop-shapes".toList, true)⟩, by decide +kernel, rfl, rfl⟩ .nil)
    ⟨both .osm 'x' "osm-file" true, by decide +kernel, rfl, rfl⟩
    (.word (by decide +kernel)
      (.longEq (n := "out".toList) (v := "dir".toList)
        ⟨by decide +kernel, both .out 'o' "output" true, by decide +kernel, _, rfl, rfl, .inr ⟨rfl, by decide +kernel, by
          have : ∀ q ∈ actual, ∀ p ∈ q.long, "out".toList <+: p.1 → q = both .out 'o' "output" true := by decide +kernel
          intro q hq k b hk hp
          exact this q hq (k, b) hk hp⟩⟩
        (.longNext (n := "mots".toList) ⟨by decide +kernel, both .mots 'm' "mots" true, by decide +kernel, _, rfl, rfl, .inl rfl⟩
          (.flags (ss := [.warn]) (cs := ['W']) (.cons ⟨both .warn 'W' "warn" false, by decide +kernel, rfl, rfl⟩ .nil) (by simp)
            (.stop ["-b.zip".toList])))))

example (E : Env D T) : ∃ g : Cfg D T, read E exArgs = .inr g ∧ g.dropShapes = true ∧ g.osmPath = "map.osm".toList ∧
    g.feedPaths = ["a.zip".toList, "-b.zip".toList] ∧ g.outputPath = "dir".toList ∧ g.verbosity = 1 := by
  obtain ⟨g, hg, m⟩ := C75_means E ex_line rfl rfl
  exact ⟨g, hg, m.drop, m.osm, m.feeds, m.out, m.warn⟩

/-- The example of the README: `-D -x freiburg-regbez-latest.osm.bz2 VAGFR.zip`, as documented. -/
example : Line reliable false [.use .drop none, .use .osm (some "freiburg-regbez-latest.osm.bz2".toList), .feed "VAGFR.zip".toList]
    ["-D".toList, "-x".toList, "freiburg-regbez-latest.osm.bz2".toList, "VAGFR.zip".toList] :=
  .flags (ss := [.drop]) (cs := ['D']) (.cons ⟨⟨.drop, some ('D', false), none⟩, by decide +kernel, rfl, rfl⟩ .nil) (by simp)
    (.next (ss := []) (cs := []) (c := 'x') .nil ⟨both .osm 'x' "osm-file" true, by decide +kernel, rfl, rfl⟩
      (.word (by decide +kernel) .nil))

/-- An unknown option is refused, and so is an ambiguous abbreviation. -/
example (E : Env D T) : read E ["--osm".toList, "map.osm".toList] = .inl (.unknown (some "--osm".toList)) := rfl

example (E : Env D T) : read E ["a.zip".toList, "-x".toList] = .inl (.missing "-x".toList) := rfl

end Verif.Options
