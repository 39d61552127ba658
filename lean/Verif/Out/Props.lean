import Verif.Out.Term
/-!
# Writing the output feed (C41, C42)
-/

namespace Verif.Out
open Verif (FMap)
variable {R : Type}

/-! ## C41 -/

/-- **C41 (directory).** Wherever the program is interrupted or stopped by a failing operation, every file that is not a temporary one is
the old one, or it is one of the output files and is complete. -/
theorem C41_dir (f : Feed R) (c : Cfg) (g : Paths c) (p : Name → Nat) (hc : c.tgt = .dir p) (fs : FS R) (as : List Act)
    (ha : .wrErr ∉ as) (q : Nat) (hq : ¬ IsTmp c q) :
    (run c (init fs (jobs f)) as).fs.get q = fs.get q ∨
    ∃ j ∈ jobs f, q = p j.name ∧ Enabled c fs j ∧
      ∃ new, Complete c fs j new ∧ (run c (init fs (jobs f)) as).fs.get q = some (.file new) := by
  have h := run_inv g (jobs_nodup f) as _ ha (init_inv c fs (jobs f) (by rw [hc]; intro _ _ h; cases h))
  generalize run c (init fs (jobs f)) as = s at h
  obtain ⟨dn, es, e, hw, hf⟩ := h
  have hF : Frame c fs s.fs es := by
    cases hph : s.phase with
    | done => simp only [hph, hc] at hf; exact hf.2
    | aborted => simp only [hph, hc] at hf; exact hf
    | renameZip =>
      simp only [hph] at hf
      obtain ⟨-, p', t, hc', -⟩ := hf
      rw [hc] at hc'
      cases hc'
    | _ => simp only [hph] at hf; exact hf.1
  unfold Frame at hF
  simp only [hc] at hF
  by_cases hx : ∀ e ∈ es, p e.1 ≠ q
  · exact .inl (hF.2 q hq hx)
  · right
    simp only [ne_eq, Classical.not_forall, Classical.not_not] at hx
    obtain ⟨x, hx, rfl⟩ := hx
    obtain ⟨j, hj, hn, hen, hcm⟩ := hw.mem x hx
    refine ⟨j, by rw [e]; exact List.mem_append_left _ hj, by rw [hn], hen, x.2, hcm, hF.1 x hx⟩

/-- **C41 (archive).** Wherever the program is interrupted or stopped by a failing operation, nothing but temporary files has
changed, or only the archive has changed and it consists of all output files, complete and in order. -/
theorem C41_zip (f : Feed R) (c : Cfg) (g : Paths c) (p t : Nat) (hc : c.tgt = .zip p t) (fs : FS R) (ht : fs.get t = none)
    (as : List Act) (ha : .wrErr ∉ as) :
    (∀ q, ¬ IsTmp c q → (run c (init fs (jobs f)) as).fs.get q = fs.get q) ∨
    ((∃ files, Written c fs (jobs f) files ∧ (run c (init fs (jobs f)) as).fs.get p = some (.zip files)) ∧
      ∀ q, ¬ IsTmp c q → q ≠ p → (run c (init fs (jobs f)) as).fs.get q = fs.get q) := by
  have h := run_inv g (jobs_nodup f) as _ ha (init_inv c fs (jobs f) (by rw [hc]; intro _ _ h; cases h; exact ht))
  generalize run c (init fs (jobs f)) as = s at h
  obtain ⟨dn, es, e, hw, hf⟩ := h
  cases hph : s.phase with
  | done =>
    simp only [hph, hc] at hf
    obtain ⟨hnil, h1, h2⟩ := hf
    rw [hnil, List.append_nil] at e
    exact .inr ⟨⟨es, e ▸ hw, h1⟩, h2⟩
  | aborted => simp only [hph, hc] at hf; exact .inl hf
  | renameZip =>
    simp only [hph] at hf
    obtain ⟨-, p', t', -, hf, -⟩ := hf
    exact .inl hf
  | _ =>
    simp only [hph] at hf
    have := hf.1
    unfold Frame at this
    simp only [hc] at this
    exact .inl this.1

/-- The output in `fs` has a file `n` with these rows. -/
def HasOutput (c : Cfg) (fs : FS R) (n : Name) (rows : List R) : Prop :=
  match c.tgt with
  | .dir p => fs.get (p n) = some (.file rows)
  | .zip p _ => ∃ files, fs.get p = some (.zip files) ∧ (n, rows) ∈ files

/-- Before the program, there is no temporary archive. -/
def NoTmpZip (c : Cfg) (fs : FS R) : Prop := ∀ p t, c.tgt = .zip p t → fs.get t = none

/-- **C41 (end).** If the program has reached its end, every file that has to be written is complete, and no file has been written that has
not to be. -/
theorem C41_done (f : Feed R) (c : Cfg) (g : Paths c) (fs : FS R) (hz : NoTmpZip c fs) (as : List Act) (ha : .wrErr ∉ as)
    (hd : (run c (init fs (jobs f)) as).phase = .done) (j : Job R) (hj : j ∈ jobs f) :
    (Enabled c fs j → ∃ new, Complete c fs j new ∧ HasOutput c (run c (init fs (jobs f)) as).fs j.name new) ∧
    (¬ Enabled c fs j →
      (∀ p, c.tgt = .dir p → (run c (init fs (jobs f)) as).fs.get (p j.name) = fs.get (p j.name)) ∧
      ∀ p t, c.tgt = .zip p t → ¬ ∃ rows, HasOutput c (run c (init fs (jobs f)) as).fs j.name rows) := by
  have h := run_inv g (jobs_nodup f) as _ ha (init_inv c fs (jobs f) hz)
  generalize run c (init fs (jobs f)) as = s at h hd
  obtain ⟨dn, es, e, hw, hf⟩ := h
  simp only [hd] at hf
  obtain ⟨hnil, hf⟩ := hf
  rw [hnil, List.append_nil] at e
  subst e
  have uniq : ∀ j' ∈ jobs f, j'.name = j.name → j' = j := by
    intro j' hj' en
    obtain ⟨a, ha⟩ := List.getElem?_of_mem hj
    obtain ⟨b, hb⟩ := List.getElem?_of_mem hj'
    have hn := jobs_nodup f
    have e1 : ((jobs f).map (·.name))[a]? = some j.name := by rw [List.getElem?_map, ha]; rfl
    have e2 : ((jobs f).map (·.name))[b]? = some j.name := by rw [List.getElem?_map, hb, ← en]; rfl
    have hlt := (List.getElem?_eq_some_iff.1 e1).1
    have := (List.getElem?_inj hlt hn).mp (e1.trans e2.symm)
    subst this
    rw [ha] at hb
    cases hb
    rfl
  have fresh : ¬ Enabled c fs j → ∀ x ∈ es, x.1 ≠ j.name := by
    intro hne x hx en
    obtain ⟨j', hj', hn, hen, -⟩ := hw.mem x hx
    rw [uniq j' hj' (hn.trans en)] at hen
    exact hne hen
  cases hc : c.tgt with
  | dir p =>
    simp only [hc] at hf
    unfold Frame at hf
    simp only [hc] at hf
    refine ⟨fun hen => ?_, fun hne => ⟨?_, ?_⟩⟩
    · obtain ⟨new, h1, h2⟩ := hw.enabled j hj hen
      refine ⟨new, h2, ?_⟩
      simp only [HasOutput, hc]
      exact hf.1 _ h1
    · intro p' hp'
      cases hp'
      refine hf.2 _ ((g.dir p hc).1 _) ?_
      intro x hx ex
      exact fresh hne x hx ((g.dir p hc).2.1 _ _ ex)
    · intro p' t h
      cases h
  | zip p t =>
    simp only [hc] at hf
    refine ⟨fun hen => ?_, fun hne => ⟨?_, ?_⟩⟩
    · obtain ⟨new, h1, h2⟩ := hw.enabled j hj hen
      refine ⟨new, h2, ?_⟩
      simp only [HasOutput, hc]
      exact ⟨es, hf.1, h1⟩
    · intro p' h
      cases h
    · intro p' t' h
      cases h
      rintro ⟨rows, hr⟩
      simp only [HasOutput, hc] at hr
      obtain ⟨files, hfl, hm⟩ := hr
      rw [hf.1] at hfl
      cases hfl
      exact fresh hne _ hm rfl

/-- **C41 (progress).** If no operation fails and no row makes it crash, the program reaches its end. -/
theorem C41_finishes (f : Feed R) (c : Cfg) (g : Paths c) (fs : FS R) (hz : NoTmpZip c fs)
    (hT : ∀ j ∈ jobs f, Enabled c fs j → Total c fs j) :
    ∃ n, (run c (init fs (jobs f)) (List.replicate n .go)).phase = .done :=
  terminates g (jobs_nodup f) hT _ _ (Nat.le_refl _) (init_inv c fs (jobs f) hz) ⟨by simp [init], by simp [init]⟩

/-! ## C42 -/

/-- Both inputs are the same. -/
def SameInput (c c' : Cfg) (fs fs' : FS R) : Prop := ∀ n rows, HasInput c fs n rows ↔ HasInput c' fs' n rows

theorem sameInput_input {c c' : Cfg} {fs fs' : FS R} (h : SameInput c c' fs fs') (n : Name) (rows : List R) :
    Input c fs n rows ↔ Input c' fs' n rows := by
  unfold Input
  rw [h n rows, show (∃ rows, HasInput c fs n rows) ↔ (∃ rows, HasInput c' fs' n rows) from
    exists_congr fun rows => h n rows]

theorem sameInput_enabled {c c' : Cfg} {fs fs' : FS R} (h : SameInput c c' fs fs') (j : Job R) :
    Enabled c fs j ↔ Enabled c' fs' j := by
  unfold Enabled
  rw [show (∃ rows, HasInput c fs j.name rows) ↔ (∃ rows, HasInput c' fs' j.name rows) from
    exists_congr fun rows => h j.name rows]

theorem parts_unique {j : Job R} {rows : List R} {a b : List (List R)} (ha : Parts j rows a) (hb : Parts j rows b) : a = b := by
  refine List.ext_getElem? fun i => ?_
  by_cases hi : i < rows.length
  · obtain ⟨r, hr⟩ : ∃ r, rows[i]? = some r := ⟨rows[i], List.getElem?_eq_getElem hi⟩
    obtain ⟨x, hx⟩ : ∃ x, a[i]? = some x := ⟨a[i]'(by rw [ha.1]; exact hi), List.getElem?_eq_getElem _⟩
    obtain ⟨y, hy⟩ : ∃ y, b[i]? = some y := ⟨b[i]'(by rw [hb.1]; exact hi), List.getElem?_eq_getElem _⟩
    have h1 := ha.2 i r x hr hx
    have h2 := hb.2 i r y hr hy
    rw [h1] at h2
    rw [hx, hy, Option.some.inj h2]
  · rw [List.getElem?_eq_none_iff.2 (by rw [ha.1]; omega), List.getElem?_eq_none_iff.2 (by rw [hb.1]; omega)]

theorem complete_unique {c c' : Cfg} {fs fs' : FS R} (h : SameInput c c' fs fs') {j : Job R} {a b : List R}
    (ha : Complete c fs j a) (hb : Complete c' fs' j b) : a = b := by
  unfold Complete at ha hb
  cases hc : j.copies with
  | false => simp only [hc, Bool.false_eq_true, if_false] at ha hb; rw [ha, hb]
  | true =>
    simp only [hc, if_true] at ha hb
    obtain ⟨r1, p1, i1, q1, rfl⟩ := ha
    obtain ⟨r2, p2, i2, q2, rfl⟩ := hb
    have e : r1 = r2 := by
      rw [sameInput_input h] at i1
      rw [input_read i1, input_read i2]
    subst e
    rw [parts_unique q1 q2]

/-- **C42 (partial).** Let the same feed be written twice, once over its own input (or anywhere else), once to another place. If both runs reach their
end, then every file that has to be written is the same in both outputs. Missing: the directory may have more files afterwards; see
`C42_negation`. -/
theorem C42_in_place_partial (f : Feed R) (c c' : Cfg) (g : Paths c) (g' : Paths c') (fs fs' : FS R) (hz : NoTmpZip c fs)
    (hz' : NoTmpZip c' fs') (hs : SameInput c c' fs fs') (as as' : List Act) (ha : .wrErr ∉ as) (ha' : .wrErr ∉ as')
    (hd : (run c (init fs (jobs f)) as).phase = .done) (hd' : (run c' (init fs' (jobs f)) as').phase = .done)
    (j : Job R) (hj : j ∈ jobs f) (hen : Enabled c fs j) :
    ∃ rows, HasOutput c (run c (init fs (jobs f)) as).fs j.name rows ∧
      HasOutput c' (run c' (init fs' (jobs f)) as').fs j.name rows := by
  obtain ⟨a, h1, h2⟩ := (C41_done f c g fs hz as ha hd j hj).1 hen
  obtain ⟨b, h3, h4⟩ := (C41_done f c' g' fs' hz' as' ha' hd' j hj).1 ((sameInput_enabled hs j).1 hen)
  rw [← complete_unique hs h1 h3] at h4
  exact ⟨a, h2, h4⟩

/-- The files that are copied if the input has them. -/
def copiedNames : List Name :=
  [.agency, .stops, .calendar, .calendarDates, .transfers, .fareAttributes, .fareRules, .pathways, .levels]

theorem echo_complete (f : Feed R) (c : Cfg) (fs : FS R) (n : Name) (a b : Bool) (rows new : List R) (h : HasInput c fs n rows)
    (hc : Complete c fs (echoJob f n a b) new) : new = f.header n ++ rows.map (f.echo n) := by
  simp only [Complete, echoJob, if_true] at hc
  obtain ⟨r, parts, hi, hp, rfl⟩ := hc
  have e : r = rows := by rw [input_read hi, input_read (.inl h)]
  subst e
  have : parts = r.map fun x => [f.echo n x] := by
    refine parts_unique hp ⟨by simp, ?_⟩
    intro i x out hx ho
    rw [List.getElem?_map, hx] at ho
    cases ho
    rfl
  have e3 : ∀ l : List R, (l.map fun x => [f.echo n x]).flatten = l.map (f.echo n) := by
    intro l
    induction l with
    | nil => rfl
    | cons x l ih => simp [ih]
  rw [this, e3, List.append_nil]

theorem echo_enabled (f : Feed R) (c : Cfg) (fs : FS R) (n : Name) (a : Bool) (rows : List R) (h : HasInput c fs n rows) :
    Enabled c fs (echoJob f n a true) := ⟨rfl, fun _ => ⟨rows, h⟩⟩

/-- **C42 (copied files).** After a run that reached its end, in place or not, a copied file has a header and each of the rows that the input
file had before the run. frequencies.txt is copied if a trip has frequencies. -/
theorem C42_copied (f : Feed R) (c : Cfg) (g : Paths c) (fs : FS R) (hz : NoTmpZip c fs) (as : List Act) (ha : .wrErr ∉ as)
    (hd : (run c (init fs (jobs f)) as).phase = .done) (n : Name)
    (hn : n ∈ copiedNames ∨ (n = .frequencies ∧ f.hasFreqs = true)) (rows : List R) (h : HasInput c fs n rows) :
    HasOutput c (run c (init fs (jobs f)) as).fs n (f.header n ++ rows.map (f.echo n)) := by
  have key : ∀ a, echoJob f n a true ∈ jobs f →
      HasOutput c (run c (init fs (jobs f)) as).fs n (f.header n ++ rows.map (f.echo n)) := by
    intro a hj
    obtain ⟨new, h1, h2⟩ := (C41_done f c g fs hz as ha hd _ hj).1 (echo_enabled f c fs n a rows h)
    rw [echo_complete f c fs n a true rows new h h1] at h2
    exact h2
  rcases hn with hn | ⟨rfl, hf⟩
  · simp only [copiedNames, List.mem_cons, List.not_mem_nil, or_false] at hn
    rcases hn with rfl | rfl | hn
    · exact key false (by simp [jobs])
    · exact key false (by simp [jobs])
    · refine key true ?_
      rcases hn with rfl | rfl | rfl | rfl | rfl | rfl | rfl <;> simp [jobs]
  · exact key true (by simp [jobs, hf])

/-- **C42 (files from memory).** Routes, trips and attributions have a header and the rows of the feed in memory; so does feed_info.txt if there is
a publisher. -/
theorem C42_memory (f : Feed R) (c : Cfg) (g : Paths c) (fs : FS R) (hz : NoTmpZip c fs) (as : List Act) (ha : .wrErr ∉ as)
    (hd : (run c (init fs (jobs f)) as).phase = .done) :
    HasOutput c (run c (init fs (jobs f)) as).fs .routes (f.header .routes ++ f.routes) ∧
    HasOutput c (run c (init fs (jobs f)) as).fs .trips (f.header .trips ++ f.trips) ∧
    HasOutput c (run c (init fs (jobs f)) as).fs .attributions (f.header .attributions ++ f.attribution) ∧
    (f.hasPublisher = true → HasOutput c (run c (init fs (jobs f)) as).fs .feedInfo (f.header .feedInfo ++ f.feedInfo)) := by
  have key : ∀ n mem, memJob f n true mem ∈ jobs f →
      HasOutput c (run c (init fs (jobs f)) as).fs n (f.header n ++ mem) := by
    intro n mem hj
    obtain ⟨new, h1, h2⟩ := (C41_done f c g fs hz as ha hd _ hj).1 ⟨rfl, fun h => by cases h⟩
    have e : new = f.header n ++ mem := by simpa [Complete, memJob] using h1
    rw [e] at h2
    exact h2
  exact ⟨key _ _ (by simp [jobs]), key _ _ (by simp [jobs]), key _ _ (by simp [jobs]),
    fun h => key _ _ (by simp [jobs, h])⟩

/-- **C42 (shapes and stop times).** The output has, after the header, the rows kept of the input and the new shapes; and for each row of
stop_times.txt one row. -/
theorem C42_shapes_stop_times (f : Feed R) (c : Cfg) (g : Paths c) (fs : FS R) (hz : NoTmpZip c fs) (as : List Act) (ha : .wrErr ∉ as)
    (hd : (run c (init fs (jobs f)) as).phase = .done) :
    (∀ (keep : R → Bool) (rows : List R), (∀ pre r, f.keepShape pre r = keep r) → HasInput c fs .shapes rows →
      HasOutput c (run c (init fs (jobs f)) as).fs .shapes
        (f.header .shapes ++ ((rows.filter keep).map (f.echo .shapes) ++ f.newShapes))) ∧
    (∀ rows, HasInput c fs .stopTimes rows → ∃ out, HasOutput c (run c (init fs (jobs f)) as).fs .stopTimes
        (f.header .stopTimes ++ out) ∧ out.length = rows.length ∧
        ∀ (i : Nat) r r', rows[i]? = some r → out[i]? = some r' → f.stopTime (rows.take i) r = some r') := by
  constructor
  · intro keep rows hk h
    obtain ⟨new, h1, h2⟩ := (C41_done f c g fs hz as ha hd
      { name := .shapes, needsInput := false, cond := true, header := f.header .shapes, copies := true,
        copy := fun pre r => some (if f.keepShape pre r then [f.echo .shapes r] else []), mem := f.newShapes }
      (by simp [jobs])).1 ⟨rfl, fun h => by cases h⟩
    simp only [Complete, if_true] at h1
    obtain ⟨r, parts, hi, hp, rfl⟩ := h1
    have e : r = rows := by rw [input_read hi, input_read (.inl h)]
    subst e
    have e2 : parts = r.map fun x => if keep x then [f.echo .shapes x] else [] := by
      refine parts_unique hp ⟨by simp, ?_⟩
      intro i x out hx ho
      rw [List.getElem?_map, hx] at ho
      cases ho
      simp only [hk]
    have e3 : ∀ l : List R, (l.map fun x => if keep x then [f.echo .shapes x] else []).flatten =
        (l.filter keep).map (f.echo .shapes) := by
      intro l
      induction l with
      | nil => rfl
      | cons x l ih => cases hx : keep x <;> simp [hx, ih]
    rw [e2, e3, List.append_assoc] at h2
    exact h2
  · intro rows h
    obtain ⟨new, h1, h2⟩ := (C41_done f c g fs hz as ha hd
      { name := .stopTimes, needsInput := false, cond := true, header := f.header .stopTimes, copies := true,
        copy := fun pre r => (f.stopTime pre r).map ([·]), mem := [] }
      (by simp [jobs])).1 ⟨rfl, fun h => by cases h⟩
    simp only [Complete, if_true] at h1
    obtain ⟨r, parts, hi, hp, rfl⟩ := h1
    have e : r = rows := by rw [input_read hi, input_read (.inl h)]
    subst e
    simp only [List.append_nil] at h2
    have hone : ∀ (i : Nat) out, parts[i]? = some out → ∃ y, out = [y] ∧ ∀ x, r[i]? = some x → f.stopTime (r.take i) x = some y := by
      intro i out ho
      have hlt := (List.getElem?_eq_some_iff.1 ho).1
      obtain ⟨x, hx⟩ : ∃ x, r[i]? = some x := ⟨r[i]'(by rw [← hp.1]; exact hlt), List.getElem?_eq_getElem _⟩
      have := hp.2 i x out hx ho
      simp only [Option.map_eq_some_iff] at this
      obtain ⟨y, hy, rfl⟩ := this
      refine ⟨y, rfl, ?_⟩
      intro x' hx'
      rw [hx] at hx'
      cases hx'
      exact hy
    have hflat : ∀ ps : List (List R), (∀ (i : Nat) out, ps[i]? = some out → ∃ y, out = [y]) →
        ps.flatten.length = ps.length ∧ ∀ (i : Nat) y, ps.flatten[i]? = some y → ps[i]? = some [y] := by
      intro ps
      induction ps with
      | nil => intro _; simp
      | cons p ps ih =>
        intro hps
        obtain ⟨y, rfl⟩ := hps 0 p rfl
        obtain ⟨i1, i2⟩ := ih (fun i out ho => hps (i + 1) out (by simpa using ho))
        refine ⟨by simp [i1], ?_⟩
        intro i z hz
        cases i with
        | zero => simp at hz; simp [hz]
        | succ i =>
          rw [List.flatten_cons, List.singleton_append, List.getElem?_cons_succ] at hz
          rw [List.getElem?_cons_succ]
          exact i2 i z hz
    obtain ⟨f1, f2⟩ := hflat parts (fun i out ho => by obtain ⟨y, hy, -⟩ := hone i out ho; exact ⟨y, hy⟩)
    refine ⟨parts.flatten, h2, by rw [f1, hp.1], ?_⟩
    intro i x y hx hy
    obtain ⟨y', e, h'⟩ := hone i [y] (f2 i y hy)
    cases e
    exact h' x hx

/-! ## Examples -/

/-- Numbers for the files. -/
def idx : Name → Nat
  | .agency => 0 | .stops => 1 | .routes => 2 | .calendar => 3 | .calendarDates => 4 | .transfers => 5 | .fareAttributes => 6
  | .fareRules => 7 | .pathways => 8 | .levels => 9 | .shapes => 10 | .trips => 11 | .frequencies => 12 | .stopTimes => 13
  | .feedInfo => 14 | .attributions => 15

theorem idx_inj : ∀ n m, idx n = idx m → n = m := by
  intro n m
  cases n <;> cases m <;> simp [idx]

theorem idx_lt (n : Name) : idx n < 16 := by cases n <;> simp [idx]

/-- Input and output are the same directory. -/
def exIn : Cfg := { src := .dir idx, tgt := .dir idx, tmp := fun n => 100 + idx n }
/-- The output is another directory. -/
def exFresh : Cfg := { exIn with tgt := .dir fun n => 200 + idx n }
/-- The output is an archive. -/
def exZip : Cfg := { exIn with tgt := .zip 50 51 }
/-- An archive is replaced. -/
def exZipIn : Cfg := { exZip with src := .zip 50 }

theorem exIn_paths : Paths exIn where
  src n := by
    have := idx_lt n
    rintro (⟨m, h⟩ | ⟨p, h⟩)
    · simp only [srcPath, exIn] at h; omega
    · cases h
  dir p hp := by
    cases hp
    refine ⟨?_, idx_inj, ?_⟩
    · intro n
      have := idx_lt n
      rintro (⟨m, h⟩ | ⟨p, h⟩)
      · simp only [exIn] at h; omega
      · cases h
    · intro n m h
      exact idx_inj n m h
  zip p t h := by cases h

theorem exFresh_paths : Paths exFresh where
  src n := by
    have := idx_lt n
    rintro (⟨m, h⟩ | ⟨p, h⟩)
    · simp only [srcPath, exIn, exFresh] at h; omega
    · cases h
  dir p hp := by
    cases hp
    refine ⟨?_, fun n m h => idx_inj n m (by simpa using h), ?_⟩
    · intro n
      have := idx_lt n
      rintro (⟨m, h⟩ | ⟨p, h⟩)
      · simp only [exIn, exFresh] at h
        have := idx_lt m
        omega
      · cases h
    · intro n m h
      have := idx_lt n
      simp only [srcPath, exIn, exFresh] at h
      omega
  zip p t h := by cases h

theorem exZipIn_paths : Paths exZipIn where
  src n := by
    rintro (⟨m, h⟩ | ⟨p, h⟩)
    · simp only [srcPath, exIn, exZip, exZipIn] at h; omega
    · simp [exIn, exZip, exZipIn, srcPath] at h
  dir p h := by cases h
  zip p t h := by
    cases h
    refine ⟨?_, fun n => ?_⟩
    · rintro (⟨m, h⟩ | ⟨p, h⟩)
      · simp only [exIn, exZip, exZipIn] at h; omega
      · simp [exIn, exZip, exZipIn] at h
    · simp only [exIn, exZip, exZipIn]
      omega

/-- A feed: rows are numbers, 0 is the header; of the shapes, the odd ones are kept. -/
def exFeed : Feed Nat where
  header := fun _ => [0]
  echo := fun _ r => r
  routes := [21, 22]
  keepShape := fun _ r => r % 2 == 1
  newShapes := [30]
  trips := [40]
  hasFreqs := false
  stopTime := fun pre r => some (r + pre.length)
  hasPublisher := false
  feedInfo := [60]
  attribution := [70]

/-- The input directory, with frequencies, but no trip of the feed has any. -/
def exFS : FS Nat :=
  [(0, .file [1]), (1, .file [2, 3]), (2, .file [4]), (3, .file [5]), (10, .file [6, 7]), (11, .file [8]), (12, .file [9]),
   (13, .file [10, 10])]

example : NoTmpZip exIn exFS := by intro p t h; cases h
example : SameInput exIn exFresh exFS exFS := fun _ _ => Iff.rfl

/-- All the files that exist in the end, without temporary ones. -/
def finalFiles (c : Cfg) (fs : FS Nat) (n : Nat) : List (Nat × Option (Node Nat)) :=
  let s := run c (init fs (jobs exFeed)) (List.replicate n .go)
  ((List.range 300).filter fun q => (s.fs.get q).isSome).map fun q => (q, s.fs.get q)

example : (run exIn (init exFS (jobs exFeed)) (List.replicate 80 .go)).phase = .done := by decide +kernel
example : finalFiles exIn exFS 80 =
    [(0, some (.file [0, 1])), (1, some (.file [0, 2, 3])), (2, some (.file [0, 21, 22])), (3, some (.file [0, 5])),
     (10, some (.file [0, 7, 30])), (11, some (.file [0, 40])), (12, some (.file [9])), (13, some (.file [0, 10, 11])),
     (15, some (.file [0, 70]))] := by decide +kernel
/-- Interrupted while writing shapes.txt: agency, stops, routes and calendar are new. -/
example : finalFiles exIn exFS 40 =
    [(0, some (.file [0, 1])), (1, some (.file [0, 2, 3])), (2, some (.file [0, 21, 22])), (3, some (.file [0, 5])),
     (10, some (.file [6, 7])), (11, some (.file [8])), (12, some (.file [9])), (13, some (.file [10, 10])),
     (110, some (.file [0, 7]))] := by decide +kernel

/-- The input is an archive, and is replaced. -/
def exZipFS : FS Nat := [(50, .zip [(.agency, [1]), (.stops, [2]), (.stopTimes, [3, 3])])]

example : NoTmpZip exZipIn exZipFS := by intro p t h; cases h; decide
example : finalFiles exZipIn exZipFS 57 = [(50, exZipFS.get 50)] := by decide +kernel
example : finalFiles exZipIn exZipFS 70 =
    [(50, some (.zip [(.agency, [0, 1]), (.stops, [0, 2]), (.routes, [0, 21, 22]), (.shapes, [0, 30]), (.trips, [0, 40]),
      (.stopTimes, [0, 3, 4]), (.attributions, [0, 70])]))] := by decide +kernel

/-- **C42 (negation).** After writing over the input, a file of the input can be left that a new directory would not have:
frequencies.txt without a trip that has frequencies (the same holds for feed_info.txt without a publisher). -/
theorem C42_negation : ∃ (f : Feed Nat) (fs : FS Nat) (as : List Act), .wrErr ∉ as ∧
    (run exIn (init fs (jobs f)) as).phase = .done ∧ (run exFresh (init fs (jobs f)) as).phase = .done ∧
    HasOutput exIn (run exIn (init fs (jobs f)) as).fs .frequencies [9] ∧
    ¬ ∃ rows, HasOutput exFresh (run exFresh (init fs (jobs f)) as).fs .frequencies rows := by
  refine ⟨exFeed, exFS, List.replicate 80 .go, by decide, by decide +kernel, by decide +kernel, ?_, ?_⟩
  · show (run exIn (init exFS (jobs exFeed)) (List.replicate 80 .go)).fs.get 12 = _
    decide +kernel
  · rintro ⟨rows, h⟩
    have h : (run exFresh (init exFS (jobs exFeed)) (List.replicate 80 .go)).fs.get 212 = some (.file rows) := h
    have e : (run exFresh (init exFS (jobs exFeed)) (List.replicate 80 .go)).fs.get 212 = none := by decide +kernel
    rw [e] at h
    cases h

/-- **C41 (limit).** In a directory, the files are replaced one after the other: an interrupted run can leave new routes with old trips. -/
theorem C41_limit_mixed : ∃ (f : Feed Nat) (fs : FS Nat) (as : List Act), .wrErr ∉ as ∧
    (run exIn (init fs (jobs f)) as).fs.get (idx .routes) = some (.file [0, 21, 22]) ∧
    (run exIn (init fs (jobs f)) as).fs.get (idx .trips) = fs.get (idx .trips) ∧
    fs.get (idx .trips) ≠ some (.file [0, 40]) :=
  ⟨exFeed, exFS, List.replicate 40 .go, by decide, by decide +kernel, by decide +kernel, by decide⟩

/-- **C41 (limit).** Errors while writing rows are not noticed: if the disk is full, the truncated file replaces the old one, and
the program reaches its end as if nothing had happened. -/
theorem C41_limit_write_error : ∃ (f : Feed Nat) (fs : FS Nat) (as : List Act),
    (run exIn (init fs (jobs f)) as).phase = .done ∧
    fs.get (idx .stops) = some (.file [2, 3]) ∧
    (run exIn (init fs (jobs f)) as).fs.get (idx .stops) = some (.file [0]) :=
  ⟨exFeed, exFS, List.replicate 10 .go ++ [.wrErr] ++ List.replicate 80 .go, by decide +kernel, by decide, by decide +kernel⟩

end Verif.Out
