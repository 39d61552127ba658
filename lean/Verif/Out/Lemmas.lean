import Verif.Out.Spec
/-!
# Writing the output feed (invariant)
-/

namespace Verif.Out
open Verif (FMap)
variable {R : Type}

theorem read_iff (c : Cfg) (fs : FS R) (n : Name) (rows : List R) : read c fs n = some rows ↔ HasInput c fs n rows := by
  unfold read HasInput
  cases c.src with
  | dir p =>
    simp only
    cases h : fs.get (p n) with
    | none => simp
    | some v => cases v <;> simp
  | zip p =>
    simp only
    cases h : fs.get p with
    | none => simp
    | some v => cases v <;> simp

theorem read_input (c : Cfg) (fs : FS R) (n : Name) : Input c fs n ((read c fs n).getD []) := by
  cases h : read c fs n with
  | some rows => exact .inl ((read_iff _ _ _ _).1 h)
  | none =>
    refine .inr ⟨rfl, ?_⟩
    rintro ⟨rows, hr⟩
    rw [(read_iff _ _ _ _).2 hr] at h
    cases h

theorem input_read {c : Cfg} {fs : FS R} {n : Name} {rows : List R} (h : Input c fs n rows) : rows = (read c fs n).getD [] := by
  rcases h with h | ⟨h, hn⟩
  · rw [(read_iff _ _ _ _).2 h]; rfl
  · cases hr : read c fs n with
    | none => exact h
    | some r => exact absurd ⟨r, (read_iff _ _ _ _).1 hr⟩ hn

theorem enabled_iff (c : Cfg) (fs : FS R) (j : Job R) :
    (j.cond && (!j.needsInput || (read c fs j.name).isSome)) = true ↔ Enabled c fs j := by
  simp only [Bool.and_eq_true, Bool.or_eq_true, Bool.not_eq_true', Enabled, Option.isSome_iff_exists, read_iff]
  refine and_congr_right fun _ => ?_
  cases j.needsInput <;> simp

theorem read_congr {c : Cfg} {fs fs' : FS R} {n : Name} (h : fs.get (srcPath c n) = fs'.get (srcPath c n)) :
    read c fs n = read c fs' n := by
  unfold srcPath at h
  unfold read
  cases hs : c.src <;> simp only [hs] at h ⊢ <;> rw [h]

theorem Written.snoc_skip {c : Cfg} {fs : FS R} {js files j} (h : Written c fs js files) (hj : ¬ Enabled c fs j) :
    Written c fs (js ++ [j]) files := by
  induction h with
  | nil => exact .skip hj .nil
  | skip h _ ih => exact .skip h ih
  | put h h' _ ih => exact .put h h' ih

theorem Written.snoc_put {c : Cfg} {fs : FS R} {js files j new} (h : Written c fs js files) (hj : Enabled c fs j)
    (hn : Complete c fs j new) : Written c fs (js ++ [j]) (files ++ [(j.name, new)]) := by
  induction h with
  | nil => exact .put hj hn .nil
  | skip h _ ih => exact .skip h ih
  | put h h' _ ih => exact .put h h' ih

theorem Written.mem {c : Cfg} {fs : FS R} {js files} (h : Written c fs js files) :
    ∀ e ∈ files, ∃ j ∈ js, j.name = e.1 ∧ Enabled c fs j ∧ Complete c fs j e.2 := by
  induction h with
  | nil => simp
  | skip _ _ ih =>
    intro e he
    obtain ⟨j, h, h'⟩ := ih e he
    exact ⟨j, List.mem_cons_of_mem _ h, h'⟩
  | put h h' _ ih =>
    intro e he
    rcases List.mem_cons.1 he with rfl | he
    · exact ⟨_, List.mem_cons_self, rfl, h, h'⟩
    · obtain ⟨j, h, h'⟩ := ih e he
      exact ⟨j, List.mem_cons_of_mem _ h, h'⟩

theorem Written.enabled {c : Cfg} {fs : FS R} {js files} (h : Written c fs js files) :
    ∀ j ∈ js, Enabled c fs j → ∃ new, (j.name, new) ∈ files ∧ Complete c fs j new := by
  induction h with
  | nil => simp
  | skip hn _ ih =>
    intro j hj he
    rcases List.mem_cons.1 hj with rfl | hj
    · exact absurd he hn
    · exact ih j hj he
  | put h h' _ ih =>
    intro j hj he
    rcases List.mem_cons.1 hj with rfl | hj
    · exact ⟨_, List.mem_cons_self, h'⟩
    · obtain ⟨new, h, h'⟩ := ih j hj he
      exact ⟨new, List.mem_cons_of_mem _ h, h'⟩

/-- Visible files: those written so far are new, all others are old. -/
def Frame (c : Cfg) (fs0 fs : FS R) (es : List (Name × List R)) : Prop :=
  match c.tgt with
  | .dir p => (∀ e ∈ es, fs.get (p e.1) = some (.file e.2)) ∧
      ∀ q, ¬ IsTmp c q → (∀ e ∈ es, p e.1 ≠ q) → fs.get q = fs0.get q
  | .zip _ t => (∀ q, ¬ IsTmp c q → fs.get q = fs0.get q) ∧ fs.get t = none

theorem frame_of_eq {c : Cfg} {fs0 fs fs' : FS R} {es} (g : Paths c) (h : Frame c fs0 fs es) (hq : ∀ q, (∀ n, q ≠ c.tmp n) → fs'.get q = fs.get q) :
    Frame c fs0 fs' es := by
  have hq' : ∀ q, ¬ IsTmp c q → fs'.get q = fs.get q := fun q h => hq q (fun n e => h (.inl ⟨n, e⟩))
  unfold Frame at h ⊢
  cases hc : c.tgt with
  | dir p =>
    simp only [hc] at h ⊢
    obtain ⟨h1, h2⟩ := h
    refine ⟨fun e he => ?_, fun q hn ht => ?_⟩
    · rw [hq' _ ((g.dir p hc).1 _)]; exact h1 e he
    · rw [hq' _ hn]; exact h2 q hn ht
  | zip p t =>
    simp only [hc] at h ⊢
    refine ⟨fun q hn => ?_, ?_⟩
    · rw [hq' _ hn]; exact h.1 q hn
    · rw [hq _ (fun n e => (g.zip p t hc).2 n e.symm)]; exact h.2

theorem frame_put {c : Cfg} {fs0 fs : FS R} {es} (g : Paths c) (h : Frame c fs0 fs es) (n : Name) (v : Node R) :
    Frame c fs0 (fs.put (c.tmp n) v) es :=
  frame_of_eq g h fun q hq => by rw [FMap.get_put, if_neg (hq n)]

theorem frame_erase {c : Cfg} {fs0 fs : FS R} {es} (g : Paths c) (h : Frame c fs0 fs es) (n : Name) :
    Frame c fs0 (fs.erase (c.tmp n)) es :=
  frame_of_eq g h fun q hq => by rw [FMap.get_erase, if_neg (hq n)]

/-- Files that are still to be written have their old input. -/
theorem frame_read {c : Cfg} {fs0 fs : FS R} {es} (g : Paths c) (h : Frame c fs0 fs es) (n : Name) (hn : ∀ e ∈ es, e.1 ≠ n) :
    read c fs n = read c fs0 n := by
  refine read_congr ?_
  unfold Frame at h
  cases hc : c.tgt with
  | dir p =>
    simp only [hc] at h
    refine h.2 _ (g.src n) ?_
    intro e he e'
    exact hn e he ((g.dir p hc).2.2 _ _ e'.symm).symm
  | zip p t =>
    simp only [hc] at h
    exact h.1 _ (g.src n)

/-- What has been written to the temporary file. -/
def PhaseInv (c : Cfg) (fs0 fs : FS R) (bad : Bool) (todo : List (Job R)) : Phase R → Prop
  | .hdr k => ∃ j js, todo = j :: js ∧ Enabled c fs0 j ∧ bad = false ∧
      fs.get (c.tmp j.name) = some (.file (j.header.take k))
  | .rows k => ∃ j js parts, todo = j :: js ∧ Enabled c fs0 j ∧ bad = false ∧ j.copies = true ∧
      k ≤ ((read c fs0 j.name).getD []).length ∧ Parts j (((read c fs0 j.name).getD []).take k) parts ∧
      fs.get (c.tmp j.name) = some (.file (j.header ++ parts.flatten))
  | .mem k => ∃ j js pre, todo = j :: js ∧ Enabled c fs0 j ∧ bad = false ∧ Complete c fs0 j (pre ++ j.mem) ∧
      fs.get (c.tmp j.name) = some (.file (pre ++ j.mem.take k))
  | .close => ∃ j js new, todo = j :: js ∧ Enabled c fs0 j ∧ Complete c fs0 j new ∧
      fs.get (c.tmp j.name) = some (.file new)
  | .unlinked rows => ∃ j js, todo = j :: js ∧ Enabled c fs0 j ∧ Complete c fs0 j rows ∧ ∃ p t, c.tgt = .zip p t
  | _ => True

/-- The invariant. -/
def Inv (c : Cfg) (fs0 : FS R) (js0 : List (Job R)) (s : St R) : Prop :=
  ∃ dn es, js0 = dn ++ s.todo ∧ Written c fs0 dn es ∧
    match s.phase with
    | .done => s.todo = [] ∧
      match c.tgt with
      | .dir _ => Frame c fs0 s.fs es
      | .zip p _ => s.fs.get p = some (.zip es) ∧ ∀ q, ¬ IsTmp c q → q ≠ p → s.fs.get q = fs0.get q
    | .renameZip => s.todo = [] ∧ ∃ p t, c.tgt = .zip p t ∧ (∀ q, ¬ IsTmp c q → s.fs.get q = fs0.get q) ∧
        (s.fs.get t = none ∨ s.fs.get t = some (.zip es))
    | .aborted =>
      match c.tgt with
      | .dir _ => Frame c fs0 s.fs es
      | .zip _ _ => ∀ q, ¬ IsTmp c q → s.fs.get q = fs0.get q
    | ph => Frame c fs0 s.fs es ∧ ((∃ p t, c.tgt = .zip p t) → s.za = es) ∧ PhaseInv c fs0 s.fs s.bad s.todo ph

theorem inv_aborted {c : Cfg} {fs0 fs : FS R} {js0 dn todo : List (Job R)} {es za bad} (e : js0 = dn ++ todo)
    (hw : Written c fs0 dn es) (h : Frame c fs0 fs es) : Inv c fs0 js0 ⟨fs, todo, .aborted, za, bad⟩ := by
  refine ⟨dn, es, e, hw, ?_⟩
  unfold Frame at *
  cases hc : c.tgt with
  | dir p => simp only [hc] at h ⊢; exact h
  | zip p t => simp only [hc] at h ⊢; exact h.1

theorem written_fresh {c : Cfg} {fs0 : FS R} {dn js : List (Job R)} {es} {j : Job R} (hn : ((dn ++ j :: js).map (·.name)).Nodup)
    (hw : Written c fs0 dn es) : ∀ e ∈ es, e.1 ≠ j.name := by
  intro e he e'
  obtain ⟨d, hd, hd', -⟩ := hw.mem e he
  simp only [List.map_append, List.map_cons, List.nodup_append] at hn
  exact hn.2.2 d.name (List.mem_map.2 ⟨d, hd, rfl⟩) j.name List.mem_cons_self (hd'.trans e')

theorem frame_dir_put {c : Cfg} {fs0 fs : FS R} {es} (g : Paths c) (p : Name → Nat) (hc : c.tgt = .dir p)
    (h : Frame c fs0 fs es) (n : Name) (hn : ∀ e ∈ es, e.1 ≠ n) (new : List R) :
    Frame c fs0 (fs.put (p n) (.file new)) (es ++ [(n, new)]) := by
  unfold Frame at h ⊢
  simp only [hc] at h ⊢
  refine ⟨?_, ?_⟩
  · intro e he
    rw [FMap.get_put]
    rcases List.mem_append.1 he with he | he
    · rw [if_neg (fun e' => hn e he ((g.dir p hc).2.1 _ _ e'))]
      exact h.1 e he
    · simp only [List.mem_singleton] at he
      subst he
      simp
  · intro q hq hall
    rw [FMap.get_put, if_neg (fun e => hall (n, new) (by simp) e.symm)]
    exact h.2 q hq (fun e he => hall e (List.mem_append_left _ he))

theorem parts_snoc {j : Job R} {rows : List R} {parts : List (List R)} {k : Nat} {r : R} {out : List R} (hk : rows[k]? = some r)
    (h : Parts j (rows.take k) parts) (hc : j.copy (rows.take k) r = some out) :
    Parts j (rows.take (k + 1)) (parts ++ [out]) := by
  have hlt : k < rows.length := (List.getElem?_eq_some_iff.1 hk).1
  have hl : parts.length = k := by rw [h.1, List.length_take]; omega
  refine ⟨by simp only [List.length_append, List.length_singleton, List.length_take, hl]; omega, ?_⟩
  intro i q o hq ho
  have hik : i < k + 1 := by
    have := (List.getElem?_eq_some_iff.1 hq).1
    rw [List.length_take] at this
    omega
  rw [List.getElem?_take_of_lt hik] at hq
  rw [List.take_take, Nat.min_eq_left (by omega)]
  by_cases hi : i < k
  · rw [List.getElem?_append_left (by omega)] at ho
    have := h.2 i q o (by rw [List.getElem?_take_of_lt hi]; exact hq) ho
    rwa [List.take_take, Nat.min_eq_left (by omega)] at this
  · have : i = k := by omega
    subst this
    rw [List.getElem?_append_right (by omega), hl] at ho
    simp at ho
    subst ho
    rw [hk] at hq
    cases hq
    exact hc

theorem tmpRows_eq {fs : FS R} {p : Nat} {rows : List R} (h : fs.get p = some (.file rows)) : tmpRows fs p = rows := by
  unfold tmpRows
  rw [h]

theorem step_inv {c : Cfg} (g : Paths c) {fs0 : FS R} {js0 : List (Job R)} (hnd : (js0.map (·.name)).Nodup) (s : St R) (a : Act)
    (ha : a ≠ .wrErr) (h : Inv c fs0 js0 s) : Inv c fs0 js0 (step c s a) := by
  obtain ⟨fs, todo, ph, za, bad⟩ := s
  have hemit : ∀ (p : Nat) (rows pre : List R) , bad = false → fs.get p = some (.file pre) →
      emit ⟨fs, todo, ph, za, bad⟩ p rows a = ⟨fs.put p (.file (pre ++ rows)), todo, ph, za, bad⟩ := by
    intro p rows pre hb hp
    subst hb
    simp [emit, ha, tmpRows_eq hp]
  cases ph with
  | done => exact h
  | aborted => exact h
  | renameZip =>
    obtain ⟨dn, es, e, hw, ht, p, t, hc, hf, hz⟩ := h
    have hab : Inv c fs0 js0 ⟨fs, todo, .aborted, za, bad⟩ :=
      ⟨dn, es, e, hw, by simp only [hc]; exact hf⟩
    simp only [step, hc]
    by_cases ho : a = .opErr
    · rw [if_pos ho]; exact hab
    rw [if_neg ho]
    rcases hz with hz | hz
    · simp only [hz]; exact hab
    · simp only [hz]
      refine ⟨dn, es, e, hw, ht, ?_⟩
      simp only [hc]
      have hpt : ¬ p = t := fun e => (g.zip p t hc).1 (.inr ⟨p, e ▸ hc⟩)
      refine ⟨?_, ?_⟩
      · rw [FMap.get_erase, if_neg hpt, FMap.get_put, if_pos rfl]
      · intro q hq hqp
        have : ¬ q = t := fun e => hq (.inr ⟨p, e ▸ hc⟩)
        rw [FMap.get_erase, if_neg this, FMap.get_put, if_neg hqp]
        exact hf q hq
  | start =>
    obtain ⟨dn, es, e, hw, hf, hz, -⟩ := h
    dsimp only at e hf hz
    cases todo with
    | nil =>
      cases hc : c.tgt with
      | dir p =>
        simp only [step, hc]
        refine ⟨dn, es, e, hw, rfl, ?_⟩
        simp only [hc]
        exact hf
      | zip p t =>
        have hz := hz ⟨p, t, hc⟩
        unfold Frame at hf
        simp only [hc] at hf
        simp only [step, hc]
        by_cases hg : a = .go
        · rw [if_pos hg]
          refine ⟨dn, es, e, hw, rfl, p, t, hc, ?_, ?_⟩
          · intro q hq
            have : ¬ q = t := fun e => hq (.inr ⟨p, e ▸ hc⟩)
            show (fs.put t _).get q = _
            rw [FMap.get_put, if_neg this]
            exact hf.1 q hq
          · right
            show (fs.put t _).get t = _
            rw [FMap.get_put, if_pos rfl, hz]
        · rw [if_neg hg]
          exact ⟨dn, es, e, hw, rfl, p, t, hc, hf.1, .inl hf.2⟩
    | cons j js =>
      subst e
      have hr := frame_read g hf j.name (written_fresh hnd hw)
      simp only [step]
      rw [show read c fs j.name = read c fs0 j.name from hr]
      by_cases hen : (j.cond && (!j.needsInput || (read c fs0 j.name).isSome)) = true
      · rw [if_pos hen]
        rw [enabled_iff] at hen
        by_cases ho : a = .opErr
        · rw [if_pos ho]
          exact inv_aborted rfl hw hf
        · rw [if_neg ho]
          refine ⟨dn, es, rfl, hw, frame_put g hf _ _, hz, j, js, rfl, hen, rfl, ?_⟩
          rw [FMap.get_put, if_pos rfl, List.take_zero]
      · rw [if_neg hen]
        rw [enabled_iff] at hen
        exact ⟨dn ++ [j], es, by simp, hw.snoc_skip hen, hf, hz, trivial⟩
  | hdr k =>
    obtain ⟨dn, es, e, hw, hf, hz, j, js, rfl, hen, hb, ht⟩ := h
    dsimp only at e hf hz hb ht
    subst e
    simp only [step]
    cases hk : j.header[k]? with
    | some r =>
      simp only [hemit _ [r] _ hb ht]
      refine ⟨dn, es, rfl, hw, frame_put g hf _ _, hz, j, js, rfl, hen, hb, ?_⟩
      rw [FMap.get_put, if_pos rfl, List.take_add_one, hk]
      rfl
    | none =>
      have hkl : j.header.length ≤ k := List.getElem?_eq_none_iff.1 hk
      rw [List.take_of_length_le hkl] at ht
      cases hc : j.copies with
      | true =>
        simp only [if_true]
        exact ⟨dn, es, rfl, hw, hf, hz, j, js, [], rfl, hen, hb, hc, Nat.zero_le _, ⟨rfl, by simp⟩, by simpa using ht⟩
      | false =>
        simp only [Bool.false_eq_true, if_false]
        refine ⟨dn, es, rfl, hw, hf, hz, j, js, j.header, rfl, hen, hb, ?_, by simpa using ht⟩
        simp [Complete, hc]
  | rows k =>
    obtain ⟨dn, es, e, hw, hf, hz, j, js, parts, rfl, hen, hb, hcp, hk, hp, ht⟩ := h
    dsimp only at e hf hz hb ht
    subst e
    have hr := frame_read g hf j.name (written_fresh hnd hw)
    have hin := read_input c fs0 j.name
    simp only [step, hr]
    generalize hrows : (read c fs0 j.name).getD [] = rows at hk hp hin ⊢
    cases hrk : rows[k]? with
    | some r =>
      simp only
      cases hcopy : j.copy (rows.take k) r with
      | none => exact inv_aborted rfl hw hf
      | some out =>
        simp only [hemit _ out _ hb ht]
        refine ⟨dn, es, rfl, hw, frame_put g hf _ _, hz, j, js, parts ++ [out], rfl, hen, hb, hcp, ?_, ?_, ?_⟩
        · rw [hrows]
          have := (List.getElem?_eq_some_iff.1 hrk).1
          omega
        · rw [hrows]
          exact parts_snoc hrk hp hcopy
        · rw [FMap.get_put, if_pos rfl]
          simp
    | none =>
      have hle : rows.length ≤ k := List.getElem?_eq_none_iff.1 hrk
      rw [List.take_of_length_le hle] at hp
      refine ⟨dn, es, rfl, hw, hf, hz, j, js, j.header ++ parts.flatten, rfl, hen, hb, ?_, by simpa using ht⟩
      unfold Complete
      rw [if_pos hcp]
      exact ⟨rows, parts, hin, hp, rfl⟩
  | mem k =>
    obtain ⟨dn, es, e, hw, hf, hz, j, js, pre, rfl, hen, hb, hcm, ht⟩ := h
    dsimp only at e hf hz hb ht
    subst e
    simp only [step]
    cases hk : j.mem[k]? with
    | some r =>
      simp only [hemit _ [r] _ hb ht]
      refine ⟨dn, es, rfl, hw, frame_put g hf _ _, hz, j, js, pre, rfl, hen, hb, hcm, ?_⟩
      rw [FMap.get_put, if_pos rfl, List.take_add_one, hk]
      simp
    | none =>
      have hkl : j.mem.length ≤ k := List.getElem?_eq_none_iff.1 hk
      rw [List.take_of_length_le hkl] at ht
      exact ⟨dn, es, rfl, hw, hf, hz, j, js, _, rfl, hen, hcm, ht⟩
  | close =>
    obtain ⟨dn, es, e, hw, hf, hz, j, js, new, rfl, hen, hcm, ht⟩ := h
    dsimp only at e hf hz ht
    subst e
    simp only [step]
    by_cases ho : a = .opErr
    · rw [if_pos ho]
      exact inv_aborted rfl hw hf
    rw [if_neg ho, tmpRows_eq ht]
    cases hc : c.tgt with
    | dir p =>
      refine ⟨dn ++ [j], es ++ [(j.name, new)], by simp, hw.snoc_put hen hcm, ?_, ?_, trivial⟩
      · exact frame_erase g (frame_dir_put g p hc hf _ (written_fresh hnd hw) new) _
      · rintro ⟨p', t, hc'⟩
        rw [hc] at hc'
        cases hc'
    | zip p t => exact ⟨dn, es, rfl, hw, frame_erase g hf _, hz, j, js, rfl, hen, hcm, p, t, hc⟩
  | unlinked rows =>
    obtain ⟨dn, es, e, hw, hf, hz, j, js, rfl, hen, hcm, p, t, hc⟩ := h
    dsimp only at e hf hz
    subst e
    simp only [step]
    by_cases ho : a = .opErr
    · rw [if_pos ho]
      exact inv_aborted rfl hw hf
    rw [if_neg ho]
    refine ⟨dn ++ [j], es ++ [(j.name, rows)], by simp, hw.snoc_put hen hcm, ?_, ?_, trivial⟩
    · unfold Frame at hf ⊢
      simp only [hc] at hf ⊢
      exact hf
    · intro h'
      simp only [hz h']

theorem run_inv {c : Cfg} (g : Paths c) {fs0 : FS R} {js0 : List (Job R)} (hnd : (js0.map (·.name)).Nodup) :
    ∀ (as : List Act) (s : St R), .wrErr ∉ as → Inv c fs0 js0 s → Inv c fs0 js0 (run c s as) := by
  intro as
  induction as with
  | nil => intro s _ h; exact h
  | cons a as ih =>
    intro s ha h
    simp only [List.mem_cons, not_or] at ha
    exact ih _ ha.2 (step_inv g hnd s a (fun e => ha.1 e.symm) h)

theorem init_inv (c : Cfg) (fs : FS R) (js : List (Job R)) (hz : ∀ p t, c.tgt = .zip p t → fs.get t = none) :
    Inv c fs js (init fs js) := by
  refine ⟨[], [], rfl, .nil, ?_, fun _ => rfl, trivial⟩
  unfold Frame
  cases hc : c.tgt with
  | dir p => simp [init]
  | zip p t => exact ⟨fun _ _ => rfl, hz p t hc⟩

theorem jobs_nodup (f : Feed R) : ((jobs f).map (·.name)).Nodup := by
  have : (jobs f).map (·.name) = [.agency, .stops, .routes, .calendar, .calendarDates, .transfers, .fareAttributes, .fareRules, .pathways,
    .levels, .shapes, .trips, .frequencies, .stopTimes, .feedInfo, .attributions] := rfl
  rw [this]
  decide

end Verif.Out
