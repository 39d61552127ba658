import Verif.Out.Lemmas
/-!
# Writing the output feed (termination)
-/

namespace Verif.Out
open Verif (FMap)
variable {R : Type}

/-- No row makes the program crash. -/
def Total (c : Cfg) (fs : FS R) (j : Job R) : Prop :=
  ∀ rows, Input c fs j.name rows → ∀ (k : Nat) r, rows[k]? = some r → (j.copy (rows.take k) r).isSome

/-- Rows of the input file. -/
def inLen (c : Cfg) (fs0 : FS R) (j : Job R) : Nat := ((read c fs0 j.name).getD []).length

def weight (c : Cfg) (fs0 : FS R) (j : Job R) : Nat := j.header.length + inLen c fs0 j + j.mem.length + 7

def weights (c : Cfg) (fs0 : FS R) : List (Job R) → Nat
  | [] => 3
  | j :: js => weight c fs0 j + weights c fs0 js

/-- A number that gets smaller with every step. -/
def measure (c : Cfg) (fs0 : FS R) (s : St R) : Nat :=
  match s.phase, s.todo with
  | .done, _ => 0
  | .aborted, _ => 0
  | .renameZip, _ => 1
  | .start, js => weights c fs0 js
  | .hdr k, j :: js => (j.header.length - k) + inLen c fs0 j + j.mem.length + 6 + weights c fs0 js
  | .rows k, j :: js => (inLen c fs0 j - k) + j.mem.length + 5 + weights c fs0 js
  | .mem k, j :: js => (j.mem.length - k) + 4 + weights c fs0 js
  | .close, _ :: js => 3 + weights c fs0 js
  | .unlinked _, _ :: js => 2 + weights c fs0 js
  | _, [] => 3

/-- Before the end, without errors. -/
def Alive (c : Cfg) (s : St R) : Prop :=
  s.phase ≠ .aborted ∧ (s.phase = .renameZip → ∀ p t, c.tgt = .zip p t → ∃ n, s.fs.get t = some n)

theorem alive_step {c : Cfg} (g : Paths c) {fs0 : FS R} {js0 : List (Job R)} (hnd : (js0.map (·.name)).Nodup)
    (hT : ∀ j ∈ js0, Enabled c fs0 j → Total c fs0 j) (s : St R)
    (h : Inv c fs0 js0 s) (hA : Alive c s) (hd : s.phase ≠ .done) :
    Alive c (step c s .go) ∧ measure c fs0 (step c s .go) < measure c fs0 s := by
  obtain ⟨fs, todo, ph, za, bad⟩ := s
  have hemit : ∀ (p : Nat) (rows : List R), (emit ⟨fs, todo, ph, za, bad⟩ p rows .go).todo = todo := by
    intro p rows
    unfold emit
    split <;> rfl
  cases ph with
  | done => exact absurd rfl hd
  | aborted => exact absurd rfl hA.1
  | renameZip =>
    obtain ⟨dn, es, e, hw, ht, p, t, hc, hf, hz⟩ := h
    obtain ⟨n, hn⟩ := hA.2 rfl p t hc
    dsimp only at hn
    have e : step c ⟨fs, todo, .renameZip, za, bad⟩ .go = ⟨(fs.put p n).erase t, todo, .done, za, bad⟩ := by
      simp [step, hc, hn]
    rw [e]
    exact ⟨⟨by simp, by simp⟩, by simp [measure]⟩
  | start =>
    obtain ⟨dn, es, e, hw, hf, hz, -⟩ := h
    dsimp only at e hf hz
    cases todo with
    | nil =>
      cases hc : c.tgt with
      | dir p => exact ⟨⟨by simp [step, hc], by simp [step, hc]⟩, by simp [step, hc, measure, weights]⟩
      | zip p t =>
        refine ⟨⟨by simp [step, hc], ?_⟩, by simp [step, hc, measure, weights]⟩
        intro _ p' t' hc'
        rw [hc] at hc'
        cases hc'
        exact ⟨.zip za, by simp [step, hc, FMap.get_put]⟩
    | cons j js =>
      simp only [step]
      split
      · simp only [reduceCtorEq, if_false]
        refine ⟨⟨by simp, by simp⟩, ?_⟩
        simp only [measure, weights, weight]
        omega
      · refine ⟨⟨by simp, by simp⟩, ?_⟩
        simp only [measure, weights, weight]
        omega
  | hdr k =>
    obtain ⟨dn, es, e, hw, hf, hz, j, js, rfl, hen, hb, ht⟩ := h
    simp only [step]
    cases hk : j.header[k]? with
    | some r =>
      have hlt := (List.getElem?_eq_some_iff.1 hk).1
      refine ⟨⟨by simp, by simp⟩, ?_⟩
      simp only [measure, hemit]
      omega
    | none =>
      cases hc : j.copies with
      | true =>
        refine ⟨⟨by simp, by simp⟩, ?_⟩
        simp only [measure, if_true]
        omega
      | false =>
        refine ⟨⟨by simp, by simp⟩, ?_⟩
        simp only [measure, Bool.false_eq_true, if_false]
        omega
  | rows k =>
    obtain ⟨dn, es, e, hw, hf, hz, j, js, parts, rfl, hen, hb, hcp, hk, hp, ht⟩ := h
    dsimp only at e hf hz hb ht
    subst e
    have hr := frame_read g hf j.name (written_fresh hnd hw)
    have hin := read_input c fs0 j.name
    have hT := hT j (by simp) hen _ hin
    simp only [step, hr]
    cases hrk : ((read c fs0 j.name).getD [])[k]? with
    | some r =>
      have hlt := (List.getElem?_eq_some_iff.1 hrk).1
      obtain ⟨out, ho⟩ := Option.isSome_iff_exists.1 (hT k r hrk)
      simp only [ho]
      refine ⟨⟨by simp, by simp⟩, ?_⟩
      simp only [measure, hemit, inLen]
      omega
    | none =>
      refine ⟨⟨by simp, by simp⟩, ?_⟩
      simp only [measure]
      omega
  | mem k =>
    obtain ⟨dn, es, e, hw, hf, hz, j, js, pre, rfl, hen, hb, hcm, ht⟩ := h
    simp only [step]
    cases hk : j.mem[k]? with
    | some r =>
      have hlt := (List.getElem?_eq_some_iff.1 hk).1
      refine ⟨⟨by simp, by simp⟩, ?_⟩
      simp only [measure, hemit]
      omega
    | none =>
      refine ⟨⟨by simp, by simp⟩, ?_⟩
      simp only [measure]
      omega
  | close =>
    obtain ⟨dn, es, e, hw, hf, hz, j, js, new, rfl, hen, hcm, ht⟩ := h
    simp only [step, reduceCtorEq, if_false]
    cases hc : c.tgt with
    | dir p =>
      refine ⟨⟨by simp, by simp⟩, ?_⟩
      simp only [measure]
      omega
    | zip p t =>
      refine ⟨⟨by simp, by simp⟩, ?_⟩
      simp only [measure]
      omega
  | unlinked rows =>
    obtain ⟨dn, es, e, hw, hf, hz, j, js, rfl, hen, hcm, p, t, hc⟩ := h
    simp only [step, reduceCtorEq, if_false]
    refine ⟨⟨by simp, by simp⟩, ?_⟩
    simp only [measure]
    omega

theorem terminates {c : Cfg} (g : Paths c) {fs0 : FS R} {js0 : List (Job R)} (hnd : (js0.map (·.name)).Nodup)
    (hT : ∀ j ∈ js0, Enabled c fs0 j → Total c fs0 j) : ∀ (m : Nat) (s : St R), measure c fs0 s ≤ m →
    Inv c fs0 js0 s → Alive c s → ∃ n, (run c s (List.replicate n .go)).phase = .done := by
  intro m
  induction m with
  | zero =>
    intro s hm h hA
    by_cases hd : s.phase = .done
    · exact ⟨0, hd⟩
    · have := (alive_step g hnd hT s h hA hd).2
      omega
  | succ m ih =>
    intro s hm h hA
    by_cases hd : s.phase = .done
    · exact ⟨0, hd⟩
    · obtain ⟨h1, h2⟩ := alive_step g hnd hT s h hA hd
      obtain ⟨n, hn⟩ := ih (step c s .go) (by omega) (step_inv g hnd s .go (by decide) h) h1
      exact ⟨n + 1, by rw [List.replicate_succ]; exact hn⟩

end Verif.Out
