import Verif.Report.Spec
import Init.Data.Rat.Lemmas

namespace Verif.Report

open Verif (FMap)
open Verif.Main (Code)

/-! ## Names -/

theorem isect_mem (a b : List Nat) (m : Nat) : m ∈ motISect a b ↔ m ∈ a ∧ m ∈ b := by
  simp [motISect, List.mem_filter, List.contains_iff_mem]

/-- Text made of parts. -/
def joinH : List Str → Str
  | [] => []
  | [a] => a
  | a :: b :: l => a ++ '-' :: joinH (b :: l)

/-- The parts of the name. -/
def gtoks (env : Env) : List Str → List Nat → List Str × List Nat
  | [], tmp => ([], tmp)
  | n :: ns, tmp =>
    if (motISect tmp (env.types n)).length = (env.types n).length then
      let r := gtoks env ns (tmp.filter (fun m => !(motISect tmp (env.types n)).contains m))
      (n :: r.1, r.2)
    else gtoks env ns tmp

def toks (env : Env) (a : List Nat) : List Str :=
  (gtoks env names a).1 ++ (gtoks env names a).2.map env.typeStr

theorem joinH_snoc (l : List Str) (n : Str) (hl : ∀ t ∈ l, t ≠ []) : joinH (l ++ [n]) = app (joinH l) n := by
  induction l with
  | nil => simp [joinH, app]
  | cons a l ih =>
    have iha := ih (fun t h => hl t (List.mem_cons_of_mem _ h))
    have ha := hl a List.mem_cons_self
    cases l with
    | nil =>
      cases a with
      | nil => exact absurd rfl ha
      | cons c a => simp [joinH, app]
    | cons b l =>
      simp only [List.cons_append] at iha ⊢
      simp only [joinH]
      rw [iha]
      cases hb : joinH (b :: l) with
      | nil =>
        exfalso
        have hb' := hl b (by simp)
        cases l with
        | nil => exact hb' (by simpa [joinH] using hb)
        | cons e l => simp [joinH] at hb
      | cons c r => cases a <;> simp [app]

theorem groups_eq (env : Env) (ns : List Str) (hn : ∀ n ∈ ns, n ≠ []) (tmp : List Nat) (l : List Str) (hl : ∀ t ∈ l, t ≠ []) :
    groups env ns tmp (joinH l) = (joinH (l ++ (gtoks env ns tmp).1), (gtoks env ns tmp).2) := by
  induction ns generalizing tmp l with
  | nil => simp [groups, gtoks]
  | cons n ns ih =>
    have hn' : ∀ m ∈ ns, m ≠ [] := fun m h => hn m (List.mem_cons_of_mem _ h)
    rw [groups, gtoks]
    dsimp only
    split
    · rw [← joinH_snoc l n hl, ih hn' _ (l ++ [n])]
      · simp
      · intro t ht
        rcases List.mem_append.1 ht with h | h
        · exact hl t h
        · rw [List.mem_singleton.1 h]; exact hn n List.mem_cons_self
    · exact ih hn' tmp l hl

theorem rest_eq (env : Env) (he : ∀ m, env.typeStr m ≠ []) (ms : List Nat) (l : List Str) (hl : ∀ t ∈ l, t ≠ []) :
    rest env ms (joinH l) = joinH (l ++ ms.map env.typeStr) := by
  induction ms generalizing l with
  | nil => simp [rest]
  | cons m ms ih =>
    rw [rest, ← joinH_snoc l _ hl, ih (l ++ [env.typeStr m])]
    · simp
    · intro t ht
      rcases List.mem_append.1 ht with h | h
      · exact hl t h
      · rw [List.mem_singleton.1 h]; exact he m

theorem gtoks_sub (env : Env) (ns : List Str) (tmp : List Nat) : ∀ t ∈ (gtoks env ns tmp).1, t ∈ ns := by
  induction ns generalizing tmp with
  | nil => intro t h; simp [gtoks] at h
  | cons n ns ih =>
    intro t h
    rw [gtoks] at h
    split at h
    · simp only [List.mem_cons] at h
      rcases h with h | h
      · simp [h]
      · exact List.mem_cons_of_mem _ (ih _ t h)
    · exact List.mem_cons_of_mem _ (ih _ t h)

theorem names_nonempty : ∀ n ∈ names, n ≠ [] := by decide

theorem names_hyphen : ∀ n ∈ names, '-' ∉ n := by decide

theorem fileName_eq (env : Env) (he : ∀ m, env.typeStr m ≠ []) (a : List Nat) : fileName env a = joinH (toks env a) := by
  have h := groups_eq env names names_nonempty a [] (by simp)
  have h0 : joinH [] = [] := rfl
  rw [h0] at h
  unfold fileName
  rw [h]
  dsimp only
  rw [List.nil_append, rest_eq env he]
  · rfl
  · intro t ht
    exact names_nonempty t (gtoks_sub env names a t ht)

/-- What a part of the name stands for. -/
def Means (env : Env) (s : Str) (m : Nat) : Prop := (s ∈ names ∧ m ∈ env.types s) ∨ env.typeStr m = s

theorem asc_nodup {l : List Nat} (h : Asc l) : l.Nodup := h.imp (fun h => Nat.ne_of_lt h)

theorem asc_ext {a b : List Nat} (ha : Asc a) (hb : Asc b) (h : ∀ m, m ∈ a ↔ m ∈ b) : a = b := by
  have hp : a.Perm b := (List.perm_ext_iff_of_nodup (asc_nodup ha) (asc_nodup hb)).2 h
  exact hp.eq_of_pairwise (fun x y _ _ h1 h2 => absurd h1 (Nat.lt_asymm h2)) ha hb

theorem isect_all {tmp types : List Nat} (ht : tmp.Nodup) (htt : types.Nodup)
    (h : (motISect tmp types).length = types.length) : ∀ m ∈ types, m ∈ tmp := by
  have hn : (motISect tmp types).Nodup := by unfold motISect; exact ht.filter _
  have hp : (motISect tmp types).Perm (types.filter (fun m => tmp.contains m)) := by
    refine (List.perm_ext_iff_of_nodup hn (htt.filter _)).2 (fun m => ?_)
    rw [isect_mem, List.mem_filter, List.contains_iff_mem, and_comm]
  have hl := List.length_filter_eq_length_iff.1 (hp.length_eq.symm.trans h)
  intro m hm
  exact List.contains_iff_mem.1 (hl m hm)

theorem gtoks_mem (env : Env) (ok : NamesOk env) (ns : List Str) (tmp : List Nat) (ht : tmp.Nodup) (m : Nat) :
    m ∈ tmp ↔ (∃ t ∈ (gtoks env ns tmp).1, m ∈ env.types t) ∨ m ∈ (gtoks env ns tmp).2 := by
  induction ns generalizing tmp with
  | nil => simp [gtoks]
  | cons n ns ih =>
    rw [gtoks]
    split
    · next h =>
      have ih' := ih (tmp.filter (fun m => !(motISect tmp (env.types n)).contains m)) (ht.filter _)
      have hall := isect_all ht (asc_nodup (ok.asc n)) h
      dsimp only
      constructor
      · intro hm
        by_cases hi : m ∈ env.types n
        · exact .inl ⟨n, by simp, hi⟩
        · have : m ∈ tmp.filter (fun m => !(motISect tmp (env.types n)).contains m) := by
            rw [List.mem_filter]
            refine ⟨hm, ?_⟩
            simp only [Bool.not_eq_true', List.contains_eq_mem, decide_eq_false_iff_not]
            exact fun hc => hi ((isect_mem _ _ _).1 hc).2
          rcases ih'.1 this with ⟨t, ht, hmt⟩ | h2
          · exact .inl ⟨t, List.mem_cons_of_mem _ ht, hmt⟩
          · exact .inr h2
      · rintro (⟨t, ht', hmt⟩ | h2)
        · rcases List.mem_cons.1 ht' with e | ht'
          · rw [e] at hmt; exact hall m hmt
          · exact (List.mem_filter.1 (ih'.2 (.inl ⟨t, ht', hmt⟩))).1
        · exact (List.mem_filter.1 (ih'.2 (.inr h2))).1
    · exact ih tmp ht

theorem toks_means (env : Env) (ok : NamesOk env) (a : List Nat) (ha : Asc a) (m : Nat) :
    m ∈ a ↔ ∃ t ∈ toks env a, Means env t m := by
  have h := gtoks_mem env ok names a (asc_nodup ha)
  constructor
  · intro hm
    rcases (h m).1 hm with ⟨t, ht, hmt⟩ | h2
    · exact ⟨t, List.mem_append_left _ ht, .inl ⟨gtoks_sub env names a t ht, hmt⟩⟩
    · exact ⟨env.typeStr m, List.mem_append_right _ (List.mem_map.2 ⟨m, h2, rfl⟩), .inr rfl⟩
  · rintro ⟨t, ht, hmt⟩
    rcases List.mem_append.1 ht with ht | ht
    · have htn := gtoks_sub env names a t ht
      rcases hmt with ⟨_, hmt⟩ | hmt
      · exact (h m).2 (.inl ⟨t, ht, hmt⟩)
      · subst hmt
        have := ok.group m htn
        exact (h m).2 (.inl ⟨_, ht, by rw [this]; simp⟩)
    · obtain ⟨m', hm', e⟩ := List.mem_map.1 ht
      subst e
      have hm'a := (h m').2 (.inr hm')
      rcases hmt with ⟨htn, hmt⟩ | hmt
      · have := ok.group m' htn
        rw [this] at hmt
        rw [List.mem_singleton.1 hmt]; exact hm'a
      · rw [ok.inj m m' hmt]; exact hm'a

theorem toks_ok (env : Env) (ok : NamesOk env) (a : List Nat) : ∀ t ∈ toks env a, t ≠ [] ∧ '-' ∉ t := by
  intro t ht
  rcases List.mem_append.1 ht with ht | ht
  · have := gtoks_sub env names a t ht
    exact ⟨names_nonempty t this, names_hyphen t this⟩
  · obtain ⟨m, _, e⟩ := List.mem_map.1 ht
    subst e
    exact ⟨ok.nonempty m, ok.hyphen m⟩

theorem split_hyphen {a b r r' : Str} (ha : '-' ∉ a) (hb : '-' ∉ b) (h : a ++ '-' :: r = b ++ '-' :: r') : a = b ∧ r = r' := by
  induction a generalizing b with
  | nil =>
    cases b with
    | nil => simpa using h
    | cons c b =>
      simp only [List.nil_append, List.cons_append, List.cons.injEq] at h
      exact absurd (h.1 ▸ List.mem_cons_self) hb
  | cons c a ih =>
    cases b with
    | nil =>
      simp only [List.nil_append, List.cons_append, List.cons.injEq] at h
      exact absurd (h.1.symm ▸ List.mem_cons_self) ha
    | cons d b =>
      simp only [List.cons_append, List.cons.injEq] at h
      have := ih (fun h => ha (List.mem_cons_of_mem _ h)) (fun h => hb (List.mem_cons_of_mem _ h)) h.2
      exact ⟨by rw [h.1, this.1], this.2⟩

theorem joinH_inj (l l' : List Str) (hl : ∀ t ∈ l, t ≠ [] ∧ '-' ∉ t) (hl' : ∀ t ∈ l', t ≠ [] ∧ '-' ∉ t)
    (h : joinH l = joinH l') : l = l' := by
  have hyp : ∀ (a b : Str) (r : Str), '-' ∉ a → a ≠ b ++ '-' :: r := by
    intro a b r ha e
    exact ha (by rw [e]; simp)
  induction l generalizing l' with
  | nil =>
    cases l' with
    | nil => rfl
    | cons a l' =>
      exfalso
      cases l' with
      | nil => exact (hl' a (by simp)).1 (by simpa [joinH] using h.symm)
      | cons b l' => simp [joinH] at h
  | cons a l ih =>
    have ha := hl a (by simp)
    cases l' with
    | nil =>
      exfalso
      cases l with
      | nil => exact ha.1 (by simpa [joinH] using h)
      | cons b l => simp [joinH] at h
    | cons a' l' =>
      have ha' := hl' a' (by simp)
      cases l with
      | nil =>
        cases l' with
        | nil => simpa [joinH] using h
        | cons b' l' => exact absurd (by simpa [joinH] using h) (hyp a a' (joinH (b' :: l')) ha.2)
      | cons b l =>
        cases l' with
        | nil => exact absurd (by simpa [joinH] using h.symm) (hyp a' a (joinH (b :: l)) ha'.2)
        | cons b' l' =>
          simp only [joinH] at h
          have hs := split_hyphen ha.2 ha'.2 h
          rw [hs.1, ih (b' :: l') (fun t ht => hl t (List.mem_cons_of_mem _ ht))
            (fun t ht => hl' t (List.mem_cons_of_mem _ ht)) hs.2]

theorem fileName_inj (env : Env) (ok : NamesOk env) {a b : List Nat} (ha : Asc a) (hb : Asc b)
    (h : fileName env a = fileName env b) : a = b := by
  rw [fileName_eq env ok.nonempty, fileName_eq env ok.nonempty] at h
  have ht := joinH_inj _ _ (toks_ok env ok a) (toks_ok env ok b) h
  apply asc_ext ha hb
  intro m
  rw [toks_means env ok a ha m, toks_means env ok b hb m, ht]

end Verif.Report
