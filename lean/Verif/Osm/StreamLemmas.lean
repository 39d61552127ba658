import Verif.Osm.Doc

/-!
# Streaming OSM readers (lemmas)
-/

set_option linter.unusedSectionVars false

namespace Verif.Osm
open Verif.Names (Str)

variable {P W : Type}

/-- A list of tags at which a section ends. -/
def EndsAt (start : Tag P → Option W) : List (Ev P) → Prop
  | [] => True
  | e :: _ => (e.level = 2 ∨ e.level = 0) ∧ start e.tag = none

def stepKid (child : W → Tag P → W) (w : W) (e : Ev P) : W := if e.level = 3 then child w e.tag else w

def buildWith (start : Tag P → Option W) (child : W → Tag P → W) (w0 : W) (x : El P) : W :=
  x.kids.foldl (stepKid child) ((start x.head).getD w0)

theorem flat_cons (x : El P) (xs : List (El P)) : flat (x :: xs) = ⟨2, x.head⟩ :: (x.kids ++ flat xs) := rfl

theorem flat_append (xs ys : List (El P)) : flat (xs ++ ys) = flat xs ++ flat ys := by simp [flat]

theorem nextGo_kids (start : Tag P → Option W) (child : W → Tag P → W) (keep : W → Option W) (kids : List (Ev P))
    (h : ∀ e ∈ kids, 3 ≤ e.level) (r : List (Ev P)) (w : W) :
    nextGo start child keep (kids ++ r) w = nextGo start child keep r (kids.foldl (stepKid child) w) := by
  induction kids generalizing w with
  | nil => rfl
  | cons e kids ih =>
    have h3 : 3 ≤ e.level := h e (by simp)
    have hk := ih (fun e he => h e (by simp [he]))
    have h2 : ¬ (e.level = 2 ∨ e.level = 0) := by omega
    simp only [List.cons_append, List.foldl_cons, nextGo, if_neg h2]
    by_cases h3' : e.level = 3
    · rw [if_pos h3', hk, stepKid, if_pos h3']
    · rw [if_neg h3', hk, stepKid, if_neg h3']

/-- The first element that is kept, and what follows it. -/
def firstKept (keep : W → Option W) (b : El P → W) : List (El P) → Option W × List (El P)
  | [] => (none, [])
  | x :: xs =>
    match keep (b x) with
    | some r => (some r, xs)
    | none => firstKept keep b xs

theorem nextGo_end (start : Tag P → Option W) (child : W → Tag P → W) (keep : W → Option W) (rest : List (Ev P))
    (he : EndsAt start rest) (w : W) : nextGo start child keep rest w = (keep w, rest) := by
  cases rest with
  | nil => rfl
  | cons e r =>
    obtain ⟨h1, h2⟩ := he
    simp only [nextGo, if_pos h1, h2]
    cases keep w <;> rfl

theorem nextGo_flat (start : Tag P → Option W) (child : W → Tag P → W) (keep : W → Option W) (w0 : W)
    (rest : List (Ev P)) (he : EndsAt start rest) (xs : List (El P)) (hn : ∀ x ∈ xs, x.Nested)
    (hs : ∀ x ∈ xs, (start x.head).isSome) (w : W) :
    nextGo start child keep (flat xs ++ rest) w =
      match keep w with
      | some r => (some r, flat xs ++ rest)
      | none => ((firstKept keep (buildWith start child w0) xs).1,
          flat (firstKept keep (buildWith start child w0) xs).2 ++ rest) := by
  induction xs generalizing w with
  | nil =>
    rw [show flat ([] : List (El P)) ++ rest = rest from rfl, nextGo_end start child keep rest he]
    cases h : keep w <;> simp [firstKept, flat]
  | cons x xs ih =>
    have hk := ih (fun x hx => hn x (by simp [hx])) (fun x hx => hs x (by simp [hx]))
    obtain ⟨w', hw'⟩ := Option.isSome_iff_exists.1 (hs x (by simp))
    rw [flat_cons, List.cons_append, List.append_assoc]
    simp only [nextGo, true_or, if_true]
    cases hkw : keep w with
    | some r => rfl
    | none =>
      simp only [hw', firstKept]
      rw [nextGo_kids start child keep _ (hn x (by simp)), hk]
      have hb : buildWith start child w0 x = x.kids.foldl (stepKid child) w' := by simp [buildWith, hw']
      rw [← hb]
      cases keep (buildWith start child w0 x) <;> rfl

theorem filterMap_firstKept (keep : W → Option W) (b : El P → W) (xs : List (El P)) :
    xs.filterMap (fun x => keep (b x)) =
      match (firstKept keep b xs).1 with
      | some r => r :: (firstKept keep b xs).2.filterMap (fun x => keep (b x))
      | none => [] := by
  induction xs with
  | nil => rfl
  | cons x xs ih =>
    simp only [firstKept]
    cases h : keep (b x) with
    | some r => simp [h]
    | none => simp only [List.filterMap_cons, h, ih]

theorem firstKept_sub (keep : W → Option W) (b : El P → W) (xs : List (El P)) :
    ∃ pre, xs = pre ++ (firstKept keep b xs).2 ∧ ((firstKept keep b xs).1.isSome → pre ≠ []) ∧
      ((firstKept keep b xs).1 = none → (firstKept keep b xs).2 = []) := by
  induction xs with
  | nil => exact ⟨[], rfl, by simp [firstKept], by simp [firstKept]⟩
  | cons x xs ih =>
    simp only [firstKept]
    cases h : keep (b x) with
    | some r => exact ⟨[x], rfl, by simp, by simp⟩
    | none =>
      obtain ⟨pre, h1, h2, h3⟩ := ih
      exact ⟨x :: pre, by simp only [List.cons_append]; rw [← h1], by simp, h3⟩

theorem readLoop_flat (start : Tag P → Option W) (child : W → Tag P → W) (keep : W → Option W) (w0 : W)
    (hw0 : keep w0 = none) (rest : List (Ev P)) (he : EndsAt start rest) (fuel : Nat) (xs : List (El P))
    (hn : ∀ x ∈ xs, x.Nested) (hs : ∀ x ∈ xs, (start x.head).isSome) (hf : xs.length < fuel) :
    readLoop (fun l => nextGo start child keep l w0) fuel (flat xs ++ rest) =
      (xs.filterMap (fun x => keep (buildWith start child w0 x)), rest) := by
  induction fuel generalizing xs with
  | zero => omega
  | succ fuel ih =>
    have hg := nextGo_flat start child keep w0 rest he xs hn hs w0
    obtain ⟨pre, h1, h2, h3⟩ := firstKept_sub keep (buildWith start child w0) xs
    have hfm := filterMap_firstKept keep (buildWith start child w0) xs
    rw [hw0] at hg
    simp only [readLoop, hg]
    cases hc : (firstKept keep (buildWith start child w0) xs).1 with
    | none =>
      rw [hc] at hfm
      simp only [hfm, h3 hc]
      rfl
    | some r =>
      rw [hc] at hfm
      have hpre : pre ≠ [] := h2 (by simp [hc])
      have hlen : (firstKept keep (buildWith start child w0) xs).2.length < fuel := by
        have : 0 < pre.length := List.length_pos_iff.2 hpre
        have := congrArg List.length h1
        simp only [List.length_append] at this
        omega
      have hsub : ∀ x ∈ (firstKept keep (buildWith start child w0) xs).2, x ∈ xs := by
        intro x hx; rw [h1]; exact List.mem_append_right _ hx
      have := ih _ (fun x hx => hn x (hsub x hx)) (fun x hx => hs x (hsub x hx)) hlen
      simp only [this, hfm]

theorem flat_length (xs : List (El P)) : xs.length ≤ (flat xs).length := by
  induction xs with
  | nil => simp [flat]
  | cons x xs ih => rw [flat_cons]; simp; omega

theorem readAll_flat (start : Tag P → Option W) (child : W → Tag P → W) (keep : W → Option W) (w0 : W)
    (hw0 : keep w0 = none) (rest : List (Ev P)) (he : EndsAt start rest) (xs : List (El P))
    (hn : ∀ x ∈ xs, x.Nested) (hs : ∀ x ∈ xs, (start x.head).isSome) :
    readAll (fun l => nextGo start child keep l w0) (flat xs ++ rest) =
      (xs.filterMap (fun x => keep (buildWith start child w0 x)), rest) := by
  apply readLoop_flat start child keep w0 hw0 rest he _ xs hn hs
  have := flat_length xs
  simp only [List.length_append]
  omega

/-! ### the contents of an element -/

def attrStep (keys : List Str) (a : Attrs) (e : Ev P) : Attrs :=
  if e.level = 3 then
    match e.tag with
    | .tag k v => setAttr keys a k v
    | _ => a
  else a

def attrsOf (keys : List Str) (kids : List (Ev P)) (a : Attrs) : Attrs := kids.foldl (attrStep keys) a

theorem attrStep_wf (keys : List Str) (a : Attrs) (h : FMap.WF a) (e : Ev P) : FMap.WF (attrStep keys a e) := by
  unfold attrStep setAttr
  split
  · split
    · split
      · exact FMap.WF.put h _ _
      · exact h
    · exact h
  · exact h

theorem attrsOf_wf (keys : List Str) (kids : List (Ev P)) (a : Attrs) (h : FMap.WF a) :
    FMap.WF (attrsOf keys kids a) := by
  induction kids generalizing a with
  | nil => exact h
  | cons e kids ih => exact ih _ (attrStep_wf keys a h e)

theorem kidVals_cons (k : Str) (e : Ev P) (kids : List (Ev P)) :
    kidVals k (e :: kids) = kidVals k [e] ++ kidVals k kids := by
  simp only [kidVals]
  rw [← List.filterMap_append]
  rfl

theorem get_attrStep (keys : List Str) (a : Attrs) (e : Ev P) (k : Str) :
    FMap.get (attrStep keys a e) k = if k ∈ keys then (kidVals k [e]).getLast?.or (FMap.get a k) else FMap.get a k := by
  obtain ⟨lv, t⟩ := e
  unfold attrStep
  by_cases h3 : lv = 3
  · subst h3
    cases t with
    | tag k' v =>
      simp only [if_true, setAttr, kidVals, List.filterMap_cons, List.filterMap_nil]
      by_cases hk : k' = k
      · subst hk
        by_cases hm : k' ∈ keys
        · simp [hm, FMap.get_put]
        · simp [hm]
      · have hk' : ¬ k = k' := fun h => hk h.symm
        by_cases hm : k' ∈ keys
        · simp [hm, FMap.get_put, hk, hk']
        · simp [hm, hk]
    | _ => simp [kidVals]
  · simp only [if_neg h3]
    have : kidVals k [(⟨lv, t⟩ : Ev P)] = [] := by
      simp only [kidVals, List.filterMap_cons, List.filterMap_nil]
      split
      · rename_i h; split at h
        · rfl
        · rfl
      · rename_i h; split at h
        · simp_all
        · cases h
    simp [this]

theorem get_attrsOf (keys : List Str) (kids : List (Ev P)) (a : Attrs) (k : Str) :
    FMap.get (attrsOf keys kids a) k =
      if k ∈ keys then (kidVals k kids).getLast?.or (FMap.get a k) else FMap.get a k := by
  induction kids generalizing a with
  | nil => simp [attrsOf, kidVals]
  | cons e kids ih =>
    rw [show attrsOf keys (e :: kids) a = attrsOf keys kids (attrStep keys a e) from rfl, ih, get_attrStep, kidVals_cons k e kids]
    by_cases hm : k ∈ keys
    · simp only [if_pos hm, List.getLast?_append, Option.or_assoc]
    · simp only [if_neg hm]

theorem foldl_way (keys : List Str) (kids : List (Ev P)) (w : Way) (h : w.id ≠ 0) :
    kids.foldl (stepKid (wayChild keys)) w = ⟨w.id, w.nodes ++ kidRefs kids, attrsOf keys kids w.attrs⟩ := by
  induction kids generalizing w with
  | nil => simp [kidRefs, attrsOf]
  | cons e kids ih =>
    obtain ⟨lv, t⟩ := e
    simp only [List.foldl_cons]
    by_cases h3 : lv = 3
    · subst h3
      cases t <;> simp only [stepKid, if_true, wayChild, if_pos h] <;> rw [ih _ (by simpa using h)] <;>
        simp [kidRefs, attrsOf, attrStep]
    · rw [show stepKid (wayChild keys) w ⟨lv, t⟩ = w from by simp [stepKid, h3], ih w h]
      have h1 : attrsOf keys ((⟨lv, t⟩ : Ev P) :: kids) w.attrs = attrsOf keys kids w.attrs := by
        simp [attrsOf, attrStep, h3]
      have h2 : kidRefs ((⟨lv, t⟩ : Ev P) :: kids) = kidRefs kids := by
        rw [kidRefs, List.filterMap_cons]
        split
        · rfl
        · rename_i hx; split at hx
          · simp_all
          · cases hx
      rw [h1, h2]

theorem foldl_nod (keys : List Str) (kids : List (Ev P)) (n : Nod P) (h : n.id ≠ 0) :
    kids.foldl (stepKid (nodChild keys)) n = ⟨n.id, n.pos, attrsOf keys kids n.attrs⟩ := by
  induction kids generalizing n with
  | nil => rfl
  | cons e kids ih =>
    obtain ⟨lv, t⟩ := e
    simp only [List.foldl_cons]
    by_cases h3 : lv = 3
    · subst h3
      cases t <;> simp only [stepKid, if_true, nodChild, if_pos h] <;> rw [ih _ (by simpa using h)] <;>
        simp [attrsOf, attrStep]
    · rw [show stepKid (nodChild keys) n ⟨lv, t⟩ = n from by simp [stepKid, h3], ih n h]
      simp [attrsOf, attrStep, h3]

theorem kidMembers_skip (ty : MemType) (e : Ev P) (kids : List (Ev P)) (h3 : e.level ≠ 3) :
    kidMembers ty (e :: kids) = kidMembers ty kids := by
  obtain ⟨lv, t⟩ := e
  rw [kidMembers, List.filterMap_cons]
  split
  · rfl
  · rename_i hx; split at hx
    · simp_all
    · cases hx

theorem foldl_rel (keys : List Str) (kids : List (Ev P)) (r : Rel) (h : r.id ≠ 0) :
    kids.foldl (stepKid (relChild keys)) r =
      ⟨r.id, r.nodes ++ kidMembers .node kids, r.ways ++ kidMembers .way kids, attrsOf keys kids r.attrs, r.keepFlags⟩ := by
  induction kids generalizing r with
  | nil => simp [kidMembers, attrsOf]
  | cons e kids ih =>
    obtain ⟨lv, t⟩ := e
    simp only [List.foldl_cons]
    by_cases h3 : lv = 3
    · subst h3
      cases t with
      | member ty ref role =>
        cases ty <;> simp only [stepKid, if_true, relChild, if_pos h] <;> rw [ih _ (by simpa using h)] <;>
          simp [kidMembers, attrsOf, attrStep]
      | _ =>
        simp only [stepKid, if_true, relChild, if_pos h] <;> rw [ih _ (by simpa using h)] <;>
          simp [kidMembers, attrsOf, attrStep]
    · rw [show stepKid (relChild keys) r ⟨lv, t⟩ = r from by simp [stepKid, h3], ih r h,
        kidMembers_skip _ _ _ h3, kidMembers_skip _ _ _ h3]
      simp [attrsOf, attrStep, h3]

end Verif.Osm
