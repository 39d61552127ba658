import Verif.Full.Props

/-!
# C68: the cache does not change the route
-/

set_option linter.unusedSimpArgs false
set_option linter.unusedSectionVars false

namespace Verif.Full

open Verif.Trie (Nd)
open Verif.Router
open Verif.HopCache (Cache)
open Verif.Hops (GraphOk SearchOk CacheOk)

variable {E C X D S P A : Type}

/-! ### equal lists -/

theorem eq_of_mem {α : Type} (r : α → α → Prop) (irr : ∀ a, ¬ r a a) (asy : ∀ a b, r a b → ¬ r b a) : ∀ l l' : List α,
    l.Pairwise r → l'.Pairwise r → (∀ x, x ∈ l ↔ x ∈ l') → l = l' := by
  intro l
  induction l with
  | nil =>
    intro l' _ _ h
    cases l' with
    | nil => rfl
    | cons b t => exact absurd ((h b).mpr (by simp)) (by simp)
  | cons a t ih =>
    intro l' h1 h2 h
    cases l' with
    | nil => exact absurd ((h a).mp (by simp)) (by simp)
    | cons b u =>
      rw [List.pairwise_cons] at h1 h2
      have hab : a = b := by
        rcases List.mem_cons.mp ((h a).mp (by simp)) with e | e
        · exact e
        · rcases List.mem_cons.mp ((h b).mpr (by simp)) with e' | e'
          · exact e'.symm
          · exact absurd (h1.1 b e') (asy _ _ (h2.1 a e))
      subst hab
      rw [ih u h1.2 h2.2 ?_]
      intro x
      constructor
      · intro hx
        rcases List.mem_cons.mp ((h x).mp (by simp [hx])) with e | e
        · subst e; exact absurd (h1.1 x hx) (irr x)
        · exact e
      · intro hx
        rcases List.mem_cons.mp ((h x).mpr (by simp [hx])) with e | e
        · subst e; exact absurd (h2.1 x hx) (irr x)
        · exact e

/-! ### searches with two caches -/

/-- The hop calculation does not depend on the cache. -/
def Blind (env : Env E C X D S) (I : S → Prop) : Prop :=
  ∀ (s s' : S) (nid : Nat) (par : List C) (k : Nat), I s → I s' → k < 4 →
    (env.hops s nid par (doubled (env.maxCost0 nid) k)).1 = (env.hops s' nid par (doubled (env.maxCost0 nid) k)).1 ∧
    I (env.hops s nid par (doubled (env.maxCost0 nid) k)).2

theorem tryLoop_blind {env : Env E C X D S} {I : S → Prop} (hb : Blind env I) (par : List C) (nid : Nat) : ∀ (n k : Nat) (s s' : S)
    (l : Layer C) (costM : List (Ent D)) (mc : UInt32), n + k = 4 → I s → I s' →
    let r := tryLoop env par nid n s l costM (doubled (env.maxCost0 nid) k) mc
    let r' := tryLoop env par nid n s' l costM (doubled (env.maxCost0 nid) k) mc
    r.1 = r'.1 ∧ r.2.1 = r'.2.1 ∧ r.2.2.1 = r'.2.2.1 ∧ r.2.2.2.1 = r'.2.2.2.1 ∧ I r.2.2.2.2 ∧ I r'.2.2.2.2 := by
  intro n
  induction n with
  | zero => intro k s s' l costM mc _ h h'; exact ⟨rfl, rfl, rfl, rfl, h, h'⟩
  | succ n ih =>
    intro k s s' l costM mc hk h h'
    obtain ⟨e, i1⟩ := hb s s' nid par k h h' (by omega)
    obtain ⟨_, i2⟩ := hb s' s nid par k h' h (by omega)
    simp only [tryLoop, ← e]
    split
    · exact ⟨rfl, rfl, rfl, rfl, i1, i2⟩
    · split
      · exact ⟨rfl, rfl, rfl, rfl, i1, i2⟩
      · exact ih (k + 1) _ _ _ _ _ (by omega) i1 i2

/-- States that differ in the cache only. -/
structure Same (I : S → Prop) (a b : St C D S) : Prop where
  layers : a.layers = b.layers
  ents : a.ents = b.ents
  fb : a.fb = b.fb
  mc : a.mc = b.mc
  left : I a.s
  right : I b.s

theorem child_blind {env : Env E C X D S} {I : S → Prop} (hb : Blind env I) (nds : List (Nd P A)) (fr to : Nat) {a b : St C D S}
    (h : Same I a b) : Same I (child env nds fr a to) (child env nds fr b to) := by
  obtain ⟨al, as, ae, af, am⟩ := a
  obtain ⟨bl, bs, be, bf, bm⟩ := b
  obtain ⟨h1, h2, h3, h4, h5, h6⟩ := h
  simp only at h1 h2 h3 h4 h5 h6
  subst h1 h2 h3 h4
  unfold child
  split
  · split
    · exact ⟨rfl, rfl, rfl, rfl, h5, h6⟩
    · obtain ⟨g1, g2, g3, g4, g5, g6⟩ := tryLoop_blind hb (al fr).costs to 4 0 as bs (al to) [] (env.maxCost0 to) rfl h5 h6
      simp only [doubled] at g1 g2 g3 g4 g5 g6
      generalize tryLoop env (al fr).costs to 4 as (al to) [] (env.maxCost0 to) (env.maxCost0 to) = r at *
      generalize tryLoop env (al fr).costs to 4 bs (al to) [] (env.maxCost0 to) (env.maxCost0 to) = r' at *
      obtain ⟨r1, r2, r3, r4, r5⟩ := r
      obtain ⟨q1, q2, q3, q4, q5⟩ := r'
      simp only at g1 g2 g3 g4 g5 g6
      subst g1 g2 g3 g4
      exact ⟨rfl, rfl, rfl, rfl, g5, g6⟩
  · exact ⟨rfl, rfl, rfl, rfl, h5, h6⟩

theorem childs_blind {env : Env E C X D S} {I : S → Prop} (hb : Blind env I) (nds : List (Nd P A)) (fr : Nat) : ∀ (cs : List Nat)
    (a b : St C D S) (stack : List Nat), Same I a b →
    Same I (cs.foldl (fun p to => (child env nds fr p.1 to, to :: p.2)) (a, stack)).1
      (cs.foldl (fun p to => (child env nds fr p.1 to, to :: p.2)) (b, stack)).1 ∧
    (cs.foldl (fun p to => (child env nds fr p.1 to, to :: p.2)) (a, stack)).2 =
      (cs.foldl (fun p to => (child env nds fr p.1 to, to :: p.2)) (b, stack)).2 := by
  intro cs
  induction cs with
  | nil => intro a b stack h; exact ⟨h, rfl⟩
  | cons to cs ih =>
    intro a b stack h
    simp only [List.foldl_cons]
    exact ih _ _ _ (child_blind hb nds fr to h)

theorem loop_blind {env : Env E C X D S} {I : S → Prop} (hb : Blind env I) (nds : List (Nd P A)) : ∀ (n : Nat) (a b : St C D S)
    (stack : List Nat), Same I a b → Same I (loop env nds n (a, stack)) (loop env nds n (b, stack)) := by
  intro n
  induction n with
  | zero => intro a b stack h; exact h
  | succ n ih =>
    intro a b stack h
    cases stack with
    | nil => exact h
    | cons fr stack =>
      simp only [loop]
      have hp : Same I (pop env nds fr (a, stack)).1 (pop env nds fr (b, stack)).1 ∧
          (pop env nds fr (a, stack)).2 = (pop env nds fr (b, stack)).2 := by
        unfold pop
        split
        · exact ⟨h, rfl⟩
        · exact childs_blind hb nds fr _ a b stack h
      generalize pop env nds fr (a, stack) = p at *
      generalize pop env nds fr (b, stack) = q at *
      obtain ⟨p1, p2⟩ := p
      obtain ⟨q1, q2⟩ := q
      obtain ⟨hs, he⟩ := hp
      simp only at hs he
      subst he
      exact ih p1 q1 p2 hs

theorem first_blind {env : Env E C X D S} {I : S → Prop} : ∀ (cs : List Nat) (a b : St C D S) (stack : List Nat), Same I a b →
    Same I (cs.foldl (first env) (a, stack)).1 (cs.foldl (first env) (b, stack)).1 ∧
    (cs.foldl (first env) (a, stack)).2 = (cs.foldl (first env) (b, stack)).2 := by
  intro cs
  induction cs with
  | nil => intro a b stack h; exact ⟨h, rfl⟩
  | cons c cs ih =>
    intro a b stack h
    simp only [List.foldl_cons, first]
    apply ih
    obtain ⟨h1, h2, h3, h4, h5, h6⟩ := h
    exact ⟨by simp only [h1], h2, h3, h4, h5, h6⟩

theorem search_blind {env : Env E C X D S} {I : S → Prop} (hb : Blind env I) (nds : List (Nd P A)) (s s' : S) (h : I s) (h' : I s') :
    Same I (search env nds s) (search env nds s') := by
  have h0 : Same I (⟨initLayer env, s, fun _ => [], fun _ => none, fun _ => 0⟩ : St C D S)
      ⟨initLayer env, s', fun _ => [], fun _ => none, fun _ => 0⟩ := ⟨rfl, rfl, rfl, rfl, h, h'⟩
  unfold search
  simp only
  split
  · exact h0
  · next root _ =>
    obtain ⟨g1, g2⟩ := first_blind (env := env) root.childs _ _ [] h0
    generalize List.foldl (first env) ((⟨initLayer env, s, fun _ => [], fun _ => none, fun _ => 0⟩ : St C D S), []) root.childs = p at *
    generalize List.foldl (first env) ((⟨initLayer env, s', fun _ => [], fun _ => none, fun _ => 0⟩ : St C D S), []) root.childs = q at *
    obtain ⟨p1, p2⟩ := p
    obtain ⟨q1, q2⟩ := q
    simp only at g1 g2
    subst g2
    exact loop_blind hb nds _ p1 q1 p2 g1

/-- The entries of the standard variant do not depend on the cache. -/
theorem base_blind {turn : Nat → Nat → Option Nat} {n : Net C X} {nds : List (Nd P A)} {K : Nat} (hg : GraphOk turn n.h)
    (hs : Small n K) (hslow : n.slow = true) (hse : SearchOk turn n.h) :
    Blind (n.base nds) (fun s => ∀ x, s = some x → CacheOk turn x) := by
  intro s s' nid par k h h' hk
  have e1 := Hops.C67_hops_exact hg hse n.needDist (n.cands (parent nds nid)) (n.cands nid) s h (doubled (n.maxCost0 nid) k) K
    (sizes_of hs _ _ k hk)
  have e2 := Hops.C67_hops_exact hg hse n.needDist (n.cands (parent nds nid)) (n.cands nid) s' h' (doubled (n.maxCost0 nid) k) K
    (sizes_of hs _ _ k hk)
  simp only [Net.base, Net.hops, hslow, if_true]
  refine ⟨?_, e1.2⟩
  congr 1
  refine eq_of_mem _ ?_ ?_ _ _ (Hops.C67_hops_order n.h n.needDist _ _ s _) (Hops.C67_hops_order n.h n.needDist _ _ s' _) ?_
  · intro a ha; omega
  · intro a b hab hba; omega
  · rintro ⟨⟨i, j⟩, c⟩
    rw [e1.1, e2.1]

/-- **C68.** With the standard variant, the route does not depend on the content of the cache, nor on whether there is one, as long as its
records are true. -/
theorem C68_cache_irrelevant {turn : Nat → Nat → Option Nat} (n : Net C X) (nds : List (Nd P A)) {K : Nat} (hg : GraphOk turn n.h)
    (hs : Small n K) (hslow : n.slow = true) (s s' : Option Cache) (h : Trust turn n s) (h' : Trust turn n s') (nid : Nat) :
    n.route nds s nid = n.route nds s' nid := by
  rw [Trust, if_pos hslow] at h h'
  have hb := search_blind (base_blind (nds := nds) hg hs hslow h.1) nds s s' h.2 h'.2
  unfold Net.route Router.route
  simp only [Net.env, search_withPath]
  rw [hb.layers, hb.mc]

/-- Two caches, one of them with a record. -/
example (ecm : Ecm Nat (Option Nat) Rat) : Trust Hops.Chain.turn (exNet ecm true) none ∧
    Trust Hops.Chain.turn (exNet ecm true) (some (HopCache.setEx HopCache.empty 3 4 10)) := by
  refine ⟨exNet_trust ecm true, Hops.Chain.searchOk, ?_⟩
  intro x hx
  cases hx
  apply Hops.cacheOk_setEx
  · intro a b
    simp [HopCache.get, HopCache.empty, HopCache.narrow]
  · rw [Hops.Chain.dist_iff]; decide

end Verif.Full
