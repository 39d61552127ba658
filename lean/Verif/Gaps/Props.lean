import Verif.Gaps.Model
import Verif.Graph.CollapseProps
import Verif.Restrictor.Weak

/-!
# Closing gaps (properties)

C71: closing gaps keeps what is connected, and connects only what is near.
-/

set_option linter.unusedSectionVars false

namespace Verif.Gaps
open Verif.Collapse

variable {N P : Type} [DecidableEq N]

/-! ### specification -/

/-- Smallest equivalence that contains `R`. -/
inductive Conn (R : N → N → Prop) : N → N → Prop
  | refl (u) : Conn R u u
  | rel {u v} : R u v → Conn R u v
  | symm {u v} : Conn R u v → Conn R v u
  | trans {u v w} : Conn R u v → Conn R v w → Conn R u w

/-- There is an edge between the nodes, in whatever direction. -/
def Adj (es : List (Edg N P)) (u v : N) : Prop := ∃ e ∈ es, e.src = u ∧ e.dst = v

def Near (v : Env N) (a b : N) : Prop := v.close a b = true

/-! ### lemmas -/

theorem Conn.mono {R S : N → N → Prop} (h : ∀ u v, R u v → Conn S u v) {u v : N} (hc : Conn R u v) : Conn S u v := by
  induction hc with
  | refl u => exact .refl u
  | rel h1 => exact h _ _ h1
  | symm _ ih => exact ih.symm
  | trans _ _ ih1 ih2 => exact ih1.trans ih2

theorem Conn.map {R S : N → N → Prop} (f : N → N) (h : ∀ u v, R u v → Conn S (f u) (f v)) {u v : N} (hc : Conn R u v) :
    Conn S (f u) (f v) := by
  induction hc with
  | refl u => exact .refl _
  | rel h1 => exact h _ _ h1
  | symm _ ih => exact ih.symm
  | trans _ _ ih1 ih2 => exact ih1.trans ih2

theorem mem_outs {es : List (Edg N P)} {n : N} {e : Edg N P} : e ∈ outs es n ↔ e ∈ es ∧ e.src = n := by simp [outs]
theorem mem_ins {es : List (Edg N P)} {n : N} {e : Edg N P} : e ∈ ins es n ↔ e ∈ es ∧ e.dst = n := by simp [ins]

theorem stub_mem {es : List (Edg N P)} {n : N} {e : Edg N P} (h : stub es n = some e) :
    e ∈ es ∧ (e.src = n ∨ e.dst = n) := by
  unfold stub at h
  cases ho : (outs es n).head? with
  | some f =>
    rw [ho] at h; cases h
    obtain ⟨h1, h2⟩ := mem_outs.1 (List.mem_of_head? ho)
    exact ⟨h1, Or.inl h2⟩
  | none =>
    rw [ho] at h
    obtain ⟨h1, h2⟩ := mem_ins.1 (List.mem_of_head? h)
    exact ⟨h1, Or.inr h2⟩

/-- The only edge of a node with one edge. -/
theorem deg_one {es : List (Edg N P)} {n : N} (h : deg es n = 1) :
    ∃ e, stub es n = some e ∧ e ∈ es ∧ ((e.src = n ∧ e.dst ≠ n) ∨ (e.dst = n ∧ e.src ≠ n)) ∧
      ∀ f ∈ es, f.src = n ∨ f.dst = n → f = e := by
  unfold deg at h
  cases ho : outs es n with
  | nil =>
    rw [ho] at h
    have hi : (ins es n).length = 1 := by simpa using h
    obtain ⟨e, he⟩ := List.length_eq_one_iff.1 hi
    have hm := mem_ins.1 (show e ∈ ins es n by rw [he]; simp)
    have hno : ∀ f ∈ es, f.src ≠ n := by
      intro f hf hs
      have : f ∈ outs es n := mem_outs.2 ⟨hf, hs⟩
      rw [ho] at this; cases this
    refine ⟨e, by simp [stub, ho, he], hm.1, Or.inr ⟨hm.2, hno e hm.1⟩, ?_⟩
    rintro f hf (h1 | h1)
    · exact absurd h1 (hno f hf)
    · have : f ∈ ins es n := mem_ins.2 ⟨hf, h1⟩
      rw [he] at this
      simpa using this
  | cons e l =>
    rw [ho] at h
    simp only [List.length_cons] at h
    have hl : l = [] := List.length_eq_zero_iff.1 (by omega)
    have hi : ins es n = [] := List.length_eq_zero_iff.1 (by omega)
    subst hl
    have hm := mem_outs.1 (show e ∈ outs es n by rw [ho]; simp)
    have hno : ∀ f ∈ es, f.dst ≠ n := by
      intro f hf hs
      have : f ∈ ins es n := mem_ins.2 ⟨hf, hs⟩
      rw [hi] at this; cases this
    refine ⟨e, by simp [stub, ho], hm.1, Or.inl ⟨hm.2, hno e hm.1⟩, ?_⟩
    rintro f hf (h1 | h1)
    · have : f ∈ outs es n := mem_outs.2 ⟨hf, h1⟩
      rw [ho] at this
      simpa using this
    · exact absurd h1 (hno f hf)

theorem mem_addEdg_of_mem {es : List (Edg N P)} {e f : Edg N P} (h : f ∈ es) : f ∈ addEdg es e := by
  unfold addEdg
  split
  · exact h
  · exact List.mem_append_left _ h

theorem mem_addEdg_inv {es : List (Edg N P)} {e f : Edg N P} (h : f ∈ addEdg es e) : f ∈ es ∨ f = e := by
  unfold addEdg at h
  split at h
  · exact Or.inl h
  · simpa using h

theorem addEdg_adj (es : List (Edg N P)) (e : Edg N P) : ∃ f ∈ addEdg es e, f.src = e.src ∧ f.dst = e.dst := by
  unfold addEdg getEdg
  cases h : es.find? fun x => x.src = e.src && x.dst = e.dst with
  | some f =>
    have h1 := List.find?_some h
    simp only [Bool.and_eq_true, decide_eq_true_eq] at h1
    exact ⟨f, List.mem_of_find?_eq_some h, h1⟩
  | none => exact ⟨e, by simp, rfl, rfl⟩

theorem mem_delNd {es : List (Edg N P)} {n : N} {e : Edg N P} : e ∈ delNd es n ↔ e ∈ es ∧ e.src ≠ n ∧ e.dst ≠ n := by
  simp [delNd]

/-! ### the pass -/

/-- What one state has to do with a later one. -/
structure Later (v : Env N) (s s' : St N P) (rep : N → N) : Prop where
  dead : ∀ u ∈ s.dead, u ∈ s'.dead
  stat : ∀ u, v.si u = true → u ∈ s'.dead → u ∈ s.dead
  keep : ∀ u v, Adj s.es u v → Conn (Adj s'.es) (rep u) (rep v)
  fix : ∀ u, u ∉ s'.dead → rep u = u
  live : ∀ u, u ∉ s.dead → rep u ∉ s'.dead
  near : ∀ u, Conn (Near v) u (rep u)
  sound : ∀ a b, Adj s'.es a b → Conn (fun x y => Adj s.es x y ∨ Near v x y) a b

theorem Later.refl (v : Env N) (s : St N P) : Later v s s id :=
  ⟨fun _ h => h, fun _ _ h => h, fun _ _ h => .rel h, fun _ _ => rfl, fun _ h => h, fun _ => .refl _, fun _ _ h => .rel (Or.inl h)⟩

theorem Later.trans {v : Env N} {s s' s'' : St N P} {f g : N → N} (h : Later v s s' f) (h' : Later v s' s'' g) :
    Later v s s'' (fun u => g (f u)) := by
  refine ⟨fun u hu => h'.dead u (h.dead u hu), fun u hs hu => h.stat u hs (h'.stat u hs hu), ?_, ?_, ?_, ?_, ?_⟩
  · intro u w hc
    exact (h.keep u w hc).map g h'.keep
  · intro u hu
    have h1 : u ∉ s'.dead := fun hc => hu (h'.dead u hc)
    show g (f u) = u
    rw [h.fix u h1, h'.fix u hu]
  · intro u hu
    exact h'.live _ (h.live u hu)
  · intro u
    exact (h.near u).trans (h'.near _)
  · intro a b hc
    refine (h'.sound a b hc).mono ?_
    rintro x y (h1 | h1)
    · exact h.sound x y h1
    · exact .rel (Or.inr h1)

theorem join_later (v : Env N) (n : N) (s : St N P) (nb : N) (hn : n ∉ s.dead) :
    ∃ rep, Later v s (join v n s nb) rep ∧ n ∉ (join v n s nb).dead := by
  unfold join
  by_cases hc : nb ≠ n ∧ deg s.es nb = 1 ∧ v.close nb n = true
  · rw [if_pos hc]
    obtain ⟨hne, hd, hcl⟩ := hc
    obtain ⟨e, hst, he, hends, honly⟩ := deg_one hd
    rw [hst]
    simp only
    have hoth : e.oth nb ≠ nb := by
      unfold Edg.oth
      rcases hends with ⟨h1, h2⟩ | ⟨h1, h2⟩
      · rw [if_pos h1]; exact h2
      · rw [if_neg h2]; exact h2
    have hadj : Conn (Adj s.es) (e.oth nb) nb := by
      unfold Edg.oth
      rcases hends with ⟨h1, h2⟩ | ⟨h1, h2⟩
      · rw [if_pos h1]; exact (Conn.rel ⟨e, he, h1, rfl⟩).symm
      · rw [if_neg h2]; exact Conn.rel ⟨e, he, rfl, h1⟩
    by_cases hsi : v.si nb = false ∧ v.si n = false
    · rw [if_pos hsi]
      refine ⟨fun u => if u = nb then n else u, ⟨?_, ?_, ?_, ?_, ?_, ?_, ?_⟩, ?_⟩
      · intro u hu; exact List.mem_cons_of_mem _ hu
      · intro u hu hm
        rcases List.mem_cons.1 hm with rfl | hm
        · rw [hsi.1] at hu; cases hu
        · exact hm
      · rintro a b ⟨f, hf, rfl, rfl⟩
        simp only
        have hnew : ∃ x ∈ delNd (addEdg s.es { e with src := e.oth nb, dst := n }) nb, x.src = e.oth nb ∧ x.dst = n := by
          obtain ⟨x, hx, h1, h2⟩ := addEdg_adj s.es { e with src := e.oth nb, dst := n }
          exact ⟨x, mem_delNd.2 ⟨hx, by rw [h1]; exact hoth, by rw [h2]; exact fun h => hne h.symm⟩, h1, h2⟩
        by_cases ht : f.src = nb ∨ f.dst = nb
        · have hfe := honly f hf ht
          subst hfe
          have hnc : Conn (Adj (delNd (addEdg s.es { f with src := f.oth nb, dst := n }) nb)) (f.oth nb) n := .rel hnew
          rcases hends with ⟨h1, h2⟩ | ⟨h1, h2⟩
          · rw [if_pos h1, if_neg h2]
            have : f.oth nb = f.dst := by unfold Edg.oth; rw [if_pos h1]
            rw [this] at hnc ⊢
            exact hnc.symm
          · rw [if_neg h2, if_pos h1]
            have : f.oth nb = f.src := by unfold Edg.oth; rw [if_neg h2]
            rw [this] at hnc ⊢
            exact hnc
        · have h1 : f.src ≠ nb := fun h => ht (Or.inl h)
          have h2 : f.dst ≠ nb := fun h => ht (Or.inr h)
          rw [if_neg h1, if_neg h2]
          exact .rel ⟨f, mem_delNd.2 ⟨mem_addEdg_of_mem hf, h1, h2⟩, rfl, rfl⟩
      · intro u hu
        simp only [List.mem_cons, not_or] at hu
        exact if_neg hu.1
      · intro u hu
        simp only [List.mem_cons, not_or]
        by_cases h : u = nb
        · rw [if_pos h]; exact ⟨fun h => hne h.symm, hn⟩
        · rw [if_neg h]; exact ⟨h, hu⟩
      · intro u
        by_cases h : u = nb
        · rw [if_pos h]; subst h; exact .rel hcl
        · rw [if_neg h]; exact .refl _
      · rintro a b ⟨f, hf, rfl, rfl⟩
        rcases mem_addEdg_inv (mem_delNd.1 hf).1 with h1 | h1
        · exact .rel (Or.inl ⟨f, h1, rfl, rfl⟩)
        · subst h1
          exact (hadj.mono fun x y hxy => Conn.rel (Or.inl hxy)).trans (.rel (Or.inr hcl))
      · simp only [List.mem_cons, not_or]
        exact ⟨fun h => hne h.symm, hn⟩
    · rw [if_neg hsi]
      refine ⟨id, ⟨fun _ h => h, fun _ _ h => h, ?_, fun _ _ => rfl, fun _ h => h, fun _ => .refl _, ?_⟩, hn⟩
      · rintro a b ⟨f, hf, h1, h2⟩
        exact .rel ⟨f, mem_addEdg_of_mem hf, h1, h2⟩
      · rintro a b ⟨f, hf, rfl, rfl⟩
        rcases mem_addEdg_inv hf with h1 | h1
        · exact .rel (Or.inl ⟨f, h1, rfl, rfl⟩)
        · subst h1
          exact .symm (.rel (Or.inr hcl))
  · rw [if_neg hc]
    exact ⟨id, Later.refl v s, hn⟩

theorem joins_later (v : Env N) (n : N) (nbs : List N) (s : St N P) (hn : n ∉ s.dead) :
    ∃ rep, Later v s (nbs.foldl (join v n) s) rep := by
  induction nbs generalizing s with
  | nil => exact ⟨id, Later.refl v s⟩
  | cons nb nbs ih =>
    obtain ⟨f, h1, h2⟩ := join_later v n s nb hn
    obtain ⟨g, h3⟩ := ih _ h2
    exact ⟨_, h1.trans h3⟩

theorem visits_later (v : Env N) (ns : List N) (s : St N P) : ∃ rep, Later v s (ns.foldl (visit v) s) rep := by
  induction ns generalizing s with
  | nil => exact ⟨id, Later.refl v s⟩
  | cons n ns ih =>
    have : ∃ rep, Later v s (visit v s n) rep := by
      unfold visit
      split
      · exact ⟨id, Later.refl v s⟩
      · rename_i hn
        split
        · exact joins_later v n _ s hn
        · exact ⟨id, Later.refl v s⟩
    obtain ⟨f, h1⟩ := this
    obtain ⟨g, h2⟩ := ih (visit v s n)
    exact ⟨_, h1.trans h2⟩

/-- C71. Closing gaps removes no station, and what was connected stays connected: there is a replacement for each node, itself if it
was not removed, never a removed one and near it (over nodes that are near each other), and nodes that were connected have
connected replacements. What is connected afterwards was connected before, or over nodes that are near each other. -/
theorem C71_connected (v : Env N) (es : List (Edg N P)) (s : St N P) (hs : s = fixGaps v es) :
    (∀ u, v.si u = true → u ∉ s.dead) ∧
    (∃ rep : N → N, (∀ u, u ∉ s.dead → rep u = u) ∧ (∀ u, rep u ∉ s.dead) ∧ (∀ u, Conn (fun a b => v.close a b = true) u (rep u)) ∧
      ∀ a b, Conn (fun x y => ∃ e ∈ es, e.src = x ∧ e.dst = y) a b →
        Conn (fun x y => ∃ e ∈ s.es, e.src = x ∧ e.dst = y) (rep a) (rep b)) ∧
    ∀ a b, Conn (fun x y => ∃ e ∈ s.es, e.src = x ∧ e.dst = y) a b →
      Conn (fun x y => (∃ e ∈ es, e.src = x ∧ e.dst = y) ∨ v.close x y = true) a b := by
  obtain ⟨rep, h⟩ := visits_later v v.nds ⟨es, []⟩
  rw [show v.nds.foldl (visit v) ⟨es, []⟩ = s from hs.symm] at h
  refine ⟨fun u hu hd => ?_, ⟨rep, h.fix, fun u => h.live u (by simp), h.near, fun a b hc => hc.map rep h.keep⟩,
    fun a b hc => hc.mono h.sound⟩
  exact absurd (h.stat u hu hd) (by simp)

/-! ### gaps are closed -/

theorem filter_addEdg_skip {es : List (Edg N P)} {e : Edg N P} {q : Edg N P → Bool} (h : q e = false) :
    (addEdg es e).filter q = es.filter q := by
  unfold addEdg
  split
  · rfl
  · simp [h]

/-- Joining other nodes leaves a dead end a dead end. -/
theorem deg_join (v : Env N) (n : N) (s : St N P) (nb u : N) (h : deg s.es u = 1) (h1 : u ≠ n) (h2 : u ≠ nb) :
    deg (join v n s nb).es u = 1 := by
  unfold join
  by_cases hc : nb ≠ n ∧ deg s.es nb = 1 ∧ v.close nb n = true
  · rw [if_pos hc]
    obtain ⟨hne, hd, hcl⟩ := hc
    obtain ⟨e, hst, he, hends, honly⟩ := deg_one hd
    rw [hst]
    simp only
    by_cases hsi : v.si nb = false ∧ v.si n = false
    · rw [if_pos hsi]
      simp only
      by_cases hu : e.oth nb = u
      · -- the edge between the two dead ends
        obtain ⟨f, _, hf, hfe, hfo⟩ := deg_one h
        have hef : e = f := by
          apply hfo e he
          unfold Edg.oth at hu
          split at hu
          · exact Or.inr hu
          · exact Or.inl hu
        subst hef
        have hnone : getEdg s.es u n = none := by
          unfold getEdg
          rw [List.find?_eq_none]
          intro x hx hh
          simp only [Bool.and_eq_true, decide_eq_true_eq] at hh
          have hxe := hfo x hx (Or.inl hh.1)
          subst hxe
          rcases hends with ⟨h3, h4⟩ | ⟨h3, h4⟩
          · exact h2 (hh.1.symm.trans h3)
          · exact hne (h3.symm.trans hh.2)
        have hadd : addEdg s.es { e with src := e.oth nb, dst := n } = s.es ++ [{ e with src := u, dst := n }] := by
          unfold addEdg
          simp only [hu]
          rw [hnone]
        rw [hadd]
        have ho : outs (delNd (s.es ++ [{ e with src := u, dst := n }]) nb) u = [{ e with src := u, dst := n }] := by
          unfold outs delNd
          rw [List.filter_append, List.filter_append]
          have : List.filter (fun e => decide (e.src = u)) (List.filter (fun e => !(decide (e.src = nb) || decide (e.dst = nb))) s.es) = [] := by
            rw [List.filter_eq_nil_iff]
            intro x hx hh
            simp only [List.mem_filter, Bool.not_eq_true', Bool.or_eq_false_iff, decide_eq_false_iff_not] at hx
            have hxe := hfo x hx.1 (Or.inl (by simpa using hh))
            subst hxe
            rcases hends with ⟨h3, _⟩ | ⟨h3, _⟩
            · exact hx.2.1 h3
            · exact hx.2.2 h3
          rw [this]
          simp [h2, Ne.symm hne]
        have hi : ins (delNd (s.es ++ [{ e with src := u, dst := n }]) nb) u = [] := by
          unfold ins delNd
          rw [List.filter_eq_nil_iff]
          intro x hx hh
          simp only [List.mem_filter, Bool.not_eq_true', Bool.or_eq_false_iff, decide_eq_false_iff_not, List.mem_append,
            List.mem_singleton] at hx
          simp only [decide_eq_true_eq] at hh
          rcases hx.1 with hx1 | hx1
          · have hxe := hfo x hx1 (Or.inr hh)
            subst hxe
            rcases hends with ⟨h3, _⟩ | ⟨h3, _⟩
            · exact hx.2.1 h3
            · exact hx.2.2 h3
          · subst hx1
            exact h1 hh.symm
        unfold deg
        rw [ho, hi]
        rfl
      · -- neither the edge nor its replacement touches the node
        have hno : ∀ x ∈ s.es, x.src = u ∨ x.dst = u → x.src ≠ nb ∧ x.dst ≠ nb := by
          intro x hx hxu
          refine ⟨fun hh => ?_, fun hh => ?_⟩
          · have := honly x hx (Or.inl hh)
            subst this
            apply hu
            unfold Edg.oth
            rw [if_pos hh]
            rcases hxu with h5 | h5
            · exact absurd (h5.symm.trans hh) h2
            · exact h5
          · have := honly x hx (Or.inr hh)
            subst this
            apply hu
            unfold Edg.oth
            rcases hends with ⟨h5, h6⟩ | ⟨h5, h6⟩
            · exact absurd hh h6
            · rw [if_neg h6]
              rcases hxu with h7 | h7
              · exact h7
              · exact absurd (h7.symm.trans hh) h2
        have ho : outs (delNd (addEdg s.es { e with src := e.oth nb, dst := n }) nb) u = outs s.es u := by
          unfold outs delNd
          rw [List.filter_filter]
          rw [filter_addEdg_skip (by simp [hu])]
          apply List.filter_congr
          intro x hx
          by_cases hxu : x.src = u
          · have := hno x hx (Or.inl hxu)
            simp [hxu, this.2, h2]
          · simp [hxu]
        have hi : ins (delNd (addEdg s.es { e with src := e.oth nb, dst := n }) nb) u = ins s.es u := by
          unfold ins delNd
          rw [List.filter_filter]
          rw [filter_addEdg_skip (by simp [Ne.symm h1])]
          apply List.filter_congr
          intro x hx
          by_cases hxu : x.dst = u
          · have := hno x hx (Or.inr hxu)
            simp [hxu, this.1, h2]
          · simp [hxu]
        unfold deg at h ⊢
        rw [ho, hi]
        exact h
    · rw [if_neg hsi]
      simp only
      unfold deg outs ins at h ⊢
      rw [filter_addEdg_skip (by simp [Ne.symm h2]), filter_addEdg_skip (by simp [Ne.symm h1])]
      exact h
  · rw [if_neg hc]
    exact h

/-- The two dead ends are still there, untouched. -/
structure Open (s : St N P) (a b : N) : Prop where
  da : deg s.es a = 1
  db : deg s.es b = 1
  la : a ∉ s.dead
  lb : b ∉ s.dead

/-- No other node is near one of the two. -/
structure Alone (v : Env N) (a b : N) : Prop where
  ne : a ≠ b
  ab : v.close a b = true
  ba : v.close b a = true
  ga : b ∈ v.grid a
  gb : a ∈ v.grid b
  oa : ∀ x, x ≠ b → x ≠ a → v.close x a = false ∧ v.close a x = false
  ob : ∀ x, x ≠ a → x ≠ b → v.close x b = false ∧ v.close b x = false

theorem Alone.symm {v : Env N} {a b : N} (h : Alone v a b) : Alone v b a :=
  ⟨h.ne.symm, h.ba, h.ab, h.gb, h.ga, h.ob, h.oa⟩

theorem Open.symm {s : St N P} {a b : N} (h : Open s a b) : Open s b a := ⟨h.db, h.da, h.lb, h.la⟩

theorem join_skip (v : Env N) (n : N) (s : St N P) (nb : N) (h : v.close nb n = false) : join v n s nb = s := by
  unfold join
  rw [if_neg (by simp [h])]

theorem join_open {v : Env N} {s : St N P} {a b : N} (hA : Alone v a b) (hO : Open s a b) {n : N} (hna : n ≠ a) (hnb : n ≠ b)
    (x : N) : Open (join v n s x) a b := by
  by_cases hx : x = a ∨ x = b
  · have : v.close x n = false := by
      rcases hx with rfl | rfl
      · exact (hA.oa n hnb hna).2
      · exact (hA.ob n hna hnb).2
    rw [join_skip v n s x this]
    exact hO
  · have hxa : a ≠ x := fun h => hx (Or.inl h.symm)
    have hxb : b ≠ x := fun h => hx (Or.inr h.symm)
    have hd : ∀ y, y ∈ (join v n s x).dead → y = x ∨ y ∈ s.dead := by
      intro y hy
      unfold join at hy
      split at hy
      · split at hy
        · exact Or.inr hy
        · split at hy
          · simpa using hy
          · exact Or.inr hy
      · exact Or.inr hy
    refine ⟨deg_join v n s x a hO.da hna.symm hxa, deg_join v n s x b hO.db hnb.symm hxb, fun h => ?_, fun h => ?_⟩
    · exact (hd a h).elim hxa hO.la
    · exact (hd b h).elim hxb hO.lb

theorem joins_open {v : Env N} {a b : N} (hA : Alone v a b) {n : N} (hna : n ≠ a) (hnb : n ≠ b) (l : List N) (s : St N P)
    (hO : Open s a b) : Open (l.foldl (join v n) s) a b := by
  induction l generalizing s with
  | nil => exact hO
  | cons x l ih => exact ih _ (join_open hA hO hna hnb x)

theorem visit_open {v : Env N} {s : St N P} {a b : N} (hA : Alone v a b) (hO : Open s a b) {n : N} (hna : n ≠ a) (hnb : n ≠ b) :
    Open (visit v s n) a b := by
  unfold visit
  split
  · exact hO
  · split
    · exact joins_open hA hna hnb _ s hO
    · exact hO

/-- After `a` was visited: it is connected with the replacement of `b`. -/
theorem join_closes {v : Env N} {s : St N P} {a b : N} (hA : Alone v a b) (hO : Open s a b) :
    ∃ rep, Later v s (join v a s b) rep ∧ a ∉ (join v a s b).dead ∧ Conn (Adj (join v a s b).es) (rep a) (rep b) := by
  obtain ⟨rep, h1, h2⟩ := join_later v a s b hO.la
  refine ⟨rep, h1, h2, ?_⟩
  rw [h1.fix a h2]
  by_cases hb : b ∈ (join v a s b).dead
  · -- the replacement is near, thus `a`
    have hn := h1.near b
    have hl := h1.live b hO.lb
    have hcl : ∀ {x y : N}, Conn (Near v) x y → ((x = a ∨ x = b) ↔ (y = a ∨ y = b)) := by
      intro x y hc
      induction hc with
      | refl u => exact Iff.rfl
      | rel h =>
        rename_i u w
        unfold Near at h
        have k : ∀ p q : N, v.close p q = true → (p = a ∨ p = b) → (q = a ∨ q = b) := by
          rintro p q hpq (rfl | rfl)
          · by_cases hq : q = p ∨ q = b
            · exact hq
            · rw [(hA.oa q (fun h => hq (Or.inr h)) (fun h => hq (Or.inl h))).2] at hpq; cases hpq
          · by_cases hq : q = a ∨ q = p
            · exact hq
            · rw [(hA.ob q (fun h => hq (Or.inl h)) (fun h => hq (Or.inr h))).2] at hpq; cases hpq
        have k' : ∀ p q : N, v.close p q = true → (q = a ∨ q = b) → (p = a ∨ p = b) := by
          rintro p q hpq (rfl | rfl)
          · by_cases hq : p = q ∨ p = b
            · exact hq
            · rw [(hA.oa p (fun h => hq (Or.inr h)) (fun h => hq (Or.inl h))).1] at hpq; cases hpq
          · by_cases hq : p = a ∨ p = q
            · exact hq
            · rw [(hA.ob p (fun h => hq (Or.inl h)) (fun h => hq (Or.inr h))).1] at hpq; cases hpq
        exact ⟨k u w h, k' u w h⟩
      | symm _ ih => exact ih.symm
      | trans _ _ ih1 ih2 => exact ih1.trans ih2
    rcases (hcl hn).1 (Or.inr rfl) with h3 | h3
    · rw [h3]; exact .refl _
    · rw [h3] at hl; exact absurd hb hl
  · rw [h1.fix b hb]
    unfold join at hb ⊢
    rw [if_pos ⟨hA.ne.symm, hO.db, hA.ba⟩] at hb ⊢
    obtain ⟨e, hst, _⟩ := deg_one hO.db
    rw [hst] at hb ⊢
    simp only at hb ⊢
    by_cases hsi : v.si b = false ∧ v.si a = false
    · rw [if_pos hsi] at hb; simp at hb
    · rw [if_neg hsi]
      obtain ⟨f, hf, h5, h6⟩ := addEdg_adj s.es { e with src := a, dst := b }
      exact .rel ⟨f, hf, h5, h6⟩

theorem joins_closes {v : Env N} {a b : N} (hA : Alone v a b) (l : List N) (s : St N P) (hO : Open s a b) (hb : b ∈ l) :
    ∃ rep, Later v s (l.foldl (join v a) s) rep ∧ Conn (Adj (l.foldl (join v a) s).es) (rep a) (rep b) := by
  induction l generalizing s with
  | nil => cases hb
  | cons x l ih =>
    by_cases hx : x = b
    · subst hx
      obtain ⟨f, h1, h2, h3⟩ := join_closes hA hO
      obtain ⟨g, h4⟩ := joins_later v a l _ h2
      exact ⟨_, h1.trans h4, h3.map g h4.keep⟩
    · have hsk : join v a s x = s := by
        by_cases hxa : x = a
        · unfold join
          rw [if_neg (by simp [hxa])]
        · exact join_skip v a s x (hA.oa x hx hxa).1
      simp only [List.foldl_cons, hsk]
      exact ih s hO (by rcases List.mem_cons.1 hb with h | h; exact absurd h.symm hx; exact h)

theorem visit_closes {v : Env N} {s : St N P} {a b : N} (hA : Alone v a b) (hO : Open s a b) :
    ∃ rep, Later v s (visit v s a) rep ∧ Conn (Adj (visit v s a).es) (rep a) (rep b) := by
  unfold visit
  rw [if_neg hO.la, if_pos hO.da]
  exact joins_closes hA _ s hO (by simp [hA.ga, hO.lb])

theorem visits_closes {v : Env N} {a b : N} (hA : Alone v a b) (ns : List N) (s : St N P) (hO : Open s a b) (ha : a ∈ ns) :
    ∃ rep, Later v s (ns.foldl (visit v) s) rep ∧ Conn (Adj (ns.foldl (visit v) s).es) (rep a) (rep b) := by
  induction ns generalizing s with
  | nil => cases ha
  | cons n ns ih =>
    have one : ∀ {s' : St N P} {f : N → N}, Later v s s' f → Conn (Adj s'.es) (f a) (f b) →
        ∃ rep, Later v s (ns.foldl (visit v) s') rep ∧ Conn (Adj (ns.foldl (visit v) s').es) (rep a) (rep b) := by
      intro s' f h1 h2
      obtain ⟨g, h3⟩ := visits_later v ns s'
      exact ⟨_, h1.trans h3, h2.map g h3.keep⟩
    by_cases hna : n = a
    · subst hna
      obtain ⟨f, h1, h2⟩ := visit_closes hA hO
      exact one h1 h2
    · by_cases hnb : n = b
      · subst hnb
        obtain ⟨f, h1, h2⟩ := visit_closes hA.symm hO.symm
        exact one h1 h2.symm
      · have h1 := visit_open hA hO hna hnb
        have ha' : a ∈ ns := by
          rcases List.mem_cons.1 ha with h | h
          · exact absurd h.symm hna
          · exact h
        obtain ⟨g, h2, h3⟩ := ih _ h1 ha'
        have hl : ∃ f, Later v s (visit v s n) f := visits_later v [n] s
        obtain ⟨f, hf⟩ := hl
        refine ⟨_, hf.trans h2, ?_⟩
        rw [hf.fix a h1.la, hf.fix b h1.lb]
        exact h3

/-- C71. A gap is closed: if two dead ends are near each other and no other node is near one of them, then whatever was connected with
one of them and remains is connected with whatever was connected with the other one and remains. -/
theorem C71_closed (v : Env N) (es : List (Edg N P)) (s : St N P) (hs : s = fixGaps v es) (a b : N) (hne : a ≠ b) (ha : a ∈ v.nds)
    (hda : (es.filter fun e => e.src = a).length + (es.filter fun e => e.dst = a).length = 1)
    (hdb : (es.filter fun e => e.src = b).length + (es.filter fun e => e.dst = b).length = 1)
    (hab : v.close a b = true ∧ v.close b a = true) (hg : b ∈ v.grid a ∧ a ∈ v.grid b)
    (hal : ∀ x, x ≠ a → x ≠ b → v.close x a = false ∧ v.close a x = false ∧ v.close x b = false ∧ v.close b x = false)
    (u w : N) (hu : u ∉ s.dead) (hw : w ∉ s.dead)
    (hua : Conn (fun x y => ∃ e ∈ es, e.src = x ∧ e.dst = y) u a) (hwb : Conn (fun x y => ∃ e ∈ es, e.src = x ∧ e.dst = y) w b) :
    Conn (fun x y => ∃ e ∈ s.es, e.src = x ∧ e.dst = y) u w := by
  have hA : Alone v a b := ⟨hne, hab.1, hab.2, hg.1, hg.2, fun x h1 h2 => ⟨(hal x h2 h1).1, (hal x h2 h1).2.1⟩,
    fun x h1 h2 => ⟨(hal x h1 h2).2.2.1, (hal x h1 h2).2.2.2⟩⟩
  have hO : Open (⟨es, []⟩ : St N P) a b :=
    ⟨by unfold deg ins outs; simp only; omega, by unfold deg ins outs; simp only; omega, by simp, by simp⟩
  obtain ⟨rep, h1, h2⟩ := visits_closes hA v.nds ⟨es, []⟩ hO ha
  rw [show v.nds.foldl (visit v) ⟨es, []⟩ = s from hs.symm] at h1 h2
  have h3 := hua.map rep h1.keep
  have h4 := hwb.map rep h1.keep
  rw [h1.fix u hu] at h3
  rw [h1.fix w hw] at h4
  exact (h3.trans h2).trans h4.symm

/-- C71. Only dead ends are joined: a graph where no two dead ends are near each other is not changed. -/
theorem C71_untouched (v : Env N) (es : List (Edg N P))
    (h : ∀ a b, a ≠ b → (es.filter fun e => e.src = a).length + (es.filter fun e => e.dst = a).length = 1 →
      (es.filter fun e => e.src = b).length + (es.filter fun e => e.dst = b).length = 1 → v.close b a = false) :
    (fixGaps v es).es = es ∧ (fixGaps v es).dead = [] := by
  have hj : ∀ n, deg es n = 1 → ∀ l : List N, l.foldl (join v n) (⟨es, []⟩ : St N P) = ⟨es, []⟩ := by
    intro n hn l
    induction l with
    | nil => rfl
    | cons x l ih =>
      have : join v n (⟨es, []⟩ : St N P) x = ⟨es, []⟩ := by
        unfold join
        rw [if_neg]
        rintro ⟨h1, h2, h3⟩
        unfold deg ins outs at hn h2
        rw [h n x (fun hh => h1 hh.symm) (by omega) (by simp only at h2; omega)] at h3
        cases h3
      rw [List.foldl_cons, this, ih]
  have hv : ∀ ns : List N, ns.foldl (visit v) (⟨es, []⟩ : St N P) = ⟨es, []⟩ := by
    intro ns
    induction ns with
    | nil => rfl
    | cons n ns ih =>
      have : visit v (⟨es, []⟩ : St N P) n = ⟨es, []⟩ := by
        unfold visit
        rw [if_neg (by simp)]
        split
        · rename_i hd
          exact hj n hd _
        · rfl
      rw [List.foldl_cons, this, ih]
  unfold fixGaps
  rw [hv]
  exact ⟨rfl, rfl⟩

/-! ### directions -/

/-- C71 (partial). A dead end `b` that is moved to the near dead end `n`: if its edge leads to it (or is no one-way street), travel along
the edge is permitted afterwards as it was before, `n` taking the place of `b`, and all other edges are kept. Nothing is said if there is
an edge already, or if the edge leads to `n` itself. -/
theorem C71_direction_partial (v : Env N) (n : N) (s : St N P) (b : N) (hb : b ≠ n) (hd : deg s.es b = 1) (hc : v.close b n = true)
    (hsi : v.si b = false ∧ v.si n = false) (x : N) (e : Edg N P) (he : e ∈ s.es) (hends : (e.src = x ∧ e.dst = b) ∨ (e.src = b ∧ e.dst = x))
    (hw : e.dst = b ∨ e.a.oneWay = 0) (hxn : x ≠ n) (hno : ∀ f ∈ s.es, ¬ (f.src = x ∧ f.dst = n)) :
    ∃ f ∈ (join v n s b).es, f.a = e.a ∧ f.lines = e.lines ∧ f.geom = e.geom ∧ (Permits f x n ↔ Permits e x b) ∧ (Permits f n x ↔ Permits e b x) ∧
      ∀ g, g ∈ (join v n s b).es ↔ g = f ∨ (g ∈ s.es ∧ g ≠ e) := by
  obtain ⟨e', hst, he', hends', honly⟩ := deg_one hd
  have hee : e = e' := honly e he (by rcases hends with h | h; exact Or.inr h.2; exact Or.inl h.1)
  subst hee
  have hxb : x ≠ b := by
    rintro rfl
    rcases hends' with ⟨h1, h2⟩ | ⟨h1, h2⟩ <;> rcases hends with ⟨h3, h4⟩ | ⟨h3, h4⟩
    · exact h2 h4
    · exact h2 h4
    · exact h2 h3
    · exact h2 h3
  have hoth : e.oth b = x := by
    unfold Edg.oth
    rcases hends with ⟨h1, h2⟩ | ⟨h1, h2⟩
    · rw [if_neg (by rw [h1]; exact hxb), h1]
    · rw [if_pos h1, h2]
  have hj : (join v n s b).es = delNd (s.es ++ [{ e with src := x, dst := n }]) b := by
    unfold join
    rw [if_pos ⟨hb, hd, hc⟩, hst]
    simp only
    rw [if_pos hsi]
    simp only [hoth]
    unfold addEdg getEdg
    have : s.es.find? (fun f => decide (f.src = x) && decide (f.dst = n)) = none := by
      rw [List.find?_eq_none]
      intro f hf hh
      exact hno f hf (by simpa using hh)
    simp only [this]
  rw [hj]
  refine ⟨{ e with src := x, dst := n }, ?_, rfl, rfl, rfl, ?_, ?_, ?_⟩
  · exact mem_delNd.2 ⟨by simp, hxb, fun h => hb h.symm⟩
  · unfold Permits
    rcases hends with ⟨h1, h2⟩ | ⟨h1, h2⟩
    · simp [h1, h2, hxn, hxn.symm, hxb, hxb.symm]
    · have h0 : e.a.oneWay = 0 := by
        rcases hw with h | h
        · exact absurd (h2.symm.trans h) hxb
        · exact h
      simp [h1, h2, hxn, hxn.symm, hxb, hxb.symm, h0]
  · unfold Permits
    rcases hends with ⟨h1, h2⟩ | ⟨h1, h2⟩
    · simp [h1, h2, hxn, hxn.symm, hxb, hxb.symm]
    · have h0 : e.a.oneWay = 0 := by
        rcases hw with h | h
        · exact absurd (h2.symm.trans h) hxb
        · exact h
      simp [h1, h2, hxn, hxn.symm, hxb, hxb.symm, h0]
  · intro g
    rw [mem_delNd, List.mem_append, List.mem_singleton]
    constructor
    · rintro ⟨h1 | h1, h2, h3⟩
      · refine Or.inr ⟨h1, ?_⟩
        rintro rfl
        rcases hends' with ⟨h4, _⟩ | ⟨h4, _⟩
        · exact h2 h4
        · exact h3 h4
      · exact Or.inl h1
    · rintro (h1 | ⟨h1, h2⟩)
      · subst h1
        exact ⟨Or.inr rfl, hxb, fun h => hb h.symm⟩
      · exact ⟨Or.inl h1, fun h => h2 (honly g h1 (Or.inl h)), fun h => h2 (honly g h1 (Or.inr h))⟩

/-! ### examples and what fails -/

/-- An edge with its one-way mark. -/
def mkE (u w : Nat) (o : Fin 4) : Edg Nat Nat := ⟨u, w, { restr := false, oneWay := o, rev := false, lvl := 0, cost := 0 }, [], none⟩

/-- `1 → 2`, a gap between `2` and `3`, `3 → 4`; nodes with consecutive numbers 10, 11, 12 are near each other. -/
def exV (si : Nat → Bool) : Env Nat where
  nds := [1, 2, 3, 4, 10, 11, 12, 20, 21, 22]
  grid n := [n - 1, n, n + 1]
  si := si
  close a b := (a = 2 ∧ b = 3) ∨ (a = 3 ∧ b = 2) ∨ (10 ≤ a ∧ a ≤ 12 ∧ 10 ≤ b ∧ b ≤ 12 ∧ a ≤ b + 1 ∧ b ≤ a + 1)

/-- The gap is closed: `3` is gone, its edge ends in `2`. -/
example : fixGaps (exV fun _ => false) [mkE 1 2 0, mkE 4 3 1] = ⟨[mkE 1 2 0, mkE 4 2 1], [3]⟩ := by decide
/-- With a station: a new edge. -/
example : fixGaps (exV fun n => n = 3) [mkE 1 2 0, mkE 4 3 1] = ⟨[mkE 1 2 0, mkE 4 3 1, mkE 2 3 1], []⟩ := by decide

/-- The hypotheses of `C71_closed` and of `C71_direction_partial` can be met. -/
example : Conn (fun x y => ∃ e ∈ [mkE 1 2 0, mkE 4 2 1], e.src = x ∧ e.dst = y) 1 4 :=
  C71_closed (exV fun _ => false) [mkE 1 2 0, mkE 4 3 1] ⟨[mkE 1 2 0, mkE 4 2 1], [3]⟩ (by decide) 2 3 (by decide) (by decide)
    (by decide) (by decide) (by decide) (by decide)
    (by intro x h1 h2; refine ⟨?_, ?_, ?_, ?_⟩ <;> (simp only [exV]; rw [decide_eq_false_iff_not]; omega))
    1 4 (by decide) (by decide) (.rel ⟨mkE 1 2 0, by simp, rfl, rfl⟩) (.rel ⟨mkE 4 3 1, by simp, rfl, rfl⟩)
example : ∃ f ∈ (join (exV fun _ => false) 2 ⟨[mkE 1 2 0, mkE 4 3 1], []⟩ 3).es, ¬ Permits f 2 4 := by
  obtain ⟨f, h1, _, _, _, _, h2, _⟩ := C71_direction_partial (exV fun _ => false) 2 ⟨[mkE 1 2 0, mkE 4 3 1], []⟩ 3 (by decide) (by decide)
    (by decide) (by decide) 4 (mkE 4 3 1) (by simp) (Or.inl ⟨rfl, rfl⟩) (Or.inl rfl) (by decide) (by decide)
  exact ⟨f, h1, fun h => absurd (h2.1 h) (by simp [Permits, mkE])⟩

/-- `2` is no dead end. -/
example : (fixGaps (exV fun _ => false) [mkE 1 2 0, mkE 2 5 0, mkE 4 3 1]).es = [mkE 1 2 0, mkE 2 5 0, mkE 4 3 1] := by
  refine (C71_untouched _ _ ?_).1
  intro a b hne ha hb
  simp only [exV, decide_eq_false_iff_not]
  rintro (⟨rfl, rfl⟩ | ⟨rfl, rfl⟩ | ⟨h1, h2, h3, h4, h5⟩)
  · revert hb; decide
  · revert ha; decide
  · have : a = 10 ∨ a = 11 ∨ a = 12 := by omega
    rcases this with rfl | rfl | rfl <;> exact absurd ha (by decide)

/-- C71 (negation). A one-way street that begins at a gap is reversed: from `1` over the gap to `4` everything is one-way in that
direction, afterwards `4` is not reached, and the street is open in the wrong direction. -/
theorem C71_negation_one_way (es : List (Edg Nat Nat)) (hes : es = [mkE 1 2 1, mkE 3 4 1]) :
    let s := fixGaps (exV fun _ => false) es
    Reach es 3 4 ∧ ¬ Reach es 4 3 ∧ s = ⟨[mkE 1 2 1, mkE 4 2 1], [3]⟩ ∧ ¬ Reach s.es 1 4 ∧ ¬ Reach s.es 2 4 ∧ Reach s.es 4 2 := by
  subst hes
  have hs : fixGaps (exV fun _ => false) [mkE 1 2 1, mkE 3 4 1] = ⟨[mkE 1 2 1, mkE 4 2 1], [3]⟩ := by decide
  simp only [hs]
  refine ⟨.step (.refl 3) ⟨mkE 3 4 1, by simp, Or.inl ⟨rfl, rfl, by decide⟩⟩, ?_, trivial, ?_, ?_,
    .step (.refl 4) ⟨mkE 4 2 1, by simp, Or.inl ⟨rfl, rfl, by decide⟩⟩⟩
  · have : ∀ u w, Reach [mkE 1 2 1, mkE 3 4 1] u w → u = 4 → w = 4 := by
      intro u w h
      induction h with
      | refl => exact id
      | step h1 h2 ih =>
        intro hu
        obtain ⟨e, he, hp⟩ := h2
        have := ih hu
        subst this
        simp only [List.mem_cons, List.not_mem_nil, or_false] at he
        rcases he with rfl | rfl <;> rcases hp with ⟨h3, h4, h5⟩ | ⟨h3, h4, h5⟩ <;> simp [mkE] at h3 h5
    intro h
    exact absurd (this 4 3 h rfl) (by decide)
  · have : ∀ u w, Reach [mkE 1 2 1, mkE 4 2 1] u w → u ≠ 4 → w ≠ 4 := by
      intro u w h
      induction h with
      | refl => exact id
      | step h1 h2 ih =>
        intro hu
        obtain ⟨e, he, hp⟩ := h2
        have := ih hu
        simp only [List.mem_cons, List.not_mem_nil, or_false] at he
        rcases he with rfl | rfl <;> rcases hp with ⟨h3, h4, h5⟩ | ⟨h3, h4, h5⟩ <;> simp [mkE] at h3 h4 h5 <;> omega
    intro h
    exact this 1 4 h (by decide) rfl
  · have : ∀ u w, Reach [mkE 1 2 1, mkE 4 2 1] u w → u ≠ 4 → w ≠ 4 := by
      intro u w h
      induction h with
      | refl => exact id
      | step h1 h2 ih =>
        intro hu
        obtain ⟨e, he, hp⟩ := h2
        have := ih hu
        simp only [List.mem_cons, List.not_mem_nil, or_false] at he
        rcases he with rfl | rfl <;> rcases hp with ⟨h3, h4, h5⟩ | ⟨h3, h4, h5⟩ <;> simp [mkE] at h3 h4 h5 <;> omega
    intro h
    exact this 2 4 h (by decide) rfl

/-- C71 (negation). Not every gap is closed: of three dead ends `10`, `11`, `12` in a row, each near the next one, `11` is moved to `10`,
and `12`, which was near `11`, stays apart. -/
theorem C71_negation_chain (es : List (Edg Nat Nat)) (hes : es = [mkE 20 10 0, mkE 21 11 0, mkE 22 12 0]) :
    (exV fun _ => false).close 11 12 = true ∧
    fixGaps (exV fun _ => false) es = ⟨[mkE 20 10 0, mkE 22 12 0, mkE 21 10 0], [11]⟩ ∧
    ¬ Conn (fun x y => ∃ e ∈ (fixGaps (exV fun _ => false) es).es, e.src = x ∧ e.dst = y) 21 22 := by
  subst hes
  have hs : fixGaps (exV fun _ => false) [mkE 20 10 0, mkE 21 11 0, mkE 22 12 0] = ⟨[mkE 20 10 0, mkE 22 12 0, mkE 21 10 0], [11]⟩ := by
    decide
  rw [hs]
  refine ⟨by decide, rfl, ?_⟩
  have : ∀ u w, Conn (fun x y => ∃ e ∈ [mkE 20 10 0, mkE 22 12 0, mkE 21 10 0], e.src = x ∧ e.dst = y) u w →
      ((u = 12 ∨ u = 22) ↔ (w = 12 ∨ w = 22)) := by
    intro u w h
    induction h with
    | refl u => exact Iff.rfl
    | rel h =>
      obtain ⟨e, he, rfl, rfl⟩ := h
      simp only [List.mem_cons, List.not_mem_nil, or_false] at he
      rcases he with rfl | rfl | rfl <;> simp [mkE]
    | symm _ ih => exact ih.symm
    | trans _ _ ih1 ih2 => exact ih1.trans ih2
  intro h
  exact absurd ((this 21 22 h).2 (Or.inr rfl)) (by decide)

/-- C71 (negation). A short track that is connected with nothing becomes a loop at one of its ends. -/
theorem C71_negation_loop : fixGaps (exV fun _ => false) [mkE 2 3 0] = ⟨[mkE 2 2 0], [3]⟩ := by decide

/-- C71 (negation). The turn rules do not follow the edge that is moved (`fixGaps` does not know them): for the new edge, which no rule
mentions, no rule holds that begins with it, and no prohibition that ends with it; and whoever had to turn into the old edge may not turn
into the new one. -/
theorem C71_negation_rules {E W : Type} [DecidableEq E] [DecidableEq W] (r : Restrictor.R N E W) (old new : E) (via : N)
    (hon : old ≠ new)
    (hp : ∀ x ∈ r.pos via, x.1 ≠ new ∧ x.2 ≠ some new) (hn : ∀ x ∈ r.neg via, x.1 ≠ new ∧ x.2 ≠ some new) :
    (∀ to, r.may new to via = true) ∧ (∀ fr, (∀ x ∈ r.pos via, x.1 ≠ fr) → r.may fr new via = true) ∧
    (∀ fr, (fr, some old) ∈ r.pos via → r.may fr new via = false) := by
  have hneg : ∀ fr to, (fr = new ∨ to = new) → Restrictor.mayNeg fr to (r.neg via) = true := by
    intro fr to hh
    generalize r.neg via = l at hn
    induction l with
    | nil => rfl
    | cons x l ih =>
      unfold Restrictor.mayNeg
      have hx := hn x (by simp)
      rw [if_neg, ih (fun y hy => hn y (by simp [hy]))]
      rintro ⟨h1, h2⟩
      rcases hh with rfl | rfl
      · exact hx.1 h1
      · exact hx.2 h2
  have hpos : ∀ fr to (l : Restrictor.RuleVec E), (∀ x ∈ l, x.1 ≠ fr) → Restrictor.mayPos fr to l = none := by
    intro fr to l hl
    induction l with
    | nil => rfl
    | cons x l ih =>
      unfold Restrictor.mayPos
      have hx := hl x (by simp)
      rw [if_neg (fun h => hx h.1), if_neg (fun h => hx h.1), ih (fun y hy => hl y (by simp [hy]))]
  refine ⟨fun to => ?_, fun fr hfr => ?_, fun fr hfr => ?_⟩
  · unfold Restrictor.R.may
    rw [hpos new to _ (fun x hx => (hp x hx).1)]
    exact hneg _ _ (Or.inl rfl)
  · unfold Restrictor.R.may
    rw [hpos fr new _ hfr]
    exact hneg _ _ (Or.inr rfl)
  · unfold Restrictor.R.may
    have : Restrictor.mayPos fr new (r.pos via) = some false := by
      generalize r.pos via = l at hp hfr
      induction l with
      | nil => cases hfr
      | cons x l ih =>
        unfold Restrictor.mayPos
        have hx := hp x (by simp)
        by_cases hc : x.1 = fr ∧ x.2.isSome = true ∧ x.2 ≠ some new
        · rw [if_pos hc]
        · rw [if_neg hc, if_neg (fun h => hx.2 h.2)]
          apply ih (fun y hy => hp y (by simp [hy]))
          rcases List.mem_cons.1 hfr with h | h
          · subst h
            exact absurd ⟨rfl, rfl, by simp [hon]⟩ hc
          · exact h
    rw [this]

/-- A rule at node `7`: from edge `5` one must turn into edge `6`; edge `9` is new. -/
example : (Restrictor.run [.relax 1 7 6, .add 5 1 7 true] : Restrictor.R Nat Nat Nat).may 5 6 7 = true ∧
    (Restrictor.run [.relax 1 7 6, .add 5 1 7 true] : Restrictor.R Nat Nat Nat).may 5 9 7 = false := by
  refine ⟨by decide, (C71_negation_rules _ 6 9 7 (by decide) (by decide) (by decide)).2.2 5 (by decide)⟩

end Verif.Gaps
