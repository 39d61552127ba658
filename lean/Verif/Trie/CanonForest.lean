import Verif.Trie.Canon
set_option linter.unusedSectionVars false
/-!
# Trips that look the same share a node of a forest (property C12)
-/

namespace Verif.Trie
variable {T P A : Type} [DecidableEq T]

/-! ### rejection -/

/-- The trie rejects the trip and stays as it is. -/
def Rejects (c : CEnv T P A) (key : A) (tr : Trie T P A) (t : T) : Prop :=
  tr.addTrip c.toEnv t key c.timeEx c.noTrie = some (false, tr)

/-- The call for a trip. -/
def callOf (c : CEnv T P A) (key : A) (t : T) : Op T A := ⟨t, key, c.timeEx, c.noTrie⟩

theorem rejects_normal {c : CEnv T P A} (hnear : ∀ p, c.near p p = true) {key : A} {tr : Trie T P A} {log} (I : Inv c.toEnv tr log)
    (hd : c.noTrie = false) {t : T} {s : StopTime P} {rest} (hs : c.stops t = s :: rest) :
    Rejects c key tr t ↔ rest ≠ [] ∧ getMatchChild c.toEnv c.timeEx s (relTime (startAdd (s :: rest)) s.dep) tr.nds 0 = some 0 ∧
      tr.tripNds ≠ [] := by
  unfold Rejects Trie.addTrip Trie.add
  simp only [hd, Bool.false_eq_true, if_false, hs, List.isEmpty_cons]
  constructor
  · intro h
    split at h
    · cases h
    · rename_i nds' cur hl
      obtain ⟨a1, a2, a3⟩ := addLoop_first_false c.toEnv hnear s rest I.wf hl
      refine ⟨a1, a2, ?_⟩
      rw [decide_eq_true_iff] at a3
      exact List.length_pos_iff.1 a3
    · cases h
  · rintro ⟨h1, h2, h3⟩
    cases rest with
    | nil => exact absurd rfl h1
    | cons s' rest =>
      have hf : decide (tr.tripNds.length > 0) = true := by
        rw [decide_eq_true_iff]; exact List.length_pos_iff.2 h3
      have hv : visit c.toEnv c.timeEx key true s (relTime (startAdd (s :: s' :: rest)) s.dep) false tr.nds 0 = some (false, tr.nds, 0) := by
        simp only [visit, h2, if_true]
      rw [hf, addLoop]
      simp only [if_true, List.isEmpty_cons, Bool.false_eq_true, if_false, Bool.true_and, hv]

theorem walkTo_getLoop_next (env : Env T P A) {tx start} {nds : List (Nd P A)} : ∀ (rest : List (StopTime P)) (s : StopTime P) (cur c : Nat),
    walkTo env tx start nds (⟨s, true⟩ :: spell (s :: rest)) cur = some c → getLoop env tx start nds false (s :: rest) cur = some c := by
  intro rest
  induction rest with
  | nil =>
    intro s cur c h
    simp only [walkTo] at h
    split at h
    · rename_i k hg
      rw [time_arr] at hg
      simp only [spell, walkTo, Option.some.injEq] at h
      subst h
      simp [getLoop, hg]
    · cases h
  | cons s' rest ih =>
    intro s cur c h
    simp only [walkTo] at h
    split at h
    · rename_i k hg
      rw [time_arr] at hg
      simp only [spell, walkTo] at h
      split at h
      · rename_i m hg2
        rw [time_dep] at hg2
        have := ih s' (m + 1) c (by simp only [walkTo]; exact h)
        rw [getLoop]
        simp [hg, hg2, this]
      · cases h
    · cases h

theorem walkTo_getLoop_first (env : Env T P A) {tx start} {nds : List (Nd P A)} (s : StopTime P) (rest : List (StopTime P)) (c : Nat)
    (h : walkTo env tx start nds (spell (s :: rest)) 0 = some c) : getLoop env tx start nds true (s :: rest) 0 = some c := by
  cases rest with
  | nil => simp only [spell, walkTo, Option.some.injEq] at h; subst h; rfl
  | cons s' rest =>
    simp only [spell, walkTo] at h
    split at h
    · rename_i m hg2
      rw [time_dep] at hg2
      have := walkTo_getLoop_next env rest s' (m + 1) c (by simp only [walkTo]; exact h)
      rw [getLoop]
      simp [hg2, this]
    · cases h

/-- In degenerate mode a trip is not rejected by a trie in which its events lead to a leaf. -/
theorem accepts_degen {c : CEnv T P A} {key : A} {tr : Trie T P A} (hd : c.noTrie = true) {t : T} (hs : c.stops t ≠ []) {nid n}
    (h0 : nid ≠ 0) (hw : walkTo c.toEnv c.timeEx ((callOf c key t).start c.toEnv) tr.nds (spell (c.stops t)) 0 = some nid)
    (hn : tr.nds[nid]? = some n) (hc : n.childs = []) : ¬ Rejects c key tr t := by
  rw [start_eq_get c.toEnv (callOf c key t) hd] at hw
  change walkTo c.toEnv c.timeEx (startGet c.toEnv (c.stops t)) tr.nds (spell (c.stops t)) 0 = some nid at hw
  have hg : tr.get c.toEnv t c.timeEx = some nid := by
    unfold Trie.get
    cases hst : c.stops t with
    | nil => exact absurd hst hs
    | cons s rest =>
      rw [hst] at hw
      exact walkTo_getLoop_first c.toEnv s rest nid hw
  intro h
  simp only [Rejects, Trie.addTrip, hd, if_true, hg, ne_eq, h0, not_false_eq_true, hn, hc, List.length_nil] at h
  cases h

theorem rejects_nil {c : CEnv T P A} {key : A} {tr : Trie T P A} {t : T} (hs : c.stops t = []) : Rejects c key tr t := by
  unfold Rejects Trie.addTrip Trie.get Trie.add
  cases c.noTrie <;> simp [hs]

/-- A trip that was rejected will be rejected. -/
theorem rejects_stable {c : CEnv T P A} (hnear : ∀ p, c.near p p = true) {key : A} {tr : Trie T P A} {log} (I : Inv c.toEnv tr log)
    (hf : tr.tripNds ≠ []) {t : T} {tr' : Trie T P A} {nid} (h : tr.addTrip c.toEnv t key c.timeEx c.noTrie = some (true, tr'))
    (F : Filed c.toEnv tr log (callOf c key t) tr' nid) {t' : T} (hr : Rejects c key tr t') : Rejects c key tr' t' := by
  cases hs : c.stops t' with
  | nil => exact rejects_nil hs
  | cons s rest =>
    cases hd : c.noTrie with
    | false =>
      rw [rejects_normal hnear I hd hs] at hr
      rw [rejects_normal hnear F.inv hd hs]
      obtain ⟨a1, a2, _⟩ := addTrip_canon c.toEnv hnear I (callOf c key t) h (by rw [F.tripNds]; exact lookup_assign _ _ _)
      exact ⟨hr.1, rootless_stable I.wf a1 (a2 hf) hr.2.1, by rw [F.tripNds]; simp [assign]⟩
    | true =>
      have hn : tr'.nds = tr.nds := (F.leaf hd).1
      unfold Rejects Trie.addTrip at hr ⊢
      have hg : tr'.get c.toEnv t' c.timeEx = tr.get c.toEnv t' c.timeEx := by unfold Trie.get; rw [hn]
      simp only [hd, if_true, hg, hn] at hr ⊢
      split at hr
      · cases hr
      · rename_i e he
        split at hr
        · rename_i h0
          split at hr
          · cases hr
          · rename_i n hn
            split at hr
            · cases hr
            · rename_i hc
              rw [if_pos h0]
              rw [if_neg hc]
        · rename_i h0
          rw [if_neg h0]

/-! ### leaves -/

theorem visit_leaf {env : Env T P A} {tx a st time arr} {nds : List (Nd P A)} {cur n nds' c} (hn : nds[cur]? = some n) (hc : n.childs = [])
    (h : visit env tx a false st time arr nds cur = some (true, nds', c)) : ∃ m, nds'[c]? = some m ∧ m.childs = [] := by
  have hcur := lt_of_get hn
  simp only [visit, getMatchChild, hn, hc, firstMatch, Bool.false_eq_true, if_false, insert] at h
  rw [List.getElem?_append_left hcur, hn] at h
  simp only [Option.some.injEq, Prod.mk.injEq, true_and] at h
  obtain ⟨rfl, rfl⟩ := h
  simp only [List.length_append, List.length_cons, List.length_nil, Nat.zero_add, Nat.add_sub_cancel]
  rw [List.getElem?_set_ne (by omega)]
  simp

theorem addLoop_leaf {env : Env T P A} {tx a start} : ∀ (l : List (StopTime P)) (first : Bool) (nds : List (Nd P A)) (cur : Nat) (n : Nd P A)
    (nds' : List (Nd P A)) (c : Nat), nds[cur]? = some n → n.childs = [] →
    addLoop env tx a start false first l nds cur = some (true, nds', c) → ∃ m, nds'[c]? = some m ∧ m.childs = [] := by
  intro l
  induction l with
  | nil =>
    intro first nds cur n nds' c hn hc h
    simp only [addLoop, Option.some.injEq, Prod.mk.injEq, true_and] at h
    obtain ⟨rfl, rfl⟩ := h
    exact ⟨n, hn, hc⟩
  | cons st rest ih =>
    intro first nds cur n nds' c hn hc h
    rw [addLoop] at h
    split at h
    · cases h
    · cases h
    · rename_i n1 c1 h1
      have l1 : ∃ m, n1[c1]? = some m ∧ m.childs = [] := by
        split at h1
        · simp only [Option.some.injEq, Prod.mk.injEq, true_and] at h1
          obtain ⟨rfl, rfl⟩ := h1
          exact ⟨n, hn, hc⟩
        · exact visit_leaf hn hc h1
      obtain ⟨m1, hm1, hc1⟩ := l1
      split at h
      · cases h
      · cases h
      · rename_i n2 c2 h2
        have l2 : ∃ m, n2[c2]? = some m ∧ m.childs = [] := by
          split at h2
          · simp only [Option.some.injEq, Prod.mk.injEq, true_and] at h2
            obtain ⟨rfl, rfl⟩ := h2
            exact ⟨m1, hm1, hc1⟩
          · rw [Bool.and_false] at h2
            exact visit_leaf hm1 hc1 h2
        obtain ⟨m2, hm2, hc2⟩ := l2
        exact ih false n2 c2 m2 nds' c hm2 hc2 h

/-- The first trip of a trie ends in a leaf. -/
theorem first_leaf {env : Env T P A} {t : T} {a : A} {tx : Bool} {tr' : Trie T P A} {nid}
    (h : (Trie.empty env).addTrip env t a tx false = some (true, tr')) (hn : tr'.tripNds.lookup t = some nid) :
    ∃ m, tr'.nds[nid]? = some m ∧ m.childs = [] := by
  unfold Trie.addTrip at h
  simp only [Bool.false_eq_true, if_false] at h
  unfold Trie.add at h
  split at h
  · cases h
  · split at h
    · cases h
    · cases h
    · rename_i nds' cur hl
      cases h
      rw [show (Trie.file { Trie.empty env with nds := nds' } t cur).tripNds = assign [] t cur from rfl, lookup_assign] at hn
      cases hn
      exact addLoop_leaf _ true _ 0 _ nds' nid rfl rfl hl

/-! ### forests -/

/-- In degenerate mode with times, the first departure is needed. -/
def Clear (c : CEnv T P A) (t : T) : Prop := c.noTrie = true → c.timeEx = true → ∃ s, (c.stops t).head? = some s ∧ s.dep ≠ none

/-- Where the events of a trip lead. -/
def leads (c : CEnv T P A) (key : A) (tr : Trie T P A) (t : T) : Option Nat :=
  walkTo c.toEnv c.timeEx ((callOf c key t).start c.toEnv) tr.nds (spell (c.stops t)) 0

theorem leads_first {c : CEnv T P A} {key : A} {tr : Trie T P A} {t : T} (hc : Clear c t) :
    leads c key tr t = walkTo c.toEnv c.timeEx ((⟨t, key, c.timeEx, false⟩ : Op T A).start c.toEnv) tr.nds (spell (c.stops t)) 0 := by
  unfold leads
  refine walkTo_look _ _ 0 rfl fun ht => ?_
  congr 2
  cases hd : c.noTrie with
  | false => simp [callOf, hd]
  | true =>
    obtain ⟨s, h1, h2⟩ := hc hd ht
    obtain ⟨d, hd⟩ := Option.ne_none_iff_exists'.1 h2
    simp [Op.start, callOf, h1, hd]

/-- What holds for a trie of a forest and the trips filed in it. -/
structure TInv (c : CEnv T P A) (key : A) (tr : Trie T P A) (l : List (T × Nat)) : Prop where
  inv : ∃ log, Inv c.toEnv tr log ∧ log.map (fun p => (p.1.t, p.2)) = l
  ne : l ≠ []
  lead : ∀ p ∈ l, leads c key tr p.1 = some p.2
  leaf : c.noTrie = true → ∀ p ∈ l, ∃ m, tr.nds[p.2]? = some m ∧ m.childs = []
  stops : ∀ p ∈ l, c.stops p.1 ≠ []

theorem TInv.filed {c : CEnv T P A} {key : A} {tr : Trie T P A} {l} (h : TInv c key tr l) : tr.tripNds ≠ [] := by
  obtain ⟨log, I, e⟩ := h.inv
  rw [I.tripNds]
  have : log ≠ [] := by rintro rfl; exact h.ne (by simpa using e.symm)
  rw [← List.dropLast_concat_getLast this, List.foldl_append]
  simp [assign]

theorem TInv.add {c : CEnv T P A} (hnear : ∀ p, c.near p p = true) {key : A} {tr : Trie T P A} {l} (h : TInv c key tr l) (t : T)
    (hs : c.stops t ≠ []) :
    Rejects c key tr t ∨ ∃ tr' nid, tr.addTrip c.toEnv t key c.timeEx c.noTrie = some (true, tr') ∧ TInv c key tr' (l ++ [(t, nid)]) ∧
      ∀ t', Rejects c key tr t' → Rejects c key tr' t' := by
  obtain ⟨log, I, e⟩ := h.inv
  rcases addTrip_spec c.toEnv hnear I (callOf c key t) with ⟨h1, _⟩ | ⟨tr', nid, h1, F⟩
  · exact .inl h1
  · right
    have hn : tr'.tripNds.lookup t = some nid := by rw [F.tripNds]; exact lookup_assign _ _ _
    obtain ⟨a1, _, a3⟩ := addTrip_canon c.toEnv hnear I (callOf c key t) h1 hn
    refine ⟨tr', nid, h1, ⟨⟨_, F.inv, by simp [e, callOf]⟩, by simp, ?_, ?_, ?_⟩, fun t' hr => rejects_stable hnear I h.filed h1 F hr⟩
    · intro p hp
      rcases List.mem_append.1 hp with hp | hp
      · exact walkTo_stable a1 _ _ _ (h.lead p hp)
      · rw [List.mem_singleton] at hp; subst hp; exact a3
    · intro hd p hp
      obtain ⟨q1, m, q2, q3⟩ := F.leaf hd
      rw [q1]
      rcases List.mem_append.1 hp with hp | hp
      · exact h.leaf hd p hp
      · rw [List.mem_singleton] at hp; subst hp; exact ⟨m, q2, q3⟩
    · intro p hp
      rcases List.mem_append.1 hp with hp | hp
      · exact h.stops p hp
      · rw [List.mem_singleton] at hp; subst hp; exact hs

theorem TInv.new {c : CEnv T P A} (hnear : ∀ p, c.near p p = true) {key : A} (t : T) (hs : c.stops t ≠ []) (hc : Clear c t) :
    ∃ tr nid, (Trie.empty c.toEnv).addTrip c.toEnv t key c.timeEx false = some (true, tr) ∧ TInv c key tr [(t, nid)] := by
  rcases addTrip_spec c.toEnv hnear (Inv.empty c.toEnv) ⟨t, key, c.timeEx, false⟩ with ⟨_, h' | h' | h'⟩ | ⟨tr', nid, h1, F⟩
  · exact absurd h' hs
  · cases h'
  · exact absurd rfl h'
  · have hn : tr'.tripNds.lookup t = some nid := by rw [F.tripNds]; exact lookup_assign _ _ _
    obtain ⟨a1, _, a3⟩ := addTrip_canon c.toEnv hnear (Inv.empty c.toEnv) ⟨t, key, c.timeEx, false⟩ h1 hn
    refine ⟨tr', nid, h1, ⟨⟨_, F.inv, by simp⟩, by simp, ?_, ?_, ?_⟩⟩
    · intro p hp
      rw [List.mem_singleton] at hp; subst hp
      rw [leads_first hc]; exact a3
    · intro _ p hp
      rw [List.mem_singleton] at hp; subst hp
      exact first_leaf h1 hn
    · intro p hp
      rw [List.mem_singleton] at hp; subst hp; exact hs

/-- A forest: every trie rejects what is filed in the later ones. -/
structure FInv (c : CEnv T P A) (key : A) (fs : List (Trie T P A × List (T × Nat))) : Prop where
  each : ∀ p ∈ fs, TInv c key p.1 p.2
  rej : fs.Pairwise fun p q => ∀ e ∈ q.2, Rejects c key p.1 e.1

theorem offer_finv {c : CEnv T P A} (hnear : ∀ p, c.near p p = true) {key : A} (t : T) (hs : c.stops t ≠ []) :
    ∀ (fs : List (Trie T P A × List (T × Nat))), (∀ p ∈ fs, TInv c key p.1 p.2) →
    (offer c key t (fs.map (·.1)) = some (false, fs.map (·.1)) ∧ ∀ p ∈ fs, Rejects c key p.1 t) ∨
    ∃ pre p post tr' nid, fs = pre ++ p :: post ∧ (∀ q ∈ pre, Rejects c key q.1 t) ∧
      offer c key t (fs.map (·.1)) = some (true, (pre ++ (tr', p.2 ++ [(t, nid)]) :: post).map (·.1)) ∧
      TInv c key tr' (p.2 ++ [(t, nid)]) ∧ ∀ t', Rejects c key p.1 t' → Rejects c key tr' t' := by
  intro fs
  induction fs with
  | nil => intro _; exact .inl ⟨rfl, by simp⟩
  | cons p fs ih =>
    intro h
    rcases (h p (List.mem_cons_self ..)).add hnear t hs with hr | ⟨tr', nid, h1, h2, h3⟩
    · have hr' : p.1.addTrip c.toEnv t key c.timeEx c.noTrie = some (false, p.1) := hr
      rcases ih fun q hq => h q (List.mem_cons_of_mem _ hq) with ⟨g1, g2⟩ | ⟨pre, q, post, tr', nid, g1, g2, g3, g4, g5⟩
      · left
        refine ⟨by simp only [List.map_cons, offer, hr', g1], ?_⟩
        intro q hq
        rcases List.mem_cons.1 hq with rfl | hq
        · exact hr
        · exact g2 q hq
      · right
        refine ⟨p :: pre, q, post, tr', nid, by rw [g1]; rfl, ?_, ?_, g4, g5⟩
        · intro x hx
          rcases List.mem_cons.1 hx with rfl | hx
          · exact hr
          · exact g2 x hx
        · simp only [List.map_cons, offer, hr', g3, List.cons_append]
    · right
      exact ⟨[], p, fs, tr', nid, rfl, by simp, by simp only [List.map_cons, offer, h1, List.nil_append], h2, h3⟩

theorem cluster_finv {c : CEnv T P A} (hnear : ∀ p, c.near p p = true) {key : A} {fs : List (Trie T P A × List (T × Nat))} (h : FInv c key fs)
    (t : T) (hs : c.stops t ≠ []) (hc : Clear c t) :
    ∃ fs', clusterTrip c key (fs.map (·.1)) t = some (fs'.map (·.1)) ∧ FInv c key fs' ∧
      ((fs'.flatMap (·.2)).map (·.1)).Perm ((fs.flatMap (·.2)).map (·.1) ++ [t]) := by
  rcases offer_finv hnear (key := key) t hs fs h.each with ⟨g1, g2⟩ | ⟨pre, p, post, tr', nid, g1, g2, g3, g4, g5⟩
  · obtain ⟨tr, nid, h1, h2⟩ := TInv.new hnear (key := key) t hs hc
    refine ⟨fs ++ [(tr, [(t, nid)])], by simp only [clusterTrip, g1, h1, List.map_append, List.map_cons, List.map_nil], ⟨?_, ?_⟩, ?_⟩
    · intro q hq
      rcases List.mem_append.1 hq with hq | hq
      · exact h.each q hq
      · rw [List.mem_singleton] at hq; subst hq; exact h2
    · refine List.pairwise_append.2 ⟨h.rej, by simp, ?_⟩
      intro q hq r hr e he
      rw [List.mem_singleton] at hr; subst hr
      rw [List.mem_singleton] at he; subst he
      exact g2 q hq
    · simp
  · subst g1
    obtain ⟨r1, r2, r3⟩ := List.pairwise_append.1 h.rej
    obtain ⟨r4, r5⟩ := List.pairwise_cons.1 r2
    refine ⟨pre ++ (tr', p.2 ++ [(t, nid)]) :: post, by simp only [clusterTrip, g3], ⟨?_, ?_⟩, ?_⟩
    · intro q hq
      rcases List.mem_append.1 hq with hq | hq
      · exact h.each q (List.mem_append_left _ hq)
      · rcases List.mem_cons.1 hq with rfl | hq
        · exact g4
        · exact h.each q (List.mem_append_right _ (List.mem_cons_of_mem _ hq))
    · refine List.pairwise_append.2 ⟨r1, List.pairwise_cons.2 ⟨?_, r5⟩, ?_⟩
      · intro q hq e he; exact g5 _ (r4 q hq e he)
      · intro q hq r hr e he
        rcases List.mem_cons.1 hr with rfl | hr
        · rcases List.mem_append.1 he with he | he
          · exact r3 q hq p (List.mem_cons_self ..) e he
          · rw [List.mem_singleton] at he; subst he; exact g2 q hq
        · exact r3 q hq r (List.mem_cons_of_mem _ hr) e he
    · simp only [List.flatMap_append, List.flatMap_cons, List.map_append, List.map_cons, List.map_nil, List.append_assoc]
      refine List.Perm.append_left _ (List.Perm.append_left _ ?_)
      exact List.perm_append_comm

theorem fold_finv {c : CEnv T P A} (hnear : ∀ p, c.near p p = true) {key : A} : ∀ (ts : List T) (fs : List (Trie T P A × List (T × Nat))),
    FInv c key fs → (∀ t ∈ ts, c.stops t ≠ [] ∧ Clear c t) →
    ∃ fs', ts.foldlM (clusterTrip c key) (fs.map (·.1)) = some (fs'.map (·.1)) ∧ FInv c key fs' ∧
      ((fs'.flatMap (·.2)).map (·.1)).Perm ((fs.flatMap (·.2)).map (·.1) ++ ts) := by
  intro ts
  induction ts with
  | nil => intro fs h _; exact ⟨fs, rfl, h, by simp⟩
  | cons t ts ih =>
    intro fs h ht
    obtain ⟨a, b⟩ := ht t (List.mem_cons_self ..)
    obtain ⟨fs1, h1, h2, h3⟩ := cluster_finv hnear h t a b
    obtain ⟨fs2, g1, g2, g3⟩ := ih fs1 h2 fun x hx => ht x (List.mem_cons_of_mem _ hx)
    refine ⟨fs2, by simp only [List.foldlM_cons, h1, Option.bind_eq_bind, Option.bind_some]; exact g1, g2, ?_⟩
    refine g3.trans ?_
    rw [show ((fs.flatMap (·.2)).map (·.1) ++ t :: ts) = ((fs.flatMap (·.2)).map (·.1) ++ [t]) ++ ts by simp]
    exact h3.append_right ts

omit [DecidableEq T] in
theorem walkTo_cons_some {env : Env T P A} {tx start} {nds : List (Nd P A)} {e : Ev P} {es cur c} (h : walkTo env tx start nds (e :: es) cur = some c) :
    ∃ k, getMatchChild env tx e.st (e.time start) nds cur = some (k + 1) := by
  simp only [walkTo] at h
  split at h
  · rename_i k hk; exact ⟨k, hk⟩
  · cases h

omit [DecidableEq T] in
theorem walkTo_ne_zero {env : Env T P A} {tx start} {nds : List (Nd P A)} : ∀ (es : List (Ev P)) (cur c : Nat), es ≠ [] →
    walkTo env tx start nds es cur = some c → c ≠ 0 := by
  intro es
  induction es with
  | nil => intro _ _ h; exact absurd rfl h
  | cons e es ih =>
    intro cur c _ h
    simp only [walkTo] at h
    split at h
    · rename_i k hk
      cases es with
      | nil => simp only [walkTo, Option.some.injEq] at h; omega
      | cons e' es => exact ih (k + 1) c (by simp) h
    · cases h

/-- A trie that leads a trip somewhere does not reject it. -/
theorem accepts {c : CEnv T P A} (hnear : ∀ p, c.near p p = true) {key : A} {tr : Trie T P A} {l} (h : TInv c key tr l) {t : T}
    (hs : c.stops t ≠ []) (h2 : c.noTrie = true → 2 ≤ (c.stops t).length) {nid} (hl : leads c key tr t = some nid)
    (hf : c.noTrie = true → ∃ m, tr.nds[nid]? = some m ∧ m.childs = []) : ¬ Rejects c key tr t := by
  cases hd : c.noTrie with
  | true =>
    obtain ⟨m, hm, hc⟩ := hf hd
    refine accepts_degen hd hs ?_ hl hm hc
    refine walkTo_ne_zero _ _ _ ?_ hl
    have := h2 hd
    rw [← List.length_pos_iff, spell_length]
    omega
  | false =>
    obtain ⟨log, I, _⟩ := h.inv
    cases hst : c.stops t with
    | nil => exact absurd hst hs
    | cons s rest =>
      rw [rejects_normal hnear I hd hst]
      rintro ⟨h1, h3, _⟩
      cases rest with
      | nil => exact h1 rfl
      | cons s' rest =>
        unfold leads at hl
        rw [start_eq c.toEnv (callOf c key t) hd] at hl
        simp only [callOf, hst, spell] at hl
        obtain ⟨k, hk⟩ := walkTo_cons_some hl
        rw [time_dep, h3] at hk
        cases hk

/-- In a forest, two trips that look the same are filed under the same node of the same trie. -/
theorem FInv.share {c : CEnv T P A} (hnear : ∀ p, c.near p p = true) {key : A} {fs : List (Trie T P A × List (T × Nat))} (h : FInv c key fs)
    {t t' : T} (h2 : c.noTrie = true → 2 ≤ (c.stops t').length) (h2' : c.noTrie = true → 2 ≤ (c.stops t).length)
    (ha : Alike c.toEnv (callOf c key t) (callOf c key t'))
    {p q : Trie T P A × List (T × Nat)} {n n' : Nat} (hp : p ∈ fs) (hq : q ∈ fs) (hn : (t, n) ∈ p.2) (hn' : (t', n') ∈ q.2) : p = q ∧ n = n' := by
  have hw : ∀ tr, leads c key tr t = leads c key tr t' := fun tr => ha.walk tr.nds
  have key1 : ∀ (i j : Nat) (hi : i < fs.length) (hj : j < fs.length) (u u' : T) (m m' : Nat), i < j →
      (u, m) ∈ fs[i].2 → (u', m') ∈ fs[j].2 → (c.noTrie = true → 2 ≤ (c.stops u').length) → (∀ tr, leads c key tr u = leads c key tr u') → False := by
    intro i j hi hj u u' m m' hij hm hm' hl hw
    have r := List.pairwise_iff_getElem.1 h.rej i j hi hj hij _ hm'
    have I := h.each _ (List.getElem_mem hi)
    have J := h.each _ (List.getElem_mem hj)
    refine accepts hnear I (J.stops _ hm') hl (nid := m) ?_ (fun hd => I.leaf hd _ hm) r
    rw [← hw]; exact I.lead _ hm
  obtain ⟨i, hi, rfl⟩ := List.getElem_of_mem hp
  obtain ⟨j, hj, rfl⟩ := List.getElem_of_mem hq
  have hij : i = j := by
    rcases Nat.lt_trichotomy i j with hlt | he | hlt
    · exact (key1 i j hi hj t t' n n' hlt hn hn' h2 hw).elim
    · exact he
    · exact (key1 j i hj hi t' t n' n hlt hn' hn h2' (fun tr => (hw tr).symm)).elim
  subst hij
  refine ⟨rfl, ?_⟩
  have I := h.each _ (List.getElem_mem hi)
  have e1 := I.lead _ hn
  have e2 := I.lead _ hn'
  rw [hw] at e1
  exact Option.some.inj (e1.symm.trans e2)

theorem TInv.mem_iff {c : CEnv T P A} {key : A} {tr : Trie T P A} {l} (h : TInv c key tr l) (t : T) (j : Nat) :
    t ∈ tr.ndTrips j ↔ (t, j) ∈ l := by
  obtain ⟨log, I, rfl⟩ := h.inv
  rw [I.ndTrips]
  simp only [List.mem_map, List.mem_filter, decide_eq_true_eq, Prod.mk.injEq]
  constructor
  · rintro ⟨p, ⟨h1, h2⟩, h3⟩; exact ⟨p, h1, h3, h2⟩
  · rintro ⟨p, h1, h3, h2⟩; exact ⟨p, ⟨h1, h2⟩, h3⟩

/-- The first departure of a trip is given. -/
def HasStart (c : CEnv T P A) (t : T) : Prop := ∃ s, (c.stops t).head? = some s ∧ s.dep ≠ none

/-- **C12 (sharing).** After clustering with any schedule, two trips of the same group with the same stops (and, if times are compared, the same
relative times) are filed under the same node of the same trie: whatever node has the one has the other, whichever trips were inserted in between.
Without the trie and with times compared, this needs departure times at the first stop. -/
theorem C12_alike_share (c : CEnv T P A) (hnear : ∀ p, c.near p p = true) (feed : List T) (n : Nat) (hn : 0 < n)
    (hstart : c.noTrie = true → c.timeEx = true → ∀ t ∈ feed, HasStart c t) :
    ∃ s, cinit c n feed = some s ∧ ∀ sched, Complete s sched →
      ∃ s', crun c (groupTrips c feed) sched s = some s' ∧
        ∀ (g : Nat) key ts f, (groupTrips c feed)[g]? = some (key, ts) → s'.forests[g]? = some f →
          ∀ t ∈ ts, ∀ t' ∈ ts, Alike c.toEnv ⟨t, key, c.timeEx, c.noTrie⟩ ⟨t', key, c.timeEx, c.noTrie⟩ →
            (∃ tr ∈ f, ∃ j, t ∈ tr.ndTrips j ∧ t' ∈ tr.ndTrips j) ∧ ∀ tr ∈ f, ∀ j, t ∈ tr.ndTrips j → t' ∈ tr.ndTrips j := by
  obtain ⟨s, h1, h2⟩ := C12_schedule_independent c hnear feed n hn
  refine ⟨s, h1, fun sched hc => ?_⟩
  obtain ⟨s', g1, g2⟩ := h2 sched hc
  refine ⟨s', g1, ?_⟩
  intro g key ts f hg hf t ht t' ht' ha
  have hmem : ∀ u ∈ ts, u ∈ feed ∧ 2 ≤ (c.stops u).length := by
    intro u hu
    have hu : u ∈ (groupTrips c feed).flatMap (·.2) := List.mem_flatMap.2 ⟨_, List.mem_of_getElem? hg, hu⟩
    have := List.mem_filter.1 ((groups_perm c feed).mem_iff.1 hu)
    exact ⟨this.1, (of_decide_eq_true this.2).2.1⟩
  have hne : ∀ u ∈ ts, c.stops u ≠ [] ∧ Clear c u := by
    intro u hu
    obtain ⟨m1, m2⟩ := hmem u hu
    refine ⟨by intro e; rw [e] at m2; simp at m2, fun hd htx => hstart hd htx u m1⟩
  obtain ⟨fs, e1, F, e2⟩ := fold_finv hnear (key := key) ts [] ⟨by simp, List.Pairwise.nil⟩ hne
  rw [g2 g key ts hg] at hf
  rw [show ([] : List (Trie T P A × List (T × Nat))).map (·.1) = [] from rfl, hf] at e1
  cases e1
  simp only [List.flatMap_nil, List.map_nil, List.nil_append] at e2
  have find : ∀ u ∈ ts, ∃ p ∈ fs, ∃ m, (u, m) ∈ p.2 := by
    intro u hu
    obtain ⟨⟨u', m⟩, hx, rfl⟩ := List.mem_map.1 (e2.mem_iff.2 hu)
    obtain ⟨p, hp, hx⟩ := List.mem_flatMap.1 hx
    exact ⟨p, hp, m, hx⟩
  obtain ⟨q, hq, m', hm'⟩ := find t' ht'
  have one : ∀ p ∈ fs, ∀ m, (t, m) ∈ p.2 → p = q ∧ m = m' := fun p hp m hm =>
    F.share hnear (fun _ => (hmem t' ht').2) (fun _ => (hmem t ht).2) ha hp hq hm hm'
  refine ⟨?_, ?_⟩
  · obtain ⟨p, hp, m, hm⟩ := find t ht
    obtain ⟨rfl, rfl⟩ := one p hp m hm
    exact ⟨p.1, List.mem_map.2 ⟨p, hp, rfl⟩, m, ((F.each p hp).mem_iff t m).2 hm, ((F.each p hp).mem_iff t' m).2 hm'⟩
  · intro tr htr j hj
    obtain ⟨p, hp, rfl⟩ := List.mem_map.1 htr
    rw [(F.each p hp).mem_iff] at hj
    obtain ⟨rfl, rfl⟩ := one p hp j hj
    exact ((F.each p hp).mem_iff t' j).2 hm'

/-! ### non-vacuity -/

/-- Trips 0, 3 and 4 have the stops A B C, trip 1 goes A B D, trip 2 has B C and starts a trie of its own. -/
def exShare : CEnv Nat Nat (Nat × List Nat) := { exC with rAttrs := fun t => (1, [t]), shapeEmpty := fun _ => true }

example : groupTrips exShare [0, 1, 2, 3] = [((1, [0]), [0, 1, 2, 3])] := by decide +kernel
example : ((cinit exShare 2 [0, 2, 1, 3]).bind (crun exShare (groupTrips exShare [0, 2, 1, 3]) [0, 0, 1, 0, 0, 1])).map
    (fun s => (s.forests.map fun f => f.map fun tr => (List.range 6).map tr.ndTrips, s.pend)) =
    some ([[[[], [], [], [], [0, 3], [1]], [[], [], [2], [], [], []]]], [[], []]) := by decide +kernel
example : Alike exShare.toEnv ⟨0, (1, [0]), false, false⟩ ⟨3, (1, [0]), false, false⟩ := ⟨by decide, rfl, by decide⟩
example : ¬ Alike exShare.toEnv ⟨0, (1, [0]), false, false⟩ ⟨1, (1, [0]), false, false⟩ := fun h => absurd h.1 (by decide)
example : HasStart exShare 0 := ⟨_, rfl, by decide⟩

end Verif.Trie
