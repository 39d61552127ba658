import Verif.Trie.ClusterProps

/-!
# Trips that look the same share a node (properties C09, C12)

A trip follows at each node the first matching child. Children are only ever appended, so the node a stop sequence leads to never changes,
and a later trip with the same stops is filed there too.
-/

namespace Verif.Trie
variable {T P A : Type}

/-! ### specification -/

/-- What the trie compares of a stop. -/
def StopTime.look (s : StopTime P) : String × String × P := (s.name, s.platform, s.pos)

/-- Two calls ask for the same: the same names, platforms and positions, and, if times are compared, the same relative times. -/
def Alike (env : Env T P A) (o o' : Op T A) : Prop :=
  (env.stops o.t).map StopTime.look = (env.stops o'.t).map StopTime.look ∧ o.timeEx = o'.timeEx ∧
    (o.timeEx = true → (spell (env.stops o.t)).map (Ev.time (o.start env)) = (spell (env.stops o'.t)).map (Ev.time (o'.start env)))

/-! ### the node a list of events leads to -/

def walkTo (env : Env T P A) (tx : Bool) (start : Int) (nds : List (Nd P A)) : List (Ev P) → Nat → Option Nat
  | [], cur => some cur
  | e :: es, cur =>
    match getMatchChild env tx e.st (e.time start) nds cur with
    | some (c + 1) => walkTo env tx start nds es (c + 1)
    | _ => none

theorem walkTo_cons {env : Env T P A} {tx start} {nds : List (Nd P A)} {e : Ev P} {es cur c} (h0 : c ≠ 0)
    (h : getMatchChild env tx e.st (e.time start) nds cur = some c) :
    walkTo env tx start nds (e :: es) cur = walkTo env tx start nds es c := by
  cases c with
  | zero => exact absurd rfl h0
  | succ c => simp only [walkTo, h]

/-- Nodes keep their data, children are appended. -/
def SExt (nds nds' : List (Nd P A)) : Prop :=
  ∀ (i : Nat) n, nds[i]? = some n → ∃ n', nds'[i]? = some n' ∧ Same n n' ∧ ∃ more : List Nat, n'.childs = n.childs ++ more

/-- The root keeps its children. -/
def RootFix (nds nds' : List (Nd P A)) : Prop :=
  ∀ r, nds[0]? = some r → ∃ r', nds'[0]? = some r' ∧ r'.childs = r.childs

theorem SExt.refl (nds : List (Nd P A)) : SExt nds nds := fun _ n h => ⟨n, h, Same.refl n, [], by simp⟩

theorem SExt.trans {a b c : List (Nd P A)} (h : SExt a b) (g : SExt b c) : SExt a c := by
  intro i n hn
  obtain ⟨n', h1, h2, m1, h3⟩ := h i n hn
  obtain ⟨n'', g1, g2, m2, g3⟩ := g i n' h1
  exact ⟨n'', g1, h2.trans g2, m1 ++ m2, by rw [g3, h3, List.append_assoc]⟩

theorem RootFix.refl (nds : List (Nd P A)) : RootFix nds nds := fun r h => ⟨r, h, rfl⟩

theorem RootFix.trans {a b c : List (Nd P A)} (h : RootFix a b) (g : RootFix b c) : RootFix a c := by
  intro r hr
  obtain ⟨r', h1, h2⟩ := h r hr
  obtain ⟨r'', g1, g2⟩ := g r' h1
  exact ⟨r'', g1, g2.trans h2⟩

theorem matchNd_same {env : Env T P A} {tx st time} {n n' : Nd P A} (h : Same n n') :
    matchNd env tx st time n' = matchNd env tx st time n := by
  obtain ⟨h1, h2, h3, h4, _⟩ := h
  simp only [matchNd, h1, h2, h3, h4]

theorem firstMatch_stable {env : Env T P A} {tx st time} {nds nds' : List (Nd P A)} (h : SExt nds nds') (more : List Nat) {c} (h0 : c ≠ 0) :
    ∀ (cs : List Nat), firstMatch env tx st time nds cs = some c → firstMatch env tx st time nds' (cs ++ more) = some c := by
  intro cs
  induction cs with
  | nil => intro e; simp only [firstMatch, Option.some.injEq] at e; exact absurd e.symm h0
  | cons k cs ih =>
    intro e
    simp only [firstMatch] at e
    split at e
    · cases e
    · rename_i n hn
      obtain ⟨n', hn', hs, _⟩ := h k n hn
      simp only [List.cons_append, firstMatch, hn', matchNd_same hs]
      split at e
      · rename_i hm; rw [if_pos hm]; exact e
      · rename_i hm; rw [if_neg hm]; exact ih e

theorem getMatchChild_stable {env : Env T P A} {tx st time} {nds nds' : List (Nd P A)} (h : SExt nds nds') {cur c} (h0 : c ≠ 0)
    (e : getMatchChild env tx st time nds cur = some c) : getMatchChild env tx st time nds' cur = some c := by
  simp only [getMatchChild] at e
  split at e
  · cases e
  · rename_i p hp
    obtain ⟨p', hp', _, more, hc⟩ := h cur p hp
    simp only [getMatchChild, hp', hc]
    exact firstMatch_stable h more h0 _ e

theorem firstMatch_congr {env : Env T P A} {tx st time} {nds nds' : List (Nd P A)} (h : SExt nds nds') {cs : List Nat}
    (hc : ∀ c ∈ cs, c < nds.length) : firstMatch env tx st time nds' cs = firstMatch env tx st time nds cs := by
  induction cs with
  | nil => rfl
  | cons k cs ih =>
    obtain ⟨n, hn⟩ := get_of_lt (hc k (List.mem_cons_self ..))
    obtain ⟨n', hn', hs, _⟩ := h k n hn
    simp only [firstMatch, hn, hn', matchNd_same hs]
    rw [ih fun c hc' => hc c (List.mem_cons_of_mem _ hc')]

/-- No child of the root matches, and it stays like this as long as the root keeps its children. -/
theorem rootless_stable {env : Env T P A} {tx st time} {nds nds' : List (Nd P A)} (w : WF nds) (h : SExt nds nds') (hr : RootFix nds nds')
    (e : getMatchChild env tx st time nds 0 = some 0) : getMatchChild env tx st time nds' 0 = some 0 := by
  simp only [getMatchChild] at e
  split at e
  · cases e
  · rename_i r hr0
    obtain ⟨r', hr', hc⟩ := hr r hr0
    simp only [getMatchChild, hr', hc]
    rw [firstMatch_congr h fun c hc => ?_]
    · exact e
    · obtain ⟨_, m, hm, _⟩ := w.chi 0 r c hr0 hc
      exact lt_of_get hm

theorem walkTo_stable {env : Env T P A} {tx start} {nds nds' : List (Nd P A)} (h : SExt nds nds') :
    ∀ (es : List (Ev P)) (cur c : Nat), walkTo env tx start nds es cur = some c → walkTo env tx start nds' es cur = some c := by
  intro es
  induction es with
  | nil => intro cur c e; exact e
  | cons e es ih =>
    intro cur c h1
    simp only [walkTo] at h1
    split at h1
    · rename_i k hk
      rw [walkTo_cons (Nat.succ_ne_zero k) (getMatchChild_stable h (Nat.succ_ne_zero k) hk)]
      exact ih _ _ h1
    · cases h1

/-! ### one step -/

theorem firstMatch_none {env : Env T P A} {tx st time} {nds : List (Nd P A)} (more : List Nat) :
    ∀ (cs : List Nat), (∀ c ∈ cs, c ≠ 0) → firstMatch env tx st time nds cs = some 0 →
      firstMatch env tx st time nds (cs ++ more) = firstMatch env tx st time nds more := by
  intro cs
  induction cs with
  | nil => intro _ _; rfl
  | cons k cs ih =>
    intro h0 e
    simp only [firstMatch] at e
    simp only [List.cons_append, firstMatch]
    split at e
    · cases e
    · rename_i n hn
      split at e
      · exact absurd (Option.some.inj e) (h0 k (List.mem_cons_self ..))
      · rename_i hm
        simp only [if_neg hm]
        exact ih (fun c hc => h0 c (List.mem_cons_of_mem _ hc)) e

theorem visit_canon (env : Env T P A) (hnear : ∀ p, env.near p p = true) {tx a rej st time arr} {nds : List (Nd P A)} (w : WF nds) {cur}
    {nds' c} (h : visit env tx a rej st time arr nds cur = some (true, nds', c)) :
    SExt nds nds' ∧ getMatchChild env tx st time nds' cur = some c ∧ c ≠ 0 ∧ (cur ≠ 0 ∨ rej = true → RootFix nds nds') := by
  unfold visit at h
  split at h
  · cases h
  · rename_i hg
    split at h
    · cases h
    · rename_i hrej
      split at h
      · cases h
      · rename_i nds1 c1 hi
        cases h
        unfold insert at hi
        simp only at hi
        split at hi
        · cases hi
        · rename_i p hp
          cases hi
          simp only [List.length_append, List.length_cons, List.length_nil, Nat.zero_add, Nat.add_sub_cancel]
          generalize hnd : (⟨st.name, st.platform, st.pos, time, arr, time, 1, cur, [], a⟩ : Nd P A) = nd at *
          have hcur : cur < nds.length := by
            simp only [getMatchChild] at hg
            split at hg
            · cases hg
            · rename_i q hq; exact lt_of_get hq
          have hp0 : nds[cur]? = some p := by rw [List.getElem?_append_left hcur] at hp; exact hp
          generalize hq : ({ p with childs := p.childs ++ [nds.length] } : Nd P A) = q
          have gcur : ((nds ++ [nd]).set cur q)[cur]? = some q := List.getElem?_set_self (by simp; omega)
          have gold : ∀ i, i ≠ cur → i < nds.length → ((nds ++ [nd]).set cur q)[i]? = nds[i]? := by
            intro i h hi
            rw [List.getElem?_set_ne (by omega), List.getElem?_append_left hi]
          have gnew : ((nds ++ [nd]).set cur q)[nds.length]? = some nd := by
            rw [List.getElem?_set_ne (by omega)]; simp
          have hs : SExt nds ((nds ++ [nd]).set cur q) := by
            intro i n hn
            by_cases e : i = cur
            · subst e
              rw [hp0] at hn; cases hn
              exact ⟨q, gcur, by subst hq; exact Same.refl _, [nds.length], by subst hq; rfl⟩
            · exact ⟨n, by rw [gold i e (lt_of_get hn)]; exact hn, Same.refl n, [], by simp⟩
          have w0 := w.pos
          refine ⟨hs, ?_, by omega, ?_⟩
          · simp only [getMatchChild, hp0] at hg
            simp only [getMatchChild, gcur]
            have qc : q.childs = p.childs ++ [nds.length] := by subst hq; rfl
            rw [qc, firstMatch_none]
            · simp only [firstMatch, gnew]
              rw [if_pos]
              rw [matchNd_iff]
              subst hnd
              exact ⟨rfl, rfl, hnear _, fun _ => rfl⟩
            · intro k hk
              have := (w.chi cur p k hp0 hk).1
              omega
            · rw [firstMatch_congr hs fun k hk => ?_]
              · exact hg
              · obtain ⟨_, m, hm, _⟩ := w.chi cur p k hp0 hk
                exact lt_of_get hm
          · rintro (h | h)
            · intro r hr
              exact ⟨r, by rw [gold 0 (Ne.symm h) w0]; exact hr, rfl⟩
            · exact absurd h hrej
  · rename_i k hg
    split at h
    · cases h
    · rename_i nds1 hb
      cases h
      unfold bump at hb
      split at hb
      · cases hb
      · rename_i n hn
        cases hb
        have hlt := lt_of_get hn
        have hs : SExt nds (nds.set (k + 1) (n.bump env a time)) := by
          intro i m hm
          by_cases e : i = k + 1
          · subst e; rw [hn] at hm; cases hm
            exact ⟨n.bump env a time, List.getElem?_set_self hlt, Same.refl _, [], by simp [Nd.bump]⟩
          · exact ⟨m, by rw [List.getElem?_set_ne (by omega)]; exact hm, Same.refl m, [], by simp⟩
        refine ⟨hs, getMatchChild_stable hs (Nat.succ_ne_zero k) hg, Nat.succ_ne_zero k, fun _ => ?_⟩
        intro r hr
        exact ⟨r, by rw [List.getElem?_set_ne (by omega)]; exact hr, rfl⟩

theorem visit_false {env : Env T P A} {tx a rej st time arr} {nds nds' : List (Nd P A)} {cur c}
    (h : visit env tx a rej st time arr nds cur = some (false, nds', c)) : getMatchChild env tx st time nds cur = some 0 ∧ rej = true := by
  unfold visit at h
  split at h
  · cases h
  · rename_i hg
    split at h
    · rename_i hr; exact ⟨hg, hr⟩
    · split at h <;> cases h
  · split at h <;> cases h

/-! ### adding a trip -/

theorem addLoop_next_canon (env : Env T P A) (hnear : ∀ p, env.near p p = true) {tx a start filed} :
    ∀ (rest : List (StopTime P)) (s : StopTime P) (nds : List (Nd P A)) (cur : Nat) (nds' : List (Nd P A)) (c : Nat),
      WF nds → cur < nds.length → nextArr nds cur = true → cur ≠ 0 →
      addLoop env tx a start filed false (s :: rest) nds cur = some (true, nds', c) →
      SExt nds nds' ∧ RootFix nds nds' ∧ walkTo env tx start nds' (⟨s, true⟩ :: spell (s :: rest)) cur = some c := by
  intro rest
  induction rest with
  | nil =>
    intro s nds cur nds' c w hc ha h0 h
    rcases visit_spec env hnear tx a false s (relTime start s.arr) true w hc ha.symm with ⟨_, h1⟩ | ⟨n1, c1, h1, v⟩
    · cases h1
    · simp only [addLoop, h1, Bool.false_eq_true, if_false, List.isEmpty_nil, if_true] at h
      cases h
      obtain ⟨a1, a2, a3, a4⟩ := visit_canon env hnear w h1
      refine ⟨a1, a4 (.inl h0), ?_⟩
      rw [walkTo_cons a3 (by rw [time_arr]; exact a2)]; rfl
  | cons s' rest ih =>
    intro s nds cur nds' c w hc ha h0 h
    rcases visit_spec env hnear tx a false s (relTime start s.arr) true w hc ha.symm with ⟨_, h1⟩ | ⟨n1, c1, h1, v⟩
    · cases h1
    · rcases visit_spec env hnear tx a false s (relTime start s.dep) false v.wf v.lt (by rw [v.next]; rfl) with ⟨_, h2⟩ | ⟨n2, c2, h2, v'⟩
      · cases h2
      · rw [addLoop] at h
        simp only [h1, Bool.false_eq_true, if_false, List.isEmpty_cons, Bool.false_and, h2] at h
        obtain ⟨a1, a2, a3, a4⟩ := visit_canon env hnear w h1
        obtain ⟨b1, b2, b3, b4⟩ := visit_canon env hnear v.wf h2
        obtain ⟨d1, d2, d3⟩ := ih s' n2 c2 nds' c v'.wf v'.lt (by rw [v'.next]; rfl) b3 h
        refine ⟨a1.trans (b1.trans d1), (a4 (.inl h0)).trans ((b4 (.inl a3)).trans d2), ?_⟩
        rw [walkTo_cons a3 (by rw [time_arr]; exact getMatchChild_stable (b1.trans d1) a3 a2)]
        simp only [spell]
        rw [walkTo_cons b3 (by rw [time_dep]; exact getMatchChild_stable d1 b3 b2)]
        exact d3

theorem addLoop_first_canon (env : Env T P A) (hnear : ∀ p, env.near p p = true) {tx a start filed} (s : StopTime P)
    (rest : List (StopTime P)) {nds : List (Nd P A)} (w : WF nds) {nds' c}
    (h : addLoop env tx a start filed true (s :: rest) nds 0 = some (true, nds', c)) :
    SExt nds nds' ∧ (filed = true → RootFix nds nds') ∧ walkTo env tx start nds' (spell (s :: rest)) 0 = some c := by
  cases rest with
  | nil =>
    simp only [addLoop, if_true, List.isEmpty_nil, Option.some.injEq, Prod.mk.injEq, true_and] at h
    obtain ⟨rfl, rfl⟩ := h
    exact ⟨SExt.refl _, fun _ => RootFix.refl _, rfl⟩
  | cons s' rest =>
    rcases visit_spec env hnear tx a filed s (relTime start s.dep) false w w.pos (by simp [nextArr]) with ⟨h1, hf⟩ | ⟨n1, c1, h1, v⟩
    · rw [addLoop] at h
      simp only [if_true, List.isEmpty_cons, Bool.false_eq_true, if_false, Bool.true_and, h1] at h
      cases h
    · rw [addLoop] at h
      simp only [if_true, List.isEmpty_cons, Bool.false_eq_true, if_false, Bool.true_and, h1] at h
      obtain ⟨a1, a2, a3, a4⟩ := visit_canon env hnear w h1
      obtain ⟨d1, d2, d3⟩ := addLoop_next_canon env hnear rest s' n1 c1 nds' c v.wf v.lt (by rw [v.next]; rfl) a3 h
      refine ⟨a1.trans d1, fun hf => (a4 (.inr hf)).trans d2, ?_⟩
      simp only [spell]
      rw [walkTo_cons a3 (by rw [time_dep]; exact getMatchChild_stable d1 a3 a2)]
      exact d3

/-- A trip is only rejected if it has two stops and no child of the root matches the first one. -/
theorem addLoop_first_false (env : Env T P A) (hnear : ∀ p, env.near p p = true) {tx a start filed} (s : StopTime P)
    (rest : List (StopTime P)) {nds : List (Nd P A)} (w : WF nds) {nds' c}
    (h : addLoop env tx a start filed true (s :: rest) nds 0 = some (false, nds', c)) :
    rest ≠ [] ∧ getMatchChild env tx s (relTime start s.dep) nds 0 = some 0 ∧ filed = true := by
  cases rest with
  | nil => simp [addLoop] at h
  | cons s' rest =>
    refine ⟨by simp, ?_⟩
    rcases visit_spec env hnear tx a filed s (relTime start s.dep) false w w.pos (by simp [nextArr]) with ⟨h1, hf⟩ | ⟨n1, c1, h1, v⟩
    · exact visit_false h1
    · obtain ⟨n3, c3, g, _⟩ := addLoop_next env hnear tx a start filed rest s' n1 c1 v.wf v.lt (by rw [v.next]; rfl)
      rw [addLoop] at h
      simp only [if_true, List.isEmpty_cons, Bool.false_eq_true, if_false, Bool.true_and, h1, g] at h
      cases h

theorem getLoop_next_walk (env : Env T P A) {tx start} {nds : List (Nd P A)} : ∀ (rest : List (StopTime P)) (s : StopTime P) (cur c : Nat),
    c ≠ 0 → getLoop env tx start nds false (s :: rest) cur = some c →
    walkTo env tx start nds (⟨s, true⟩ :: spell (s :: rest)) cur = some c := by
  intro rest
  induction rest with
  | nil =>
    intro s cur c h0 h
    simp only [getLoop, Bool.false_eq_true, if_false, List.isEmpty_nil, if_true] at h
    cases hg : getMatchChild env tx s (relTime start s.arr) nds cur with
    | none => simp [hg] at h
    | some k =>
      cases k with
      | zero => simp [hg] at h; exact absurd h.symm h0
      | succ k =>
        simp [hg] at h
        rw [walkTo_cons (Nat.succ_ne_zero k) (by rw [time_arr]; exact hg)]
        simp [spell, walkTo, h]
  | cons s' rest ih =>
    intro s cur c h0 h
    rw [getLoop] at h
    simp only [Bool.false_eq_true, if_false, List.isEmpty_cons] at h
    cases hg : getMatchChild env tx s (relTime start s.arr) nds cur with
    | none => simp [hg] at h
    | some k =>
      cases k with
      | zero => simp [hg] at h; exact absurd h.symm h0
      | succ k =>
        simp only [hg, Option.map_some] at h
        cases hg2 : getMatchChild env tx s (relTime start s.dep) nds (k + 1) with
        | none => simp [hg2] at h
        | some m =>
          cases m with
          | zero => simp [hg2] at h; exact absurd h.symm h0
          | succ m =>
            simp [hg2] at h
            rw [walkTo_cons (Nat.succ_ne_zero k) (by rw [time_arr]; exact hg)]
            simp only [spell]
            rw [walkTo_cons (Nat.succ_ne_zero m) (by rw [time_dep]; exact hg2)]
            exact ih s' _ c h0 h

theorem getLoop_first_walk (env : Env T P A) {tx start} {nds : List (Nd P A)} (s : StopTime P) (rest : List (StopTime P)) (c : Nat) (h0 : c ≠ 0)
    (h : getLoop env tx start nds true (s :: rest) 0 = some c) : walkTo env tx start nds (spell (s :: rest)) 0 = some c := by
  cases rest with
  | nil => simp [getLoop] at h; exact absurd h.symm h0
  | cons s' rest =>
    rw [getLoop] at h
    simp only [if_true, List.isEmpty_cons, Bool.false_eq_true, if_false] at h
    cases hg : getMatchChild env tx s (relTime start s.dep) nds 0 with
    | none => simp [hg] at h
    | some k =>
      cases k with
      | zero => simp [hg] at h; exact absurd h.symm h0
      | succ k =>
        simp [hg] at h
        simp only [spell]
        rw [walkTo_cons (Nat.succ_ne_zero k) (by rw [time_dep]; exact hg)]
        exact getLoop_next_walk env rest s' _ c h0 h

theorem start_eq (env : Env T P A) (op : Op T A) (h : op.degen = false) : op.start env = startAdd (env.stops op.t) := by
  simp only [Op.start, h, startAdd]
  cases hs : env.stops op.t with
  | nil => rfl
  | cons s rest => cases hd : s.dep <;> simp [hd]

theorem start_eq_get (env : Env T P A) (op : Op T A) (h : op.degen = true) : op.start env = startGet env (env.stops op.t) := by
  simp only [Op.start, h, startGet]
  cases hs : env.stops op.t with
  | nil => rfl
  | cons s rest => cases hd : s.dep <;> simp [hd]

variable [DecidableEq T]

/-- The effect of an accepted call. -/
theorem addTrip_canon (env : Env T P A) (hnear : ∀ p, env.near p p = true) {tr : Trie T P A} {log} (I : Inv env tr log) (op : Op T A)
    {tr' : Trie T P A} {nid} (h : tr.addTrip env op.t op.a op.timeEx op.degen = some (true, tr'))
    (hn : tr'.tripNds.lookup op.t = some nid) :
    SExt tr.nds tr'.nds ∧ (tr.tripNds ≠ [] → RootFix tr.nds tr'.nds) ∧
      walkTo env op.timeEx (op.start env) tr'.nds (spell (env.stops op.t)) 0 = some nid := by
  unfold Trie.addTrip at h
  split at h
  · rename_i hd
    split at h
    · cases h
    · rename_i e he
      split at h
      · rename_i h0
        split at h
        · cases h
        · split at h
          · cases h
            rw [show (tr.file op.t e).tripNds = assign tr.tripNds op.t e from rfl, lookup_assign] at hn
            cases hn
            refine ⟨SExt.refl _, fun _ => RootFix.refl _, ?_⟩
            rw [start_eq_get env op hd]
            unfold Trie.get at he
            split at he
            · cases he; exact absurd rfl h0
            · cases hs : env.stops op.t with
              | nil => rename_i hne; rw [hs] at hne; exact absurd rfl hne
              | cons s rest =>
                rw [hs] at he
                exact getLoop_first_walk env s rest nid h0 he
          · cases h
      · cases h
  · rename_i hd
    have hd : op.degen = false := by simpa using hd
    unfold Trie.add at h
    split at h
    · cases h
    · rename_i hne
      split at h
      · cases h
      · cases h
      · rename_i nds' cur' hl
        cases h
        rw [show (Trie.file { tr with nds := nds' } op.t cur').tripNds = assign tr.tripNds op.t cur' from rfl, lookup_assign] at hn
        cases hn
        rw [start_eq env op hd]
        cases hs : env.stops op.t with
        | nil => rw [hs] at hne; exact absurd rfl hne
        | cons s rest =>
          rw [hs] at hl
          obtain ⟨a1, a2, a3⟩ := addLoop_first_canon env hnear s rest I.wf hl
          refine ⟨a1, fun hf => a2 ?_, a3⟩
          rw [decide_eq_true_iff]
          exact List.length_pos_iff.2 hf

/-- Every accepted call is filed where its events lead. -/
def Canon (env : Env T P A) (tr : Trie T P A) (log : List (Op T A × Nat)) : Prop :=
  ∀ p ∈ log, walkTo env p.1.timeEx (p.1.start env) tr.nds (spell (env.stops p.1.t)) 0 = some p.2

theorem Canon.filed {env : Env T P A} (hnear : ∀ p, env.near p p = true) {tr : Trie T P A} {log} (I : Inv env tr log) (C : Canon env tr log)
    {op : Op T A} {tr' : Trie T P A} {nid} (h : tr.addTrip env op.t op.a op.timeEx op.degen = some (true, tr'))
    (hn : tr'.tripNds.lookup op.t = some nid) : Canon env tr' (log ++ [(op, nid)]) := by
  obtain ⟨a1, _, a3⟩ := addTrip_canon env hnear I op h hn
  intro p hp
  rcases List.mem_append.1 hp with hp | hp
  · exact walkTo_stable a1 _ _ _ (C p hp)
  · rw [List.mem_singleton] at hp; subst hp; exact a3

theorem run_canon (env : Env T P A) (hnear : ∀ p, env.near p p = true) :
    ∀ (ops : List (Op T A)) (tr : Trie T P A) (log), Inv env tr log → Canon env tr log → ∀ tr' log',
      run env ops (tr, log) = some (tr', log') → Canon env tr' log' := by
  intro ops
  induction ops with
  | nil => intro tr log _ C tr' log' e; cases e; exact C
  | cons op ops ih =>
    intro tr log I C tr' log' e
    rcases addTrip_spec env hnear I op with ⟨hr, _⟩ | ⟨tr1, nid, hr, F⟩
    · simp only [run, hr] at e
      exact ih tr log I C tr' log' e
    · have hl : tr1.tripNds.lookup op.t = some nid := by rw [F.tripNds]; exact lookup_assign _ _ _
      simp only [run, hr, hl] at e
      exact ih tr1 _ F.inv (C.filed hnear I hr hl) tr' log' e

/-! ### alike calls -/

/-- Every element but the first and the last twice. -/
def dup {α : Type} : List α → List α
  | a :: b :: rest => a :: b :: dup (b :: rest)
  | _ => []

omit [DecidableEq T] in
theorem spell_look : ∀ (l : List (StopTime P)), (spell l).map (fun e => e.st.look) = dup (l.map StopTime.look)
  | [] => rfl
  | [_] => rfl
  | s :: s' :: rest => by
    have := spell_look (s' :: rest)
    simp only [spell, List.map_cons, dup] at this ⊢
    rw [this]

omit [DecidableEq T] in
theorem getMatchChild_look {env : Env T P A} {tx} {s s' : StopTime P} {t t' : Int} (h : s.look = s'.look) (ht : tx = true → t = t')
    (nds : List (Nd P A)) (cur : Nat) : getMatchChild env tx s t nds cur = getMatchChild env tx s' t' nds cur := by
  have hm : ∀ n : Nd P A, matchNd env tx s t n = matchNd env tx s' t' n := by
    intro n
    simp only [StopTime.look, Prod.mk.injEq] at h
    obtain ⟨h1, h2, h3⟩ := h
    cases tx with
    | false => simp [matchNd, h1, h2, h3]
    | true => simp [matchNd, h1, h2, h3, ht rfl]
  have hf : ∀ cs : List Nat, firstMatch env tx s t nds cs = firstMatch env tx s' t' nds cs := by
    intro cs
    induction cs with
    | nil => rfl
    | cons c cs ih => simp only [firstMatch, hm, ih]
  simp only [getMatchChild, hf]

omit [DecidableEq T] in
theorem walkTo_look {env : Env T P A} {tx} {st st' : Int} {nds : List (Nd P A)} : ∀ (es es' : List (Ev P)) (cur : Nat),
    es.map (fun e => e.st.look) = es'.map (fun e => e.st.look) → (tx = true → es.map (Ev.time st) = es'.map (Ev.time st')) →
    walkTo env tx st nds es cur = walkTo env tx st' nds es' cur := by
  intro es
  induction es with
  | nil =>
    intro es' cur h _
    cases es' with
    | nil => rfl
    | cons e es' => simp at h
  | cons e es ih =>
    intro es' cur h ht
    cases es' with
    | nil => simp at h
    | cons e' es' =>
      simp only [List.map_cons, List.cons.injEq] at h ht
      simp only [walkTo]
      rw [getMatchChild_look h.1 (fun hx => (ht hx).1) nds cur]
      split
      · exact ih es' _ h.2 fun hx => (ht hx).2
      · rfl

omit [DecidableEq T] in
theorem Alike.walk {env : Env T P A} {o o' : Op T A} (h : Alike env o o') (nds : List (Nd P A)) :
    walkTo env o.timeEx (o.start env) nds (spell (env.stops o.t)) 0 = walkTo env o'.timeEx (o'.start env) nds (spell (env.stops o'.t)) 0 := by
  obtain ⟨h1, h2, h3⟩ := h
  rw [← h2]
  exact walkTo_look _ _ 0 (by rw [spell_look, spell_look, h1]) h3

/-- **C09 (sharing).** After every history, two accepted calls for trips with the same stops (and, if times are compared, the same relative times)
are filed under the same node, whatever was added in between, in normal and in degenerate mode. -/
theorem C09_alike_share (env : Env T P A) (hnear : ∀ p, env.near p p = true) (ops : List (Op T A)) :
    ∃ tr log, run env ops (Trie.empty env, []) = some (tr, log) ∧
      ∀ p ∈ log, ∀ q ∈ log, Alike env p.1 q.1 → p.2 = q.2 := by
  obtain ⟨tr, log, h, _⟩ := run_spec env hnear ops (Trie.empty env) [] (Inv.empty env)
  refine ⟨tr, log, h, ?_⟩
  have C := run_canon env hnear ops (Trie.empty env) [] (Inv.empty env) (by simp [Canon]) tr log h
  intro p hp q hq a
  have h1 := C p hp
  rw [a.walk, C q hq] at h1
  exact (Option.some.inj h1).symm

/-! ### non-vacuity: trips 0 and 3 share a node, although trip 1 was added in between and trip 3 came in degenerate mode -/

example : (run exEnv exOps (Trie.empty exEnv, [])).map (fun r => r.2.map fun p => (p.1.t, p.2)) = some [(0, 4), (1, 5), (3, 4)] := by decide +kernel
example : Alike exEnv ⟨0, [0], false, false⟩ ⟨3, [3], false, true⟩ := ⟨by decide, rfl, by decide⟩

end Verif.Trie
