import Verif.Snap.Lemmas

/-!
# Placing stations on tracks (properties)

C73.
-/

set_option linter.unusedSectionVars false

namespace Verif.Snap
open Verif.Collapse Verif.Payload Verif.Restrictor

variable {P S W D : Type} [DecidableEq W]

/-! ### the graph -/

theorem inv_pl {st : St P S W} {pl : NState Nat S} (h : Inv st) : Inv { st with pl := pl } := ⟨h.uniq, h.lt, h.loop, h.old⟩

/-- What one candidate does to the graph. -/
theorem snapEdge_later (v : Env P S W D) (o : Nat) (d : D) (c : St P S W × P) (hI : Inv c.1) (e : Edg Nat P) (he : e ∈ c.1.es) :
    (∃ cur, Later c.1 (snapEdge v o d c e).1 cur) ∧ Inv (snapEdge v o d c e).1 ∧ ∀ x ∈ c.1.es, x ≠ e → x ∈ (snapEdge v o d c e).1.es := by
  have hpl : ∀ pl : NState Nat S, (∃ cur, Later c.1 { c.1 with pl := pl } cur) ∧ Inv { c.1 with pl := pl } ∧
      ∀ x ∈ c.1.es, x ≠ e → x ∈ ({ c.1 with pl := pl } : St P S W).es :=
    fun pl => ⟨⟨_, Later.same rfl rfl rfl rfl⟩, inv_pl hI, fun x hx _ => hx⟩
  have h0 := hpl c.1.pl
  unfold snapEdge
  cases c.1.pl.getSI o with
  | none => exact h0
  | some y =>
    cases y with
    | none => exact h0
    | some s =>
      simp only
      cases v.eqS c.1 e s (v.proj (c.1.pos e.src) c.2 (c.1.pos e.dst)) d with
      | none =>
        simp only
        split
        · exact h0
        · split
          · exact h0
          · unfold place
            split
            · exact hpl _
            · split
              · exact hpl _
              · exact ⟨⟨_, split_later v o c.1 hI e he _⟩, split_inv v o c.1 hI e he _,
                  fun x hx hne => (mem_split v o c.1 hI e he _ x).2 (Or.inl ⟨hx, hne⟩)⟩
      | some x =>
        simp only
        split
        · split
          · split
            · exact hpl _
            · exact h0
          · exact h0
        · exact h0

theorem snapEdges_later (v : Env P S W D) (o : Nat) (d : D) (l : List (Edg Nat P)) (c : St P S W × P) (hI : Inv c.1)
    (hl : ∀ e ∈ l, e ∈ c.1.es) (hn : l.Nodup) :
    (∃ cur, Later c.1 (l.foldl (snapEdge v o d) c).1 cur) ∧ Inv (l.foldl (snapEdge v o d) c).1 := by
  induction l generalizing c with
  | nil => exact ⟨⟨_, Later.same rfl rfl rfl rfl⟩, hI⟩
  | cons e l ih =>
    rw [List.nodup_cons] at hn
    obtain ⟨⟨cur, h1⟩, h2, h3⟩ := snapEdge_later v o d c hI e (hl e (by simp))
    obtain ⟨⟨cur', h4⟩, h5⟩ := ih (snapEdge v o d c e) h2
      (fun x hx => h3 x (hl x (by simp [hx])) (by rintro rfl; exact hn.1 hx)) hn.2
    exact ⟨⟨_, h1.trans h4⟩, h5⟩

theorem Uniq.nodup {es : List (Edg Nat P)} (h : Uniq es) : es.Nodup := by
  unfold Uniq at h
  refine h.imp ?_
  rintro a b hab rfl
  exact hab ⟨rfl, rfl⟩

/-- The queue yields the edges that were pushed. -/
def Orders (v : Env P S W D) : Prop := ∀ p l, (v.order p l).Perm l

/-- The candidates. -/
theorem cands (v : Env P S W D) (ho : Orders v) (d : D) (st : St P S W) (hI : Inv st) (o : Nat) :
    let l := v.order (st.pos o) (st.es.filter fun e => v.inRange d (st.pos o) (st.pos e.src) (st.pos e.dst))
    (∀ e ∈ l, e ∈ st.es ∧ v.inRange d (st.pos o) (st.pos e.src) (st.pos e.dst) = true) ∧ l.Nodup := by
  intro l
  have hp := ho (st.pos o) (st.es.filter fun e => v.inRange d (st.pos o) (st.pos e.src) (st.pos e.dst))
  refine ⟨fun e he => ?_, hp.symm.nodup ((Uniq.nodup hI.uniq).filter _)⟩
  simpa using hp.mem_iff.1 he

theorem snapStation_later (v : Env P S W D) (ho : Orders v) (d : D) (st : St P S W) (hI : Inv st) (o : Nat) :
    (∃ cur, Later st (snapStation v d st o) cur) ∧ Inv (snapStation v d st o) := by
  obtain ⟨h1, h2⟩ := cands v ho d st hI o
  exact snapEdges_later v o d _ (st, st.pos o) hI (fun e he => (h1 e he).1) h2

theorem snapRound_later (v : Env P S W D) (ho : Orders v) (d : D) (os : List Nat) (st : St P S W) (hI : Inv st) :
    (∃ cur, Later st (os.foldl (snapStation v d) st) cur) ∧ Inv (os.foldl (snapStation v d) st) := by
  induction os generalizing st with
  | nil => exact ⟨⟨_, Later.same rfl rfl rfl rfl⟩, hI⟩
  | cons o os ih =>
    obtain ⟨⟨c, h1⟩, h2⟩ := snapStation_later v ho d st hI o
    obtain ⟨⟨c', h3⟩, h4⟩ := ih _ h2
    exact ⟨⟨_, h1.trans h3⟩, h4⟩

theorem snapStats_later (v : Env P S W D) (ho : Orders v) (ds : List D) (os : List Nat) (st : St P S W) (hI : Inv st) :
    (∃ cur, Later st (snapStats v ds os st) cur) ∧ Inv (snapStats v ds os st) := by
  unfold snapStats
  induction ds generalizing st with
  | nil => exact ⟨⟨_, Later.same rfl rfl rfl rfl⟩, hI⟩
  | cons d ds ih =>
    obtain ⟨⟨c, h1⟩, h2⟩ := snapRound_later v ho d os st hI
    obtain ⟨⟨c', h3⟩, h4⟩ := ih _ h2
    exact ⟨⟨_, h1.trans h3⟩, h4⟩

/-- What holds through changes of payloads and through splitting holds at the end. -/
theorem snapStats_ind (v : Env P S W D) (ho : Orders v) (Q : St P S W → Prop) (hpl : ∀ st pl, Q st → Q { st with pl := pl })
    (hsp : ∀ st, Inv st → ∀ e ∈ st.es, ∀ o g, Q st → Q (split v o st e g)) (ds : List D) (os : List Nat) (st : St P S W) (hI : Inv st)
    (hQ : Q st) : Q (snapStats v ds os st) := by
  have h1 : ∀ (o : Nat) (d : D) (c : St P S W × P), Inv c.1 → Q c.1 → ∀ e ∈ c.1.es, Q (snapEdge v o d c e).1 := by
    intro o d c hI hQ e he
    unfold snapEdge
    cases c.1.pl.getSI o with
    | none => exact hQ
    | some y =>
      cases y with
      | none => exact hQ
      | some s =>
        simp only
        cases v.eqS c.1 e s (v.proj (c.1.pos e.src) c.2 (c.1.pos e.dst)) d with
        | none =>
          simp only
          split
          · exact hQ
          · split
            · exact hQ
            · unfold place
              split
              · exact hpl _ _ hQ
              · split
                · exact hpl _ _ hQ
                · exact hsp c.1 hI e he o _ hQ
        | some x =>
          simp only
          split
          · split
            · split
              · exact hpl _ _ hQ
              · exact hQ
            · exact hQ
          · exact hQ
  have h2 : ∀ (o : Nat) (d : D) (l : List (Edg Nat P)) (c : St P S W × P), Inv c.1 → Q c.1 → (∀ e ∈ l, e ∈ c.1.es) → l.Nodup →
      Q (l.foldl (snapEdge v o d) c).1 := by
    intro o d l
    induction l with
    | nil => intro c _ h _ _; exact h
    | cons e l ih =>
      intro c hI hQ hl hn
      rw [List.nodup_cons] at hn
      obtain ⟨_, k2, k3⟩ := snapEdge_later v o d c hI e (hl e (by simp))
      exact ih _ k2 (h1 o d c hI hQ e (hl e (by simp))) (fun x hx => k3 x (hl x (by simp [hx])) (by rintro rfl; exact hn.1 hx)) hn.2
  have h3 : ∀ (d : D) (os : List Nat) (st : St P S W), Inv st → Q st → Q (os.foldl (snapStation v d) st) := by
    intro d os
    induction os with
    | nil => intro st _ h; exact h
    | cons o os ih =>
      intro st hI hQ
      obtain ⟨k1, k2⟩ := cands v ho d st hI o
      exact ih _ (snapStation_later v ho d st hI o).2 (h2 o d _ (st, st.pos o) hI hQ (fun e he => (k1 e he).1) k2)
  unfold snapStats
  induction ds generalizing st with
  | nil => exact hQ
  | cons d ds ih => exact ih _ (snapRound_later v ho d os st hI).2 (h3 d os st hI hQ)

/-- What is assumed of the graph: one edge per pair of nodes, no loops, rules for edges between its nodes. -/
structure Sane (st : St P S W) : Prop where
  one : st.es.Pairwise fun e f => ¬ (e.src = f.src ∧ e.dst = f.dst)
  lt : ∀ e ∈ st.es, e.src < st.next ∧ e.dst < st.next
  loop : ∀ e ∈ st.es, e.src ≠ e.dst
  rules : ∀ v, ∀ r, r ∈ st.res.pos v ∨ r ∈ st.res.neg v → (r.1.1 < st.next ∧ r.1.2 < st.next) ∧ ∀ x, r.2 = some x → x.1 < st.next ∧ x.2 < st.next

theorem Sane.inv {st : St P S W} (h : Sane st) : Inv st :=
  ⟨h.one, h.lt, h.loop, fun v => ⟨fun r hr => h.rules v r (Or.inl hr), fun r hr => h.rules v r (Or.inr hr)⟩⟩

/-- C73. Placing stations keeps the map: nodes keep their positions, permitted travel between them is the same as before, and each edge
is a part of an edge of the map, with its level, lines and one-way mark. -/
theorem C73_travel (v : Env P S W D) (ho : ∀ p l, (v.order p l).Perm l) (ds : List D) (os : List Nat) (st : St P S W) (hs : Sane st) :
    let st' := snapStats v ds os st
    (∀ u, u < st.next → st'.pos u = st.pos u) ∧
    (∀ u w, u < st.next → w < st.next → (Reach st'.es u w ↔ Reach st.es u w)) ∧
    (∀ f ∈ st'.es, ∃ e ∈ st.es, Keeps e f ∧ (f.src = e.src ∨ st.next ≤ f.src) ∧ (f.dst = e.dst ∨ st.next ≤ f.dst)) ∧
    ∀ e ∈ st.es, (∃ f ∈ st'.es, Keeps e f ∧ f.src = e.src) ∧ ∃ f ∈ st'.es, Keeps e f ∧ f.dst = e.dst := by
  intro st'
  obtain ⟨⟨cur, h⟩, _⟩ := snapStats_later v ho ds os st hs.inv
  refine ⟨h.pos, fun u w hu hw => (h.reach u w hu hw).symm, h.part, fun e he => ⟨?_, ?_⟩⟩
  · obtain ⟨f, hf, _, k, k1, _⟩ := h.curE e he e.src (Or.inl rfl)
    exact ⟨f, hf, k, k1 rfl⟩
  · obtain ⟨f, hf, _, k, _, k1⟩ := h.curE e he e.dst (Or.inr rfl)
    exact ⟨f, hf, k, k1 rfl⟩

/-- C73. Placing stations keeps the turn rules: each edge `e` has at each of its ends `w` a part `part e w` in the new graph, all edges of
the new graph at `w` are such parts, and a turn at `w` is restricted for the parts as it was for the edges. At the new nodes nothing is
restricted. -/
theorem C73_turns (v : Env P S W D) (ho : ∀ p l, (v.order p l).Perm l) (ds : List D) (os : List Nat) (st : St P S W) (hs : Sane st)
    (hfresh : ∀ w, st.next ≤ w → st.res.pos w = [] ∧ st.res.neg w = []) :
    let st' := snapStats v ds os st
    (∃ part : Nat × Nat → Nat → Nat × Nat,
      (∀ e ∈ st.es, ∀ w, w = e.src ∨ w = e.dst → ∃ f ∈ st'.es, part (e.src, e.dst) w = (f.src, f.dst) ∧ Keeps e f ∧
        (w = e.src → f.src = w) ∧ (w = e.dst → f.dst = w)) ∧
      (∀ f ∈ st'.es, ∀ w, w < st.next → (w = f.src ∨ w = f.dst) →
        ∃ e ∈ st.es, (w = e.src ∨ w = e.dst) ∧ part (e.src, e.dst) w = (f.src, f.dst)) ∧
      ∀ w, ∀ e ∈ st.es, ∀ f ∈ st.es, (w = e.src ∨ w = e.dst) → (w = f.src ∨ w = f.dst) →
        st'.res.may (part (e.src, e.dst) w) (part (f.src, f.dst) w) w = st.res.may (e.src, e.dst) (f.src, f.dst) w) ∧
    ∀ w, st.next ≤ w → ∀ e f, st'.res.may e f w = true := by
  intro st'
  obtain ⟨⟨cur, h⟩, _⟩ := snapStats_later v ho ds os st hs.inv
  refine ⟨⟨cur, h.curE, h.onto, h.turns⟩, fun w hw e f => ?_⟩
  obtain ⟨h1, h2⟩ := h.empt w (hfresh w hw)
  show (snapStats v ds os st).res.may e f w = true
  unfold R.may
  rw [h1, h2]
  rfl

/-! ### stations -/

/-- The same info, with a track that was filled in. -/
inductive Tracked (v : Env P S W D) : S → S → Prop
  | refl (i) : Tracked v i i
  | set {i j} (s) : Tracked v i j → v.noTrack j = true → Tracked v i (v.copyTrack j s)

theorem Tracked.trans {v : Env P S W D} {i j k : S} (h : Tracked v i j) (h' : Tracked v j k) : Tracked v i k := by
  induction h' with
  | refl => exact h
  | set s _ hn ih => exact .set s ih hn

structure Valid (pl : NState Nat S) : Prop where
  small : pl.infos.length < u32max - 1
  si : ∀ u, pl.si u = 0 ∨ pl.si u = u32max ∨ pl.si u = u32max - 1 ∨ (1 ≤ pl.si u ∧ pl.si u ≤ pl.infos.length)

theorem getSI_station {pl : NState Nat S} (hv : Valid pl) {u : Nat} {i : S} :
    pl.getSI u = some (some i) ↔ (1 ≤ pl.si u ∧ pl.si u ≤ pl.infos.length) ∧ pl.infos[pl.si u - 1]? = some i := by
  have hs := hv.small
  have hm : u32max = 4294967295 := rfl
  unfold NState.getSI NState.isBlocker NState.isTurnCycle
  rcases hv.si u with h | h | h | h
  · rw [h]; simp [hm]
  · rw [h]; simp; intro _; omega
  · rw [h]; simp [hm]; omega
  · have h1 : ¬ pl.si u = u32max := by omega
    have h2 : ¬ pl.si u = u32max - 1 := by omega
    have h3 : ¬ pl.si u = 0 := by omega
    simp only [h3, beq_eq_false_iff_ne.2 h1, beq_eq_false_iff_ne.2 h2, if_false, Bool.false_eq_true]
    cases hx : pl.infos[pl.si u - 1]? with
    | none => simp
    | some x => simp [h]

theorem getSI_none {pl : NState Nat S} (hv : Valid pl) {u : Nat} :
    pl.getSI u = some none ↔ ¬ (1 ≤ pl.si u ∧ pl.si u ≤ pl.infos.length) := by
  have hs := hv.small
  have hm : u32max = 4294967295 := rfl
  unfold NState.getSI NState.isBlocker NState.isTurnCycle
  rcases hv.si u with h | h | h | h
  · rw [h]; simp [hm]
  · rw [h]; simp; omega
  · rw [h]; simp [hm]; omega
  · have h1 : ¬ pl.si u = u32max := by omega
    have h2 : ¬ pl.si u = u32max - 1 := by omega
    have h3 : ¬ pl.si u = 0 := by omega
    simp only [h3, beq_eq_false_iff_ne.2 h1, beq_eq_false_iff_ne.2 h2, if_false, Bool.false_eq_true]
    have hlt : pl.si u - 1 < pl.infos.length := by omega
    rw [List.getElem?_eq_getElem hlt]
    simp [h]

theorem valid_set {pl : NState Nat S} (hv : Valid pl) (n : Nat) (s : S) (hsm : (pl.exec (.setSI n s)).infos.length < u32max - 1) :
    Valid (pl.exec (.setSI n s)) ∧ ∀ u, (pl.exec (.setSI n s)).getSI u = if u = n then some (some s) else pl.getSI u := by
  have hm : u32max = 4294967295 := rfl
  have hlen : (pl.exec (.setSI n s)).infos.length = pl.infos.length + 1 := by
    simp [NState.exec, NState.write]
  rw [hlen] at hsm
  have hsi : ∀ u, (pl.exec (.setSI n s)).si u = if u = n then pl.infos.length + 1 else pl.si u := by
    intro u
    simp only [NState.exec, NState.write]
    rw [Nat.mod_eq_of_lt (by omega)]
  have hinf : (pl.exec (.setSI n s)).infos = pl.infos ++ [s] := rfl
  have hval : Valid (pl.exec (.setSI n s)) := by
    refine ⟨by rw [hlen]; exact hsm, fun u => ?_⟩
    rw [hsi u, hlen]
    split
    · omega
    · rcases hv.si u with h | h | h | h <;> omega
  refine ⟨hval, fun u => ?_⟩
  by_cases hu : u = n
  · rw [if_pos hu, getSI_station hval, hsi u, if_pos hu, hlen, hinf]
    refine ⟨by omega, ?_⟩
    rw [List.getElem?_append_right (by omega)]
    simp
  · rw [if_neg hu]
    have hsu : (pl.exec (.setSI n s)).si u = pl.si u := by rw [hsi u, if_neg hu]
    by_cases hst : 1 ≤ pl.si u ∧ pl.si u ≤ pl.infos.length
    · have hlt : pl.si u - 1 < pl.infos.length := by omega
      have h1 : pl.getSI u = some (some pl.infos[pl.si u - 1]) := (getSI_station hv).2 ⟨hst, List.getElem?_eq_getElem hlt⟩
      rw [h1, getSI_station hval, hsu, hlen, hinf]
      refine ⟨by omega, ?_⟩
      rw [List.getElem?_append_left hlt, List.getElem?_eq_getElem hlt]
    · rw [(getSI_none hv).2 hst, getSI_none hval, hsu, hlen]
      rcases hv.si u with h | h | h | h <;> omega

theorem valid_copy {pl : NState Nat S} (hv : Valid pl) (a b : Nat) :
    Valid (pl.exec (.copy a b)) ∧ ∀ u, (pl.exec (.copy a b)).getSI u = if u = b then pl.getSI a else pl.getSI u := by
  have hsi : ∀ u, (pl.exec (.copy a b)).si u = if u = b then pl.si a else pl.si u := fun u => rfl
  have hinf : (pl.exec (.copy a b)).infos = pl.infos := rfl
  refine ⟨⟨hv.small, fun u => ?_⟩, fun u => ?_⟩
  · rw [hsi u, hinf]
    split
    · exact hv.si a
    · exact hv.si u
  · unfold NState.getSI NState.isBlocker NState.isTurnCycle
    rw [hsi u, hinf]
    split <;> rfl

theorem valid_modify {pl : NState Nat S} (hv : Valid pl) (x : Nat) (f : S → S) (i : S) (hx : pl.getSI x = some (some i)) :
    Valid (pl.exec (.modify x f)) ∧
    (∀ u, pl.getSI u = some none → (pl.exec (.modify x f)).getSI u = some none) ∧
    ∀ u j, pl.getSI u = some (some j) → (pl.exec (.modify x f)).getSI u = some (some j) ∨
      (j = i ∧ (pl.exec (.modify x f)).getSI u = some (some (f i))) := by
  have he : pl.exec (.modify x f) = { pl with infos := pl.infos.set (pl.si x - 1) (f i) } := by
    simp only [NState.exec, hx]
  have hsi : (pl.exec (.modify x f)).si = pl.si := by rw [he]
  have hinf : (pl.exec (.modify x f)).infos = pl.infos.set (pl.si x - 1) (f i) := by rw [he]
  have hlen : (pl.exec (.modify x f)).infos.length = pl.infos.length := by rw [hinf]; simp
  have hval : Valid (pl.exec (.modify x f)) := ⟨by rw [hlen]; exact hv.small, fun u => by rw [hsi, hlen]; exact hv.si u⟩
  obtain ⟨hx1, hx2⟩ := (getSI_station hv).1 hx
  refine ⟨hval, fun u hu => ?_, fun u j hu => ?_⟩
  · rw [getSI_none hval, hsi, hlen]; exact (getSI_none hv).1 hu
  · obtain ⟨hu1, hu2⟩ := (getSI_station hv).1 hu
    rw [getSI_station hval, getSI_station hval, hsi, hlen, hinf]
    have hlt : pl.si x - 1 < pl.infos.length := by omega
    by_cases h : pl.si x - 1 = pl.si u - 1
    · right
      rw [h] at hx2
      have : j = i := by rw [hu2] at hx2; exact Option.some.inj hx2
      refine ⟨this, hu1, ?_⟩
      rw [h, List.getElem?_set_self (by omega)]
    · left
      refine ⟨hu1, ?_⟩
      rw [List.getElem?_set_ne h]
      exact hu2

/-- Where a new station comes from. -/
def From (v : Env P S W D) (ds : List D) (os : List Nat) (s0 st : St P S W) (u : Nat) (j : S) : Prop :=
  ∃ o ∈ os, ∃ d ∈ ds, ∃ i, s0.pl.getSI o = some (some i) ∧ Tracked v i j ∧
    ∃ a b, a < st.next ∧ b < st.next ∧ v.inRange d (st.pos o) (st.pos a) (st.pos b) = true ∧
      (∃ e ∈ s0.es, e.a.lvl ≤ v.maxLvl ∧ (a = e.src ∨ s0.next ≤ a) ∧ (b = e.dst ∨ s0.next ≤ b)) ∧
      (u = a ∨ u = b ∨ ∃ x, st.pos u = v.proj (st.pos a) x (st.pos b))

structure Sta (v : Env P S W D) (ds : List D) (os : List Nat) (s0 st : St P S W) : Prop where
  valid : Valid st.pl
  next : s0.next ≤ st.next
  keep : ∀ u, u < s0.next → ∀ i, s0.pl.getSI u = some (some i) → ∃ j, st.pl.getSI u = some (some j) ∧ Tracked v i j
  placed : ∀ u j, u < st.next → st.pl.getSI u = some (some j) →
    (u < s0.next ∧ ∃ i, s0.pl.getSI u = some (some i)) ∨ From v ds os s0 st u j

theorem From.mono {v : Env P S W D} {ds : List D} {os : List Nat} {s0 st st' : St P S W} {u : Nat} {j j' : S}
    (h : From v ds os s0 st u j) (hu : u < st.next) (hos : ∀ o ∈ os, o < st.next) (hn : st.next ≤ st'.next)
    (hp : ∀ x, x < st.next → st'.pos x = st.pos x) (hj : Tracked v j j') : From v ds os s0 st' u j' := by
  obtain ⟨o, ho, d, hd, i, h1, h2, a, b, ha, hb, h3, h4, h5⟩ := h
  refine ⟨o, ho, d, hd, i, h1, h2.trans hj, a, b, Nat.lt_of_lt_of_le ha hn, Nat.lt_of_lt_of_le hb hn, ?_, h4, ?_⟩
  · rw [hp o (hos o ho), hp a ha, hp b hb]; exact h3
  · rw [hp u hu, hp a ha, hp b hb]; exact h5

theorem noSI_iff {pl : NState Nat S} {n : Nat} : noSI pl n = true ↔ pl.getSI n = some none := by
  unfold noSI
  split
  · rename_i h; simp [h]
  · rename_i h; simp only [Bool.false_eq_true, false_iff]; exact h

theorem length_exec (pl : NState Nat S) (op : NOp Nat S) : pl.infos.length ≤ (pl.exec op).infos.length := by
  unfold NState.exec
  split <;> first
    | (simp [NState.write]; done)
    | exact Nat.le_refl _
    | (split <;> first | exact Nat.le_refl _ | (simp; done))

theorem length_snapEdge (v : Env P S W D) (o : Nat) (d : D) (c : St P S W × P) (e : Edg Nat P) :
    c.1.pl.infos.length ≤ (snapEdge v o d c e).1.pl.infos.length := by
  unfold snapEdge place split
  cases c.1.pl.getSI o with
  | none => exact Nat.le_refl _
  | some y =>
    cases y with
    | none => exact Nat.le_refl _
    | some s =>
      simp only
      cases v.eqS c.1 e s (v.proj (c.1.pos e.src) c.2 (c.1.pos e.dst)) d with
      | none =>
        simp only
        repeat' split
        all_goals first | exact Nat.le_refl _ | exact length_exec _ _
      | some x =>
        simp only
        repeat' split
        all_goals first | exact Nat.le_refl _ | exact length_exec _ _

theorem length_snapEdges (v : Env P S W D) (o : Nat) (d : D) (l : List (Edg Nat P)) (c : St P S W × P) :
    c.1.pl.infos.length ≤ (l.foldl (snapEdge v o d) c).1.pl.infos.length := by
  induction l generalizing c with
  | nil => exact Nat.le_refl _
  | cons e l ih => exact Nat.le_trans (length_snapEdge v o d c e) (ih _)

theorem length_round (v : Env P S W D) (d : D) (os : List Nat) (st : St P S W) :
    st.pl.infos.length ≤ (os.foldl (snapStation v d) st).pl.infos.length := by
  induction os generalizing st with
  | nil => exact Nat.le_refl _
  | cons o os ih => exact Nat.le_trans (length_snapEdges v o d _ (st, st.pos o)) (ih _)

theorem length_stats (v : Env P S W D) (ds : List D) (os : List Nat) (st : St P S W) :
    st.pl.infos.length ≤ (snapStats v ds os st).pl.infos.length := by
  unfold snapStats
  induction ds generalizing st with
  | nil => exact Nat.le_refl _
  | cons d ds ih => exact Nat.le_trans (length_round v d os st) (ih _)

/-- The orphan stations are stations of the map. -/
def Orphans (os : List Nat) (s0 : St P S W) : Prop := ∀ o ∈ os, o < s0.next ∧ ∃ i, s0.pl.getSI o = some (some i)

/-- One candidate. -/
theorem snapEdge_sta (v : Env P S W D) (ds : List D) (os : List Nat) (s0 : St P S W) (hos : Orphans os s0) (o : Nat) (hoo : o ∈ os)
    (d : D) (hd : d ∈ ds) (c : St P S W × P) (hI : Inv c.1) (hS : Sta v ds os s0 c.1) (e : Edg Nat P) (he : e ∈ c.1.es)
    (hr : v.inRange d (c.1.pos o) (c.1.pos e.src) (c.1.pos e.dst) = true)
    (hp : ∃ e0 ∈ s0.es, Keeps e0 e ∧ (e.src = e0.src ∨ s0.next ≤ e.src) ∧ (e.dst = e0.dst ∨ s0.next ≤ e.dst))
    (hsm : (snapEdge v o d c e).1.pl.infos.length < u32max - 1) : Sta v ds os s0 (snapEdge v o d c e).1 := by
  obtain ⟨e0, he0, hk, hp1, hp2⟩ := hp
  have hlt := hI.lt e he
  have hon : o < c.1.next := Nat.lt_of_lt_of_le (hos o hoo).1 hS.next
  have hosn : ∀ o ∈ os, o < c.1.next := fun o ho => Nat.lt_of_lt_of_le (hos o ho).1 hS.next
  -- placing the info at an end of the edge
  have hset : ∀ (s : S) (n : Nat), c.1.pl.getSI o = some (some s) → e.a.lvl ≤ v.maxLvl → noSI c.1.pl n = true → (n = e.src ∨ n = e.dst) →
      (c.1.pl.exec (.setSI n s)).infos.length < u32max - 1 → Sta v ds os s0 { c.1 with pl := c.1.pl.exec (.setSI n s) } := by
    intro s n hs hl hno hn hlen
    obtain ⟨h1, h2⟩ := valid_set hS.valid n s hlen
    rw [noSI_iff] at hno
    refine ⟨h1, hS.next, ?_, ?_⟩
    · intro u hu i hi
      obtain ⟨j, hj, ht⟩ := hS.keep u hu i hi
      refine ⟨j, ?_, ht⟩
      show (c.1.pl.exec (.setSI n s)).getSI u = _
      rw [h2 u, if_neg, hj]
      rintro rfl
      rw [hno] at hj
      cases hj
    · intro u j hu hj
      have hj : (c.1.pl.exec (.setSI n s)).getSI u = some (some j) := hj
      rw [h2 u] at hj
      by_cases hun : u = n
      · rw [if_pos hun] at hj
        simp only [Option.some.injEq] at hj
        subst hj
        right
        obtain ⟨i, hi⟩ := (hos o hoo).2
        obtain ⟨j', hj', ht⟩ := hS.keep o (hos o hoo).1 i hi
        rw [hs] at hj'
        simp only [Option.some.injEq] at hj'
        subst hj'
        refine ⟨o, hoo, d, hd, i, hi, ht, e.src, e.dst, hlt.1, hlt.2, hr, ⟨e0, he0, hk.lvl ▸ hl, hp1, hp2⟩, ?_⟩
        rcases hn with h | h
        · exact Or.inl (hun.trans h)
        · exact Or.inr (Or.inl (hun.trans h))
      · rw [if_neg hun] at hj
        rcases hS.placed u j hu hj with h | h
        · exact Or.inl h
        · exact Or.inr (h.mono hu hosn (Nat.le_refl _) (fun _ _ => rfl) (.refl _))
  revert hsm
  unfold snapEdge
  cases hgo : c.1.pl.getSI o with
  | none => exact fun _ => hS
  | some y =>
    cases y with
    | none => exact fun _ => hS
    | some s =>
      simp only
      cases heq : v.eqS c.1 e s (v.proj (c.1.pos e.src) c.2 (c.1.pos e.dst)) d with
      | none =>
        simp only
        by_cases hl : e.a.lvl > v.maxLvl
        · rw [if_pos hl]; exact fun _ => hS
        · rw [if_neg hl]
          have hl' : e.a.lvl ≤ v.maxLvl := by
            rcases Nat.le_total e.a.lvl.val v.maxLvl.val with h | h
            · exact h
            · exact Fin.not_lt.1 hl
          split
          · exact fun _ => hS
          · unfold place
            split
            · rename_i h; exact fun hsm => hset s e.src hgo hl' h.1 (Or.inl rfl) hsm
            · split
              · rename_i h; exact fun hsm => hset s e.dst hgo hl' h.1 (Or.inr rfl) hsm
              · intro _
                obtain ⟨h1, h2⟩ := valid_copy hS.valid o c.1.next
                have hn1 : (split v o c.1 e (v.proj (c.1.pos e.src) c.2 (c.1.pos e.dst))).next = c.1.next + 1 := rfl
                have hpo : ∀ x, (split v o c.1 e (v.proj (c.1.pos e.src) c.2 (c.1.pos e.dst))).pos x =
                    if x = c.1.next then v.proj (c.1.pos e.src) c.2 (c.1.pos e.dst) else c.1.pos x := fun x => rfl
                have hpl : (split v o c.1 e (v.proj (c.1.pos e.src) c.2 (c.1.pos e.dst))).pl = c.1.pl.exec (.copy o c.1.next) := rfl
                refine ⟨h1, by rw [hn1]; exact Nat.le_succ_of_le hS.next, ?_, ?_⟩
                · intro u hu i hi
                  obtain ⟨j, hj, ht⟩ := hS.keep u hu i hi
                  refine ⟨j, ?_, ht⟩
                  rw [hpl, h2 u, if_neg (by have := hS.next; omega), hj]
                · intro u j hu hj
                  rw [hn1] at hu
                  rw [hpl, h2 u] at hj
                  by_cases hun : u = c.1.next
                  · rw [if_pos hun, hgo] at hj
                    simp only [Option.some.injEq] at hj
                    subst hj
                    right
                    obtain ⟨i, hi⟩ := (hos o hoo).2
                    obtain ⟨j', hj', ht⟩ := hS.keep o (hos o hoo).1 i hi
                    rw [hgo] at hj'
                    simp only [Option.some.injEq] at hj'
                    subst hj'
                    refine ⟨o, hoo, d, hd, i, hi, ht, e.src, e.dst, by rw [hn1]; omega, by rw [hn1]; omega, ?_,
                      ⟨e0, he0, hk.lvl ▸ hl', hp1, hp2⟩, Or.inr (Or.inr ⟨c.2, ?_⟩)⟩
                    · rw [hpo, hpo, hpo, if_neg (by omega), if_neg (by omega), if_neg (by omega)]; exact hr
                    · rw [hpo, hpo, hpo, if_pos hun, if_neg (by omega), if_neg (by omega)]
                  · rw [if_neg hun] at hj
                    have hu' : u < c.1.next := by omega
                    rcases hS.placed u j hu' hj with h | h
                    · exact Or.inl h
                    · refine Or.inr (h.mono hu' hosn (by rw [hn1]; omega) (fun x hx => ?_) (.refl _))
                      rw [hpo, if_neg (by omega)]
      | some x =>
        simp only
        split
        · cases hgx : c.1.pl.getSI x with
          | none => exact fun _ => hS
          | some y =>
            cases y with
            | none => exact fun _ => hS
            | some i =>
              simp only
              by_cases hno : v.noTrack i = true
              · rw [if_pos hno]
                intro _
                obtain ⟨h1, h2, h3⟩ := valid_modify hS.valid x (fun j => v.copyTrack j s) i hgx
                refine ⟨h1, hS.next, ?_, ?_⟩
                · intro u hu i' hi
                  obtain ⟨j, hj, ht⟩ := hS.keep u hu i' hi
                  rcases h3 u j hj with h | ⟨rfl, h⟩
                  · exact ⟨j, h, ht⟩
                  · exact ⟨_, h, .set s ht hno⟩
                · intro u j hu hj
                  have hj : (c.1.pl.exec (.modify x fun j => v.copyTrack j s)).getSI u = some (some j) := hj
                  -- it was a station before
                  have : ∃ j0, c.1.pl.getSI u = some (some j0) := by
                    cases hg : c.1.pl.getSI u with
                    | none =>
                      exfalso
                      by_cases hst : 1 ≤ c.1.pl.si u ∧ c.1.pl.si u ≤ c.1.pl.infos.length
                      · have hlt : c.1.pl.si u - 1 < c.1.pl.infos.length := by omega
                        rw [(getSI_station hS.valid).2 ⟨hst, List.getElem?_eq_getElem hlt⟩] at hg
                        cases hg
                      · rw [(getSI_none hS.valid).2 hst] at hg
                        cases hg
                    | some y =>
                      cases y with
                      | none => rw [h2 u hg] at hj; cases hj
                      | some j0 => exact ⟨j0, rfl⟩
                  obtain ⟨j0, hj0⟩ := this
                  have ht : Tracked v j0 j := by
                    rcases h3 u j0 hj0 with h | ⟨rfl, h⟩
                    · rw [h] at hj; simp only [Option.some.injEq] at hj; subst hj; exact .refl _
                    · rw [h] at hj; simp only [Option.some.injEq] at hj; subst hj; exact .set s (.refl _) hno
                  rcases hS.placed u j0 hu hj0 with h | h
                  · exact Or.inl h
                  · exact Or.inr (h.mono hu hosn (Nat.le_refl _) (fun _ _ => rfl) ht)
              · rw [if_neg hno]; exact fun _ => hS
        · exact fun _ => hS

theorem snapEdges_sta (v : Env P S W D) (ds : List D) (os : List Nat) (s0 : St P S W) (hos : Orphans os s0) (o : Nat) (hoo : o ∈ os)
    (d : D) (hd : d ∈ ds) (l : List (Edg Nat P)) (c : St P S W × P) (hI : Inv c.1) (hL : ∃ cur, Later s0 c.1 cur) (hS : Sta v ds os s0 c.1)
    (hl : ∀ e ∈ l, e ∈ c.1.es ∧ v.inRange d (c.1.pos o) (c.1.pos e.src) (c.1.pos e.dst) = true) (hn : l.Nodup)
    (hsm : (l.foldl (snapEdge v o d) c).1.pl.infos.length < u32max - 1) : Sta v ds os s0 (l.foldl (snapEdge v o d) c).1 := by
  induction l generalizing c with
  | nil => exact hS
  | cons e l ih =>
    rw [List.nodup_cons] at hn
    obtain ⟨he, hr⟩ := hl e (by simp)
    obtain ⟨cur, hL⟩ := hL
    have hsm1 : (snapEdge v o d c e).1.pl.infos.length < u32max - 1 :=
      Nat.lt_of_le_of_lt (length_snapEdges v o d l (snapEdge v o d c e)) hsm
    have hS1 := snapEdge_sta v ds os s0 hos o hoo d hd c hI hS e he hr (hL.part e he) hsm1
    obtain ⟨⟨cur', h1⟩, h2, h3⟩ := snapEdge_later v o d c hI e he
    refine ih (snapEdge v o d c e) h2 ⟨_, hL.trans h1⟩ hS1 (fun x hx => ?_) hn.2 hsm
    obtain ⟨hxe, hxr⟩ := hl x (by simp [hx])
    have hxl := hI.lt x hxe
    refine ⟨h3 x hxe (by rintro rfl; exact hn.1 hx), ?_⟩
    rw [h1.pos o (Nat.lt_of_lt_of_le (hos o hoo).1 hS.next), h1.pos _ hxl.1, h1.pos _ hxl.2]
    exact hxr

theorem snapStation_sta (v : Env P S W D) (ho : Orders v) (ds : List D) (os : List Nat) (s0 : St P S W) (hos : Orphans os s0) (o : Nat)
    (hoo : o ∈ os) (d : D) (hd : d ∈ ds) (st : St P S W) (hI : Inv st) (hL : ∃ cur, Later s0 st cur) (hS : Sta v ds os s0 st)
    (hsm : (snapStation v d st o).pl.infos.length < u32max - 1) : Sta v ds os s0 (snapStation v d st o) := by
  obtain ⟨h1, h2⟩ := cands v ho d st hI o
  exact snapEdges_sta v ds os s0 hos o hoo d hd _ (st, st.pos o) hI hL hS h1 h2 hsm

theorem snapRound_sta (v : Env P S W D) (ho : Orders v) (ds : List D) (os : List Nat) (s0 : St P S W) (hos : Orphans os s0)
    (d : D) (hd : d ∈ ds) (l : List Nat) (hl : ∀ o ∈ l, o ∈ os) (st : St P S W) (hI : Inv st) (hL : ∃ cur, Later s0 st cur)
    (hS : Sta v ds os s0 st) (hsm : (l.foldl (snapStation v d) st).pl.infos.length < u32max - 1) :
    Sta v ds os s0 (l.foldl (snapStation v d) st) := by
  induction l generalizing st with
  | nil => exact hS
  | cons o l ih =>
    have hsm1 : (snapStation v d st o).pl.infos.length < u32max - 1 :=
      Nat.lt_of_le_of_lt (length_round v d l (snapStation v d st o)) hsm
    have hS1 := snapStation_sta v ho ds os s0 hos o (hl o (by simp)) d hd st hI hL hS hsm1
    obtain ⟨cur, hL⟩ := hL
    obtain ⟨⟨cur', h1⟩, h2⟩ := snapStation_later v ho d st hI o
    exact ih (fun o ho => hl o (by simp [ho])) _ h2 ⟨_, hL.trans h1⟩ hS1 hsm

theorem snapStats_sta (v : Env P S W D) (ho : Orders v) (ds : List D) (os : List Nat) (s0 : St P S W) (hos : Orphans os s0)
    (l : List D) (hl : ∀ d ∈ l, d ∈ ds) (st : St P S W) (hI : Inv st) (hL : ∃ cur, Later s0 st cur)
    (hS : Sta v ds os s0 st) (hsm : (snapStats v l os st).pl.infos.length < u32max - 1) :
    Sta v ds os s0 (snapStats v l os st) := by
  induction l generalizing st with
  | nil => exact hS
  | cons d l ih =>
    have hsm1 : (os.foldl (snapStation v d) st).pl.infos.length < u32max - 1 :=
      Nat.lt_of_le_of_lt (length_stats v l os _) hsm
    have hS1 := snapRound_sta v ho ds os s0 hos d (hl d (by simp)) os (fun _ h => h) st hI hL hS hsm1
    obtain ⟨cur, hL⟩ := hL
    obtain ⟨⟨cur', h1⟩, h2⟩ := snapRound_later v ho d os st hI
    exact ih (fun d hd => hl d (by simp [hd])) _ h2 ⟨_, hL.trans h1⟩ hS1 hsm

/-- C73. Placing stations keeps the stations of the map and adds stations only next to tracks: a station of the map keeps its info, but
for a track that may be filled in. A station that was not there before carries the info of one of the given stations `o`, and stands at
an end of, or is projected on, a piece `a b` of an edge of the map whose level is low enough and which is within one of the given
distances from `o`. -/
theorem C73_stations_partial (v : Env P S W D) (ho : ∀ p l, (v.order p l).Perm l) (ds : List D) (os : List Nat) (st : St P S W) (hs : Sane st)
    (hv : ∀ u, st.pl.si u = 0 ∨ st.pl.si u = u32max ∨ st.pl.si u = u32max - 1 ∨ (1 ≤ st.pl.si u ∧ st.pl.si u ≤ st.pl.infos.length))
    (hos : ∀ o ∈ os, o < st.next ∧ ∃ i, st.pl.getSI o = some (some i))
    (hsm : (snapStats v ds os st).pl.infos.length < u32max - 1) :
    let st' := snapStats v ds os st
    (∀ u, u < st.next → ∀ i, st.pl.getSI u = some (some i) → ∃ j, st'.pl.getSI u = some (some j) ∧ Tracked v i j) ∧
    ∀ u j, u < st'.next → st'.pl.getSI u = some (some j) →
      (u < st.next ∧ ∃ i, st.pl.getSI u = some (some i)) ∨
      ∃ o ∈ os, ∃ d ∈ ds, ∃ i, st.pl.getSI o = some (some i) ∧ Tracked v i j ∧
        ∃ a b, a < st'.next ∧ b < st'.next ∧ v.inRange d (st'.pos o) (st'.pos a) (st'.pos b) = true ∧
          (∃ e ∈ st.es, e.a.lvl ≤ v.maxLvl ∧ (a = e.src ∨ st.next ≤ a) ∧ (b = e.dst ∨ st.next ≤ b)) ∧
          (u = a ∨ u = b ∨ ∃ x, st'.pos u = v.proj (st'.pos a) x (st'.pos b)) := by
  intro st'
  have h0 : Valid st.pl := ⟨Nat.lt_of_le_of_lt (length_stats v ds os st) hsm, hv⟩
  have hS0 : Sta v ds os st st := ⟨h0, Nat.le_refl _, fun u _ i hi => ⟨i, hi, .refl _⟩, fun u j hu hj => Or.inl ⟨hu, j, hj⟩⟩
  have hS := snapStats_sta v ho ds os st hos ds (fun _ h => h) st hs.inv ⟨_, Later.same rfl rfl rfl rfl⟩ hS0 hsm
  exact ⟨hS.keep, hS.placed⟩

/-- One candidate, when the searches find nothing. -/
theorem snapEdge_place (v : Env P S W D) (o : Nat) (d : D) (c : St P S W × P) (hI : Inv c.1) (hv : Valid c.1.pl) (s : S)
    (hs : c.1.pl.getSI o = some (some s)) (e : Edg Nat P) (he : e ∈ c.1.es) (hl : e.a.lvl ≤ v.maxLvl)
    (heq : ∀ st1 e1 s1 g, v.eqS st1 e1 s1 g d = none) (hb : ∀ st1 e1 s1 g, v.blocked st1 e1 s1 g = false)
    (hsm : (snapEdge v o d c e).1.pl.infos.length < u32max - 1) :
    ∃ u, u < (snapEdge v o d c e).1.next ∧ (snapEdge v o d c e).1.pl.getSI u = some (some s) ∧
      (u = e.src ∨ u = e.dst ∨ ∃ x, (snapEdge v o d c e).1.pos u = v.proj (c.1.pos e.src) x (c.1.pos e.dst)) := by
  have hlt := hI.lt e he
  revert hsm
  unfold snapEdge
  simp only [hs, heq, hb]
  rw [if_neg (Fin.not_lt.2 hl)]
  simp only [Bool.false_eq_true, if_false]
  unfold place
  split
  · intro hsm
    refine ⟨e.src, hlt.1, ?_, Or.inl rfl⟩
    have := (valid_set hv e.src s hsm).2 e.src
    rwa [if_pos rfl] at this
  · split
    · intro hsm
      refine ⟨e.dst, hlt.2, ?_, Or.inr (Or.inl rfl)⟩
      have := (valid_set hv e.dst s hsm).2 e.dst
      rwa [if_pos rfl] at this
    · intro _
      refine ⟨c.1.next, Nat.lt_succ_self _, ?_, Or.inr (Or.inr ⟨c.2, ?_⟩)⟩
      · have := (valid_copy hv o c.1.next).2 c.1.next
        rw [if_pos rfl, hs] at this
        exact this
      · show (if c.1.next = c.1.next then _ else _) = _
        rw [if_pos rfl]

theorem snapEdges_place (v : Env P S W D) (o : Nat) (d : D) (l : List (Edg Nat P)) (c : St P S W × P) (hI : Inv c.1) (hv : Valid c.1.pl)
    (s : S) (hon : o < c.1.next) (hs : c.1.pl.getSI o = some (some s))
    (hl : ∀ e ∈ l, e ∈ c.1.es ∧ v.inRange d (c.1.pos o) (c.1.pos e.src) (c.1.pos e.dst) = true) (hn : l.Nodup)
    (heq : ∀ st1 e1 s1 g, v.eqS st1 e1 s1 g d = none) (hb : ∀ st1 e1 s1 g, v.blocked st1 e1 s1 g = false)
    (hsm : (l.foldl (snapEdge v o d) c).1.pl.infos.length < u32max - 1) (e : Edg Nat P) (hel : e ∈ l) (hlv : e.a.lvl ≤ v.maxLvl) :
    ∃ u j, u < (l.foldl (snapEdge v o d) c).1.next ∧ (l.foldl (snapEdge v o d) c).1.pl.getSI u = some (some j) ∧ Tracked v s j ∧
      (u = e.src ∨ u = e.dst ∨ ∃ x, (l.foldl (snapEdge v o d) c).1.pos u = v.proj (c.1.pos e.src) x (c.1.pos e.dst)) := by
  induction l generalizing c s with
  | nil => cases hel
  | cons f l ih =>
    rw [List.nodup_cons] at hn
    obtain ⟨hf, hr⟩ := hl f (by simp)
    have hsm1 : (snapEdge v o d c f).1.pl.infos.length < u32max - 1 :=
      Nat.lt_of_le_of_lt (length_snapEdges v o d l (snapEdge v o d c f)) hsm
    have hS0 : Sta v [d] [o] c.1 c.1 := ⟨hv, Nat.le_refl _, fun u _ i hi => ⟨i, hi, .refl _⟩, fun u j hu hj => Or.inl ⟨hu, j, hj⟩⟩
    have hO : Orphans [o] c.1 := fun x hx => by simp at hx; subst hx; exact ⟨hon, s, hs⟩
    have hS1 := snapEdge_sta v [d] [o] c.1 hO o (by simp) d (by simp) c hI hS0 f hf hr ⟨f, hf, .refl f, Or.inl rfl, Or.inl rfl⟩ hsm1
    obtain ⟨⟨cur', h1⟩, h2, h3⟩ := snapEdge_later v o d c hI f hf
    obtain ⟨s', hs', hss'⟩ := hS1.keep o hon s hs
    have hon' : o < (snapEdge v o d c f).1.next := Nat.lt_of_lt_of_le hon h1.next
    have hl' : ∀ x ∈ l, x ∈ (snapEdge v o d c f).1.es ∧ v.inRange d ((snapEdge v o d c f).1.pos o) ((snapEdge v o d c f).1.pos x.src)
        ((snapEdge v o d c f).1.pos x.dst) = true := by
      intro x hx
      obtain ⟨hxe, hxr⟩ := hl x (by simp [hx])
      have hxl := hI.lt x hxe
      refine ⟨h3 x hxe (by rintro rfl; exact hn.1 hx), ?_⟩
      rw [h1.pos o hon, h1.pos _ hxl.1, h1.pos _ hxl.2]
      exact hxr
    rw [List.foldl_cons]
    rcases List.mem_cons.1 hel with rfl | hel
    · obtain ⟨u, hu, hus, hup⟩ := snapEdge_place v o d c hI hv s hs e hf hlv heq hb hsm1
      have hO' : Orphans [o] (snapEdge v o d c e).1 := fun x hx => by simp at hx; subst hx; exact ⟨hon', s', hs'⟩
      have hS0' : Sta v [d] [o] (snapEdge v o d c e).1 (snapEdge v o d c e).1 :=
        ⟨hS1.valid, Nat.le_refl _, fun u _ i hi => ⟨i, hi, .refl _⟩, fun u j hu hj => Or.inl ⟨hu, j, hj⟩⟩
      have hS2 := snapEdges_sta v [d] [o] _ hO' o (by simp) d (by simp) l _ h2 ⟨_, Later.same rfl rfl rfl rfl⟩ hS0' hl' hn.2 hsm
      obtain ⟨⟨cur2, h4⟩, _⟩ := snapEdges_later v o d l _ h2 (fun x hx => (hl' x hx).1) hn.2
      obtain ⟨j, hj, hsj⟩ := hS2.keep u hu s hus
      refine ⟨u, j, Nat.lt_of_lt_of_le hu h4.next, hj, hsj, ?_⟩
      rw [h4.pos u hu]
      exact hup
    · obtain ⟨u, j, hu, hj, hsj, hup⟩ := ih (snapEdge v o d c f) h2 hS1.valid s' hon' hs' hl' hn.2 hsm hel
      refine ⟨u, j, hu, hj, hss'.trans hsj, ?_⟩
      have hxl := hI.lt e (hl e (by simp [hel])).1
      rw [h1.pos _ hxl.1, h1.pos _ hxl.2] at hup
      exact hup

/-- C73. When no equivalent station is found along the tracks and nothing blocks, a station is placed on every edge of a low enough level
within the distance. -/
theorem C73_covers (v : Env P S W D) (ho : ∀ p l, (v.order p l).Perm l) (d : D) (st : St P S W) (hs : Sane st)
    (hv : ∀ u, st.pl.si u = 0 ∨ st.pl.si u = u32max ∨ st.pl.si u = u32max - 1 ∨ (1 ≤ st.pl.si u ∧ st.pl.si u ≤ st.pl.infos.length))
    (o : Nat) (s : S) (hon : o < st.next) (hos : st.pl.getSI o = some (some s))
    (heq : ∀ st1 e1 s1 g, v.eqS st1 e1 s1 g d = none) (hb : ∀ st1 e1 s1 g, v.blocked st1 e1 s1 g = false)
    (hsm : (snapStation v d st o).pl.infos.length < u32max - 1) :
    let st' := snapStation v d st o
    ∀ e ∈ st.es, v.inRange d (st.pos o) (st.pos e.src) (st.pos e.dst) = true → e.a.lvl ≤ v.maxLvl →
      ∃ u j, u < st'.next ∧ st'.pl.getSI u = some (some j) ∧ Tracked v s j ∧
        (u = e.src ∨ u = e.dst ∨ ∃ x, st'.pos u = v.proj (st.pos e.src) x (st.pos e.dst)) := by
  intro st' e he hr hlv
  obtain ⟨h1, h2⟩ := cands v ho d st hs.inv o
  have h0 : Valid st.pl := ⟨Nat.lt_of_le_of_lt (length_snapEdges v o d _ (st, st.pos o)) hsm, hv⟩
  exact snapEdges_place v o d _ (st, st.pos o) hs.inv h0 s hon hos h1 h2 heq hb hsm e ((ho _ _).mem_iff.2 (by simp [he, hr])) hlv

/-! ### examples and negations -/

/-- Points of a plane; edges run along an axis. -/
abbrev Pt := Int × Int

def clamp (a p b : Int) : Int := max (min a b) (min p (max a b))
def dist2 (p q : Pt) : Int := (p.1 - q.1) * (p.1 - q.1) + (p.2 - q.2) * (p.2 - q.2)
/-- The point of the edge `a b` nearest to `p`. -/
def near (a p b : Pt) : Pt := (clamp a.1 p.1 b.1, clamp a.2 p.2 b.2)

/-- A station info is a name and a track (0: none). -/
def exEnv : Env Pt (Nat × Nat) Unit Int where
  inRange d p a b := decide (dist2 p (near a p b) ≤ d * d)
  order _ l := l
  proj := near
  eqS _ _ _ _ _ := none
  blocked _ _ _ _ := false
  half p q := decide (p = q)
  five p q := decide (dist2 p q < 25)
  cost p q _ := (dist2 p q).toNat
  maxLvl := 7
  noTrack s := s.2 == 0
  copyTrack s t := (s.1, t.2)

def exE (a b : Nat) : Edg Nat Pt := ⟨a, b, ⟨0, false, false, 0, 1⟩, [], none⟩

/-- A station at (0,0), a track along x = 9 and one along y = -10. -/
def exSt : St Pt (Nat × Nat) Unit where
  es := [exE 1 2, exE 3 4]
  pos := fun u => match u with | 0 => (0, 0) | 1 => (9, -5) | 2 => (9, 50) | 3 => (0, -10) | _ => (100, -10)
  pl := ⟨fun u => if u = 0 then 1 else 0, [(1, 0)]⟩
  next := 5
  res := R.init _ _ _

theorem exSt_sane : Sane exSt := by
  refine ⟨by simp [exSt, exE], ?_, ?_, fun v r hr => by simp [exSt, R.init] at hr⟩
  · intro e he; simp [exSt] at he; rcases he with rfl | rfl <;> decide
  · intro e he; simp [exSt] at he; rcases he with rfl | rfl <;> decide

/-- The station is placed on both tracks. -/
example : (snapStats exEnv [10] [0] exSt).es.map (fun e => (e.src, e.dst)) = [(1, 5), (5, 2), (3, 6), (6, 4)] ∧
    ((snapStats exEnv [10] [0] exSt).pl.getSI 5, (snapStats exEnv [10] [0] exSt).pl.getSI 6) = (some (some (1, 0)), some (some (1, 0))) := by
  decide

example : ∃ u j, u < (snapStation exEnv 10 exSt 0).next ∧ (snapStation exEnv 10 exSt 0).pl.getSI u = some (some j) ∧ Tracked exEnv (1, 0) j ∧
    (u = 3 ∨ u = 4 ∨ ∃ x, (snapStation exEnv 10 exSt 0).pos u = near (0, -10) x (100, -10)) :=
  C73_covers exEnv (fun _ _ => .refl _) 10 exSt exSt_sane (fun u => by
      show (if u = 0 then 1 else 0) = 0 ∨ _
      by_cases h : u = 0
      · right; right; right; simp [exSt, h]
      · left; rw [if_neg h]) 0 (1, 0) (by decide) (by decide)
    (fun _ _ _ _ => rfl) (fun _ _ _ _ => rfl) (by decide) (exE 3 4) (by simp [exSt]) (by decide) (by decide)

theorem exSt_valid (u : Nat) : exSt.pl.si u = 0 ∨ exSt.pl.si u = u32max ∨ exSt.pl.si u = u32max - 1 ∨
    (1 ≤ exSt.pl.si u ∧ exSt.pl.si u ≤ exSt.pl.infos.length) := by
  show (if u = 0 then 1 else 0) = 0 ∨ _
  by_cases h : u = 0
  · right; right; right; simp [exSt, h]
  · left; rw [if_neg h]

example := C73_travel exEnv (fun _ _ => .refl _) [10] [0] exSt exSt_sane
example := C73_turns exEnv (fun _ _ => .refl _) [10] [0] exSt exSt_sane (fun _ _ => ⟨rfl, rfl⟩)
example := C73_stations_partial exEnv (fun _ _ => .refl _) [10] [0] exSt exSt_sane exSt_valid
  (fun o ho => by simp at ho; subst ho; exact ⟨by decide, (1, 0), by decide⟩) (by decide)

/-- C73 fails: a station is placed farther from its original than the distance it was searched with. The payload is moved to the first
edge (OsmBuilder.cpp:1327), and the next edges are projected from there. -/
theorem C73_negation_distance : ∃ (v : Env Pt (Nat × Nat) Unit Int) (st : St Pt (Nat × Nat) Unit) (d : Int) (o u : Nat),
    (∀ p l, (v.order p l).Perm l) ∧ Sane st ∧ o < st.next ∧
    (∀ d p a b, v.inRange d p a b = true ↔ dist2 p (v.proj a p b) ≤ d * d) ∧
    st.pl.getSI u = some none ∧ (∃ i, (snapStats v [d] [o] st).pl.getSI u = some (some i)) ∧
    ¬ dist2 ((snapStats v [d] [o] st).pos o) ((snapStats v [d] [o] st).pos u) ≤ d * d :=
  ⟨exEnv, exSt, 10, 0, 6, fun _ _ => .refl _, exSt_sane, by decide, fun d p a b => by simp [exEnv], by decide, ⟨(1, 0), by decide⟩, by decide⟩

/-- A station at (0,0) without track, one at (0,2) with track 7, and one track along x = 9. -/
def exTr : St Pt (Nat × Nat) Unit where
  es := [exE 1 2]
  pos := fun u => match u with | 0 => (0, 0) | 1 => (9, -50) | 2 => (9, 50) | _ => (9, 2)
  pl := ⟨fun u => if u = 0 then 1 else if u = 3 then 2 else 0, [(1, 0), (1, 7)]⟩
  next := 4
  res := R.init _ _ _

/-- The search finds the node that was placed first. -/
def exEnv2 : Env Pt (Nat × Nat) Unit Int :=
  { exEnv with eqS := fun st _ _ _ _ => if 4 < st.next then some 4 else none }

/-- C73 fails: the track of a station that is not near is filled in. The original shares its info with the nodes it was placed at. -/
theorem C73_negation_track : ∃ (v : Env Pt (Nat × Nat) Unit Int) (st : St Pt (Nat × Nat) Unit) (d : Int) (u o : Nat) (i j : Nat × Nat),
    (∀ p l, (v.order p l).Perm l) ∧ Sane st ∧ u < st.next ∧
    (∀ st' e s g d', v.eqS st' e s g d' ≠ some u) ∧ v.five (st.pos o) (st.pos u) = false ∧
    st.pl.getSI u = some (some i) ∧ (snapStats v [d] [u, o] st).pl.getSI u = some (some j) ∧ i.2 ≠ j.2 := by
  refine ⟨exEnv2, exTr, 10, 0, 3, (1, 0), (1, 7), fun _ _ => .refl _, ⟨by simp [exTr], ?_, ?_, fun v r hr => by simp [exTr, R.init] at hr⟩, by decide, ?_,
    by decide, by decide, by decide, by decide⟩
  · intro e he; simp [exTr] at he; subst he; decide
  · intro e he; simp [exTr] at he; subst he; decide
  · intro st' e s g d' h
    simp only [exEnv2] at h
    split at h
    · simp at h
    · cases h

/-- The track starts at a turning loop, and the station is beside it. -/
def exCyc : St Pt (Nat × Nat) Unit :=
  { exSt with
    es := [exE 1 2]
    pos := fun u => match u with | 0 => (0, 0) | 1 => (9, 0) | _ => (50, 0)
    pl := ⟨fun u => if u = 0 then 1 else if u = 1 then u32max - 1 else 0, [(1, 0)]⟩ }

/-- C73 fails: a place to turn around is lost when a station is placed there. -/
theorem C73_negation_turn_cycle : ∃ (v : Env Pt (Nat × Nat) Unit Int) (st : St Pt (Nat × Nat) Unit) (d : Int) (o u : Nat),
    (∀ p l, (v.order p l).Perm l) ∧ Sane st ∧ o < st.next ∧ u < st.next ∧
    st.pl.isTurnCycle u = true ∧ (snapStats v [d] [o] st).pl.isTurnCycle u = false := by
  refine ⟨exEnv, exCyc, 10, 0, 1, fun _ _ => .refl _, ⟨by simp [exCyc], ?_, ?_, fun v r hr => by simp [exCyc, exSt, R.init] at hr⟩, by decide, by decide,
    by decide, by decide⟩
  · intro e he; simp [exCyc] at he; subst he; decide
  · intro e he; simp [exCyc] at he; subst he; decide

end Verif.Snap
