import Verif.Trie.Lemmas

namespace Verif.Trie
variable {T P A : Type}

theorem time_arr (start : Int) (s : StopTime P) :
    Ev.time start ⟨s, true⟩ = relTime start s.arr := by
  simp only [Ev.time, if_true]; cases s.arr <;> rfl

theorem time_dep (start : Int) (s : StopTime P) :
    Ev.time start ⟨s, false⟩ = relTime start s.dep := by
  simp only [Ev.time]; simp; cases s.dep <;> rfl

theorem Fits.ext {env : Env T P A} {nds nds' : List (Nd P A)} (h : Ext nds nds') {tx start k e}
    (f : Fits env nds tx start k e) : Fits env nds' tx start k e := by
  obtain ⟨n, h1, h2, h3, h4, h5, h6⟩ := f
  obtain ⟨n', g, s1, s2, s3, s4, s5, _⟩ := h _ _ h1
  exact ⟨n', g, by rw [s1, h2], by rw [s2, h3], by rw [s3, h4], by rw [s5, h5], fun t => by rw [s4, h6 t]⟩

/-- What one walk adds to the statistics of node `i`. -/
def gain (a : A) (start : Int) (ids : List Nat) (es : List (Ev P)) (i : Nat) : List (A × Int) :=
  (ids.zip es).filterMap fun (k, e) => if k = i then some (a, e.time start) else none

structure WalkI (env : Env T P A) (tx : Bool) (a : A) (start : Int) (es : List (Ev P))
    (nds : List (Nd P A)) (cur : Nat) (nds' : List (Nd P A)) (c : Nat) (ids : List Nat) : Prop where
  len : ids.length = es.length
  wf : WF nds'
  ext : Ext nds nds'
  lt : c < nds'.length
  path : pathOf nds' c = pathOf nds cur ++ ids
  fits : ∀ p ∈ ids.zip es, Fits env nds' tx start p.1 p.2
  stat : ∀ H, Stat env nds H → Stat env nds' fun i => H i ++ gain a start ids es i

def Walk (env : Env T P A) (tx : Bool) (a : A) (start : Int) (es : List (Ev P))
    (nds : List (Nd P A)) (cur : Nat) (nds' : List (Nd P A)) (c : Nat) : Prop :=
  ∃ ids, WalkI env tx a start es nds cur nds' c ids

theorem Walk.nil (env : Env T P A) (tx a start) {nds : List (Nd P A)} (w : WF nds) {cur}
    (h : cur < nds.length) : Walk env tx a start [] nds cur nds cur :=
  ⟨[], rfl, w, Ext.refl _, h, by simp, by simp, fun H s => by simpa [gain] using s⟩

theorem Walk.append {env : Env T P A} {tx a start es1 es2} {n0 n1 n2 : List (Nd P A)} {c0 c1 c2}
    (h : Walk env tx a start es1 n0 c0 n1 c1) (g : Walk env tx a start es2 n1 c1 n2 c2) :
    Walk env tx a start (es1 ++ es2) n0 c0 n2 c2 := by
  obtain ⟨i1, h⟩ := h
  obtain ⟨i2, g⟩ := g
  refine ⟨i1 ++ i2, by simp [h.len, g.len], g.wf, h.ext.trans g.ext, g.lt, ?_, ?_, ?_⟩
  · rw [g.path, h.path, List.append_assoc]
  · intro p hp
    rw [List.zip_append h.len] at hp
    rcases List.mem_append.mp hp with hp | hp
    · exact (h.fits p hp).ext g.ext
    · exact g.fits p hp
  · intro H s
    have := g.stat _ (h.stat H s)
    simpa only [gain, List.zip_append h.len, List.filterMap_append, List.append_assoc] using this

theorem Visited.lt {env : Env T P A} {tx a st time arr nds cur nds' c}
    (v : Visited env tx a st time arr nds cur nds' c) : c < nds'.length := by
  obtain ⟨n, h, _⟩ := v.fit
  exact lt_of_get h

theorem Visited.next {env : Env T P A} {tx a st time arr nds cur nds' c}
    (v : Visited env tx a st time arr nds cur nds' c) : nextArr nds' c = !arr := by
  obtain ⟨n, h, _, _, h2⟩ := v.fit
  simp [nextArr, v.c0, h, h2]

theorem Visited.walk {env : Env T P A} {tx a start} {e : Ev P} {nds : List (Nd P A)} {cur nds' c}
    (w : WF nds) (hc : cur < nds.length)
    (v : Visited env tx a e.st (e.time start) e.arr nds cur nds' c) :
    Walk env tx a start [e] nds cur nds' c := by
  obtain ⟨n, h, h1, h2, h3⟩ := v.fit
  refine ⟨[c], rfl, v.wf, v.ext, v.lt, ?_, ?_, ?_⟩
  · rw [pathOf_pos v.wf v.c0 h, h1, pathOf_ext w v.wf v.ext cur hc]
  · intro p hp
    simp only [List.zip_cons_cons, List.zip_nil_left, List.mem_singleton] at hp
    subst hp
    rw [matchNd_iff] at h2
    exact ⟨n, h, h2.1, h2.2.1, h2.2.2.1, h3, h2.2.2.2⟩
  · intro H s
    have := v.stat H s
    have e1 : (fun i => if i = c then H i ++ [(a, e.time start)] else H i) =
        fun i => H i ++ gain a start [c] [e] i := by
      funext i
      by_cases h : i = c
      · subst h; simp [gain]
      · simp [gain, h, Ne.symm h]
    rw [e1] at this
    exact this

theorem addLoop_next (env : Env T P A) (hnear : ∀ p, env.near p p = true) (tx a start filed) :
    ∀ (rest : List (StopTime P)) (s : StopTime P) (nds : List (Nd P A)) (cur : Nat),
      WF nds → cur < nds.length → nextArr nds cur = true →
      ∃ nds' c, addLoop env tx a start filed false (s :: rest) nds cur = some (true, nds', c) ∧
        Walk env tx a start (⟨s, true⟩ :: spell (s :: rest)) nds cur nds' c := by
  intro rest
  induction rest with
  | nil =>
    intro s nds cur w hc ha
    rcases visit_spec env hnear tx a false s (relTime start s.arr) true w hc ha.symm with
      ⟨_, h⟩ | ⟨nds', c, h, v⟩
    · cases h
    · refine ⟨nds', c, ?_, Visited.walk (e := ⟨s, true⟩) w hc (time_arr start s ▸ v)⟩
      simp [addLoop, h]
  | cons s' rest ih =>
    intro s nds cur w hc ha
    rcases visit_spec env hnear tx a false s (relTime start s.arr) true w hc ha.symm with
      ⟨_, h⟩ | ⟨n1, c1, h, v⟩
    · cases h
    · rcases visit_spec env hnear tx a false s (relTime start s.dep) false v.wf v.lt
        (by rw [v.next]; rfl) with ⟨_, h'⟩ | ⟨n2, c2, h', v'⟩
      · cases h'
      · obtain ⟨n3, c3, g, wk⟩ := ih s' n2 c2 v'.wf v'.lt (by rw [v'.next]; rfl)
        refine ⟨n3, c3, ?_, ?_⟩
        · rw [addLoop]
          simp [h, h', g]
        · exact (Visited.walk (e := ⟨s, true⟩) w hc (time_arr start s ▸ v)).append
            ((Visited.walk (e := ⟨s, false⟩) v.wf v.lt (time_dep start s ▸ v')).append wk)

theorem addLoop_first (env : Env T P A) (hnear : ∀ p, env.near p p = true) (tx a start filed)
    (s : StopTime P) (rest : List (StopTime P)) (nds : List (Nd P A)) (w : WF nds) :
    (addLoop env tx a start filed true (s :: rest) nds 0 = some (false, nds, 0) ∧ filed = true) ∨
    ∃ nds' c, addLoop env tx a start filed true (s :: rest) nds 0 = some (true, nds', c) ∧
      Walk env tx a start (spell (s :: rest)) nds 0 nds' c := by
  cases rest with
  | nil => exact Or.inr ⟨nds, 0, rfl, Walk.nil env tx a start w w.pos⟩
  | cons s' rest =>
    rcases visit_spec env hnear tx a filed s (relTime start s.dep) false w w.pos (by simp [nextArr]) with
      ⟨h, hf⟩ | ⟨n1, c1, h, v⟩
    · left
      refine ⟨?_, hf⟩
      rw [addLoop]; simp [h]
    · right
      obtain ⟨n3, c3, g, wk⟩ := addLoop_next env hnear tx a start filed rest s' n1 c1 v.wf v.lt
        (by rw [v.next]; rfl)
      refine ⟨n3, c3, ?_, ?_⟩
      · rw [addLoop]; simp [h, g]
      · exact (Visited.walk (e := ⟨s, false⟩) w w.pos (time_dep start s ▸ v)).append wk

/-! ### lookup -/

structure Seen (env : Env T P A) (tx : Bool) (start : Int) (es : List (Ev P)) (nds : List (Nd P A))
    (cur c : Nat) : Prop where
  lt : c < nds.length
  ex : ∃ ids : List Nat, ids.length = es.length ∧ pathOf nds c = pathOf nds cur ++ ids ∧
    ∀ p ∈ ids.zip es, Fits env nds tx start p.1 p.2

theorem Seen.append {env : Env T P A} {tx start es1 es2} {nds : List (Nd P A)} {c0 c1 c2}
    (h : Seen env tx start es1 nds c0 c1) (g : Seen env tx start es2 nds c1 c2) :
    Seen env tx start (es1 ++ es2) nds c0 c2 := by
  obtain ⟨i1, h1, h2, h3⟩ := h.ex
  obtain ⟨i2, g1, g2, g3⟩ := g.ex
  refine ⟨g.lt, i1 ++ i2, by simp [h1, g1], by rw [g2, h2, List.append_assoc], ?_⟩
  intro p hp
  rw [List.zip_append h1] at hp
  rcases List.mem_append.mp hp with hp | hp
  · exact h3 p hp
  · exact g3 p hp

theorem lookup_step (env : Env T P A) (tx start) {nds : List (Nd P A)} (w : WF nds) (e : Ev P) {cur}
    (hc : cur < nds.length) (ha : nextArr nds cur = e.arr) :
    ∃ c, getMatchChild env tx e.st (e.time start) nds cur = some c ∧
      (c ≠ 0 → Seen env tx start [e] nds cur c ∧ nextArr nds c = !e.arr) := by
  obtain ⟨c, h1, h2⟩ := getMatchChild_spec env tx e.st (e.time start) w hc
  refine ⟨c, h1, fun h0 => ?_⟩
  obtain ⟨n, hn, hp, hm⟩ := h2 h0
  have harr : n.arr = e.arr := by
    cases c with
    | zero => exact absurd rfl h0
    | succ c => rw [w.alt c n hn, hp, ha]
  rw [matchNd_iff] at hm
  refine ⟨⟨lt_of_get hn, [c], rfl, by rw [pathOf_pos w h0 hn, hp], ?_⟩, by simp [nextArr, h0, hn, harr]⟩
  intro p hp
  simp only [List.zip_cons_cons, List.zip_nil_left, List.mem_singleton] at hp
  subst hp
  exact ⟨n, hn, hm.1, hm.2.1, hm.2.2.1, harr, hm.2.2.2⟩

theorem getLoop_next (env : Env T P A) (tx start) {nds : List (Nd P A)} (w : WF nds) :
    ∀ (rest : List (StopTime P)) (s : StopTime P) (cur : Nat), cur < nds.length →
      nextArr nds cur = true →
      ∃ c, getLoop env tx start nds false (s :: rest) cur = some c ∧
        (c ≠ 0 → Seen env tx start (⟨s, true⟩ :: spell (s :: rest)) nds cur c) := by
  intro rest
  induction rest with
  | nil =>
    intro s cur hc ha
    obtain ⟨c, h1, h2⟩ := lookup_step env tx start w ⟨s, true⟩ hc ha
    simp only [time_arr] at h1
    by_cases h0 : c = 0
    · subst h0; exact ⟨0, by simp [getLoop, h1], by simp⟩
    · exact ⟨c, by simp [getLoop, h1, h0], fun _ => (h2 h0).1⟩
  | cons s' rest ih =>
    intro s cur hc ha
    obtain ⟨c, h1, h2⟩ := lookup_step env tx start w ⟨s, true⟩ hc ha
    simp only [time_arr] at h1
    by_cases h0 : c = 0
    · subst h0; exact ⟨0, by rw [getLoop]; simp [h1], by simp⟩
    · obtain ⟨sn, nx⟩ := h2 h0
      obtain ⟨c', h1', h2'⟩ := lookup_step env tx start w ⟨s, false⟩ sn.lt nx
      simp only [time_dep] at h1'
      by_cases h0' : c' = 0
      · subst h0'
        exact ⟨0, by rw [getLoop]; simp [h1, h0]; simp [h1'], by simp⟩
      · obtain ⟨sn', nx'⟩ := h2' h0'
        obtain ⟨c'', g1, g2⟩ := ih s' c' sn'.lt nx'
        refine ⟨c'', ?_, fun h => sn.append (sn'.append (g2 h))⟩
        rw [getLoop]; simp [h1, h0]; simp [h1', h0', g1]

theorem getLoop_first (env : Env T P A) (tx start) {nds : List (Nd P A)} (w : WF nds)
    (s : StopTime P) (rest : List (StopTime P)) :
    ∃ c, getLoop env tx start nds true (s :: rest) 0 = some c ∧
      (c ≠ 0 → Seen env tx start (spell (s :: rest)) nds 0 c) := by
  cases rest with
  | nil => exact ⟨0, rfl, by simp⟩
  | cons s' rest =>
    obtain ⟨c', h1', h2'⟩ := lookup_step env tx start w ⟨s, false⟩ w.pos (by simp [nextArr])
    simp only [time_dep] at h1'
    by_cases h0' : c' = 0
    · subst h0'
      exact ⟨0, by rw [getLoop]; simp [h1'], by simp⟩
    · obtain ⟨sn', nx'⟩ := h2' h0'
      obtain ⟨c'', g1, g2⟩ := getLoop_next env tx start w rest s' c' sn'.lt nx'
      refine ⟨c'', ?_, fun h => sn'.append (g2 h)⟩
      rw [getLoop]; simp [h1', h0', g1]

/-! ### histories -/

theorem spell_length (l : List (StopTime P)) : (spell l).length = 2 * (l.length - 1) := by
  match l with
  | [] => rfl
  | [_] => rfl
  | s :: s' :: rest =>
    have := spell_length (s' :: rest)
    simp only [spell, List.length_cons] at *
    omega

def normal (log : List (Op T A × Nat)) : List (Op T A × Nat) := log.filter fun p => !p.1.degen

def Hist (env : Env T P A) (nds : List (Nd P A)) (log : List (Op T A × Nat)) (i : Nat) :
    List (A × Int) := (hits env nds (normal log) i).map fun p => (p.1.a, p.2)

structure Inv [DecidableEq T] (env : Env T P A) (tr : Trie T P A) (log : List (Op T A × Nat)) : Prop where
  wf : WF tr.nds
  lt : ∀ p ∈ log, p.2 < tr.nds.length
  spells : ∀ p ∈ log, Spells env tr.nds p.1 p.2
  stat : Stat env tr.nds (Hist env tr.nds log)
  ndTrips : ∀ j, tr.ndTrips j = (log.filter fun p => p.2 = j).map (·.1.t)
  tripNds : tr.tripNds = log.foldl (fun m p => assign m p.1.t p.2) []

theorem Spells.ext {env : Env T P A} {nds nds' : List (Nd P A)} (w : WF nds) (w' : WF nds')
    (h : Ext nds nds') {op nid} (hn : nid < nds.length) (s : Spells env nds op nid) :
    Spells env nds' op nid := by
  unfold Spells
  rw [pathOf_ext w w' h nid hn]
  exact ⟨s.1, fun p hp => (s.2 p hp).ext h⟩

theorem flatMap_congr' {α β : Type} {l : List α} {f g : α → List β} (h : ∀ x ∈ l, f x = g x) :
    l.flatMap f = l.flatMap g := by
  induction l with
  | nil => rfl
  | cons x l ih =>
    simp only [List.flatMap_cons]
    rw [h x (by simp), ih fun y hy => h y (by simp [hy])]

theorem hits_ext {env : Env T P A} {nds nds' : List (Nd P A)} (w : WF nds) (w' : WF nds')
    (h : Ext nds nds') {log : List (Op T A × Nat)} (hl : ∀ p ∈ log, p.2 < nds.length) (i) :
    hits env nds' log i = hits env nds log i := by
  unfold hits
  apply flatMap_congr'
  intro ⟨op, nid⟩ hp
  simp only
  rw [pathOf_ext w w' h nid (hl _ hp)]

theorem Inv.empty [DecidableEq T] (env : Env T P A) : Inv env (Trie.empty env) [] := by
  constructor
  · constructor
    · simp [Trie.empty]
    · intro i n h; simp [Trie.empty] at h
    · intro i n c h hc
      cases i with
      | zero => simp [Trie.empty] at h; subst h; simp at hc
      | succ i => simp [Trie.empty] at h
    · intro i n h; simp [Trie.empty] at h
    · intro i n h; simp [Trie.empty] at h
    · intro i n h
      cases i with
      | zero => simp [Trie.empty] at h; subst h; simp
      | succ i => simp [Trie.empty] at h
  · simp
  · simp
  · refine ⟨?_, by simp [Hist, hits, normal], by simp [Hist, hits, normal]⟩
    intro i n h0 h
    cases i with
    | zero => exact absurd rfl h0
    | succ i => simp [Trie.empty] at h
  · simp [Trie.empty]
  · simp [Trie.empty]

/-- The effect of one call. -/
structure Filed [DecidableEq T] (env : Env T P A) (tr : Trie T P A) (log : List (Op T A × Nat)) (op : Op T A)
    (tr' : Trie T P A) (nid : Nat) : Prop where
  inv : Inv env tr' (log ++ [(op, nid)])
  ext : Ext tr.nds tr'.nds
  tripNds : tr'.tripNds = assign tr.tripNds op.t nid
  ndTrips : tr'.ndTrips = fun i => if i = nid then tr.ndTrips i ++ [op.t] else tr.ndTrips i
  leaf : op.degen = true → tr'.nds = tr.nds ∧ ∃ n, tr.nds[nid]? = some n ∧ n.childs = []

theorem addTrip_spec [DecidableEq T] (env : Env T P A) (hnear : ∀ p, env.near p p = true)
    {tr : Trie T P A} {log} (I : Inv env tr log) (op : Op T A) :
    (tr.addTrip env op.t op.a op.timeEx op.degen = some (false, tr) ∧
      (env.stops op.t = [] ∨ op.degen = true ∨ tr.tripNds ≠ [])) ∨
    ∃ tr' nid, tr.addTrip env op.t op.a op.timeEx op.degen = some (true, tr') ∧
      Filed env tr log op tr' nid := by
  have fnd : ∀ nid j, (if j = nid then tr.ndTrips j ++ [op.t] else tr.ndTrips j) =
      ((log ++ [(op, nid)]).filter fun p => p.2 = j).map (·.1.t) := by
    intro nid j
    rw [List.filter_append, List.map_append, ← I.ndTrips j]
    by_cases h : j = nid
    · subst h; simp
    · simp [h, Ne.symm h]
  cases hd : op.degen with
  | true =>
    simp only [Trie.addTrip, if_true, Trie.get]
    cases hs : env.stops op.t with
    | nil => left; simp
    | cons s rest =>
      obtain ⟨c, h1, h2⟩ := getLoop_first env op.timeEx (startGet env (s :: rest)) I.wf s rest
      by_cases h0 : c = 0
      · subst h0; left; simp [h1]
      · obtain ⟨sl, ids, i1, i2, i3⟩ := h2 h0
        obtain ⟨n, hn⟩ := get_of_lt sl
        by_cases hc : n.childs.length = 0
        · right
          refine ⟨tr.file op.t c, c, by simp [h1, h0, hn, hc], ?_⟩
          refine ⟨?_, Ext.refl _, rfl, rfl, fun _ => ⟨rfl, n, hn, List.length_eq_zero_iff.mp hc⟩⟩
          have hst : op.start env = startGet env (s :: rest) := by
            simp only [Op.start, hd, hs, startGet]; cases hdep : s.dep <;> simp [hdep]
          constructor
          · exact I.wf
          · intro p hp
            rcases List.mem_append.mp hp with hp | hp
            · exact I.lt p hp
            · simp only [List.mem_singleton] at hp; subst hp; exact sl
          · intro p hp
            rcases List.mem_append.mp hp with hp | hp
            · exact I.spells p hp
            · simp only [List.mem_singleton] at hp; subst hp
              simp only [pathOf_zero, List.nil_append] at i2
              refine ⟨?_, ?_⟩
              · show (pathOf tr.nds c).length = _
                rw [i2, i1, spell_length, hs]
              · show ∀ p ∈ (pathOf tr.nds c).zip (spell (env.stops op.t)), _
                rw [i2, hs, hst]; exact i3
          · have : normal (log ++ [(op, c)]) = normal log := by simp [normal, List.filter_append, hd]
            unfold Hist
            rw [this]
            exact I.stat
          · exact fnd c
          · simp [Trie.file, List.foldl_append, I.tripNds]
        · left
          simp [h1, h0, hn]
          intro h; simp [h] at hc
  | false =>
    simp only [Trie.addTrip, Trie.add]
    cases hs : env.stops op.t with
    | nil => left; simp
    | cons s rest =>
      rcases addLoop_first env hnear op.timeEx op.a (startAdd (s :: rest))
        (decide (tr.tripNds.length > 0)) s rest tr.nds I.wf with ⟨h, hf⟩ | ⟨nds', c, h, ids, wk⟩
      · left
        simp only [decide_eq_true_eq] at hf
        refine ⟨by simp [h], ?_⟩
        right; right; intro h; simp [h] at hf
      · right
        refine ⟨Trie.file { tr with nds := nds' } op.t c, c, by simp [h], ?_⟩
        refine ⟨?_, wk.ext, rfl, rfl, fun h => by rw [hd] at h; cases h⟩
        have hst : op.start env = startAdd (s :: rest) := by
            simp only [Op.start, hd, hs, startAdd]; cases hdep : s.dep <;> simp [hdep]
        have hpath : pathOf nds' c = ids := by simpa [pathOf_zero] using wk.path
        have hle := wk.ext.length
        constructor
        · exact wk.wf
        · intro p hp
          rcases List.mem_append.mp hp with hp | hp
          · exact Nat.lt_of_lt_of_le (I.lt p hp) hle
          · simp only [List.mem_singleton] at hp; subst hp; exact wk.lt
        · intro p hp
          rcases List.mem_append.mp hp with hp | hp
          · exact (I.spells p hp).ext I.wf wk.wf wk.ext (I.lt p hp)
          · simp only [List.mem_singleton] at hp; subst hp
            refine ⟨?_, ?_⟩
            · show (pathOf nds' c).length = _
              rw [hpath, wk.len, spell_length, hs]
            · show ∀ p ∈ (pathOf nds' c).zip (spell (env.stops op.t)), _
              rw [hpath, hs, hst]; exact wk.fits
        · have := wk.stat _ I.stat
          show Stat env nds' (Hist env nds' (log ++ [(op, c)]))
          have e1 : (fun i => Hist env tr.nds log i ++ gain op.a (startAdd (s :: rest)) ids (spell (s :: rest)) i)
              = Hist env nds' (log ++ [(op, c)]) := by
            funext i
            have hn : normal (log ++ [(op, c)]) = normal log ++ [(op, c)] := by
              simp [normal, List.filter_append, hd]
            unfold Hist
            rw [hn]
            have : hits env nds' (normal log ++ [(op, c)]) i =
                hits env nds' (normal log) i ++ hits env nds' [(op, c)] i := by
              simp [hits, List.flatMap_append]
            rw [this, hits_ext (log := normal log) I.wf wk.wf wk.ext (fun p hp => I.lt p (List.mem_filter.mp hp).1),
              List.map_append]
            congr 1
            simp only [hits, gain, List.flatMap_cons, List.flatMap_nil, List.append_nil, hpath, hs, hst,
              List.map_filterMap]
            congr 1
            funext ⟨k, e⟩
            by_cases h : k = i <;> simp [h]
          rw [← e1]; exact this
        · exact fnd c
        · simp [Trie.file, List.foldl_append, I.tripNds]

theorem lookup_assign [DecidableEq T] (m : List (T × Nat)) (t : T) (v : Nat) :
    (assign m t v).lookup t = some v := by simp [assign]

theorem lookup_assign_ne [DecidableEq T] (m : List (T × Nat)) {t t' : T} (h : t' ≠ t) (v : Nat) :
    (assign m t v).lookup t' = m.lookup t' := by
  have hb : (t' == t) = false := by simp [h]
  simp only [assign, List.lookup, hb]
  simp only [ne_eq, decide_not]
  induction m with
  | nil => rfl
  | cons p m ih =>
    obtain ⟨k, x⟩ := p
    by_cases hk : k = t
    · subst hk
      simp [List.lookup, hb, ih]
    · by_cases hk' : t' = k
      · subst hk'; simp [List.lookup, h]
      · have : (t' == k) = false := by simp [hk']
        simp [List.lookup, hk, this, ih]

theorem run_spec [DecidableEq T] (env : Env T P A) (hnear : ∀ p, env.near p p = true) :
    ∀ (ops : List (Op T A)) (tr : Trie T P A) (log), Inv env tr log →
      ∃ tr' log', run env ops (tr, log) = some (tr', log') ∧ Inv env tr' log' ∧ Ext tr.nds tr'.nds ∧
        ∃ ext, log' = log ++ ext ∧ ∀ p ∈ ext, p.1 ∈ ops := by
  intro ops
  induction ops with
  | nil => intro tr log I; exact ⟨tr, log, rfl, I, Ext.refl _, [], by simp, by simp⟩
  | cons op ops ih =>
    intro tr log I
    rcases addTrip_spec env hnear I op with ⟨h, _⟩ | ⟨tr1, nid, h, F⟩
    · obtain ⟨tr', log', g1, g2, g3, ext, g4, g5⟩ := ih tr log I
      exact ⟨tr', log', by simp [run, h, g1], g2, g3, ext, g4, fun p hp => by simp [g5 p hp]⟩
    · obtain ⟨tr', log', g1, g2, g3, ext, g4, g5⟩ := ih tr1 _ F.inv
      refine ⟨tr', log', ?_, g2, F.ext.trans g3, (op, nid) :: ext, by simp [g4], ?_⟩
      · simp only [run, h, F.tripNds, lookup_assign]
        exact g1
      · intro p hp
        rcases List.mem_cons.mp hp with rfl | hp
        · simp
        · simp [g5 p hp]

end Verif.Trie
