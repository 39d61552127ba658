import Verif.Dists.Spec

/-!
# Distances in stop_times.txt (lemmas)
-/

namespace Verif.Dists
open Verif.Shapes (Str Widths)
open Verif.Out (StRow StopTime Trips)
open Verif.Content (Tables TripRow Env Matching lt_of_some)
open Verif.Result (Run St Done)

variable {A B D S X Y : Type}

def Sorted (l : List (StopTime D)) : Prop := l.Pairwise fun a b => a.seq < b.seq

theorem insertSt_ok (s : StopTime D) : ∀ (l l' : List (StopTime D)), Sorted l → insertSt s l = some l' → Sorted l' ∧ l'.Perm (s :: l)
  | [], l', _, h => by
    rw [insertSt] at h
    cases h
    exact ⟨List.pairwise_singleton .., .refl _⟩
  | x :: l, l', hs, h => by
    rw [insertSt] at h
    obtain ⟨hx, hl⟩ := List.pairwise_cons.mp hs
    by_cases h1 : s.seq < x.seq
    · rw [if_pos h1] at h
      cases h
      refine ⟨List.pairwise_cons.mpr ⟨?_, hs⟩, .refl _⟩
      intro b hb
      rcases List.mem_cons.mp hb with hb | hb
      · rw [hb]; exact h1
      · exact Int.lt_trans h1 (hx b hb)
    · rw [if_neg h1] at h
      by_cases h2 : x.seq < s.seq
      · rw [if_pos h2] at h
        obtain ⟨m, hm, rfl⟩ := Option.map_eq_some_iff.mp h
        obtain ⟨e1, e2⟩ := insertSt_ok s l m hl hm
        refine ⟨List.pairwise_cons.mpr ⟨?_, e1⟩, (e2.cons x).trans (.swap ..)⟩
        intro b hb
        rcases List.mem_cons.mp (e2.mem_iff.mp hb) with hb | hb
        · rw [hb]; exact h2
        · exact hx b hb
      · rw [if_neg h2] at h
        cases h

/-- A row as a stop time. -/
def mem (r : StRow D S) : StopTime D := ⟨getSeq r.seq, r.dist⟩

theorem readTrip_ok : ∀ (rows : List (StRow D S)) (l l' : List (StopTime D)), Sorted l → readTrip rows l = some l' →
    Sorted l' ∧ l'.Perm (rows.map mem ++ l)
  | [], l, l', hs, h => by
    rw [readTrip] at h
    cases h
    exact ⟨hs, .refl _⟩
  | r :: rows, l, l', hs, h => by
    rw [readTrip] at h
    cases hi : insertSt ⟨getSeq r.seq, r.dist⟩ l with
    | none => rw [hi] at h; cases h
    | some m =>
      rw [hi] at h
      obtain ⟨e1, e2⟩ := insertSt_ok _ l m hs hi
      obtain ⟨e3, e4⟩ := readTrip_ok rows m l' e1 h
      refine ⟨e3, e4.trans ?_⟩
      exact ((List.Perm.refl _).append e2).trans List.perm_middle

/-- The place of a stop time. -/
theorem place_sorted : ∀ (l : List (StopTime D)), Sorted l → ∀ (p : Nat) s, l[p]? = some s → (l.filter fun x => x.seq < s.seq).length = p
  | [], _, p, s, h => by cases h
  | x :: l, hs, 0, s, h => by
    cases h
    obtain ⟨hx, _⟩ := List.pairwise_cons.mp hs
    rw [List.length_eq_zero_iff, List.filter_eq_nil_iff]
    intro b hb
    rcases List.mem_cons.mp hb with hb | hb
    · rw [hb]; simp
    · have := hx b hb; simp; omega
  | x :: l, hs, p + 1, s, h => by
    obtain ⟨hx, hl⟩ := List.pairwise_cons.mp hs
    have h : l[p]? = some s := h
    have := hx s (List.mem_of_getElem? h)
    rw [List.filter_cons_of_pos (by simpa using this), List.length_cons, place_sorted l hl p s h]

/-- `l'` has the stop times of `l` with the distances `ds`. -/
def SetTo (ds : List D) (l l' : List (StopTime D)) : Prop :=
  l'.map (·.seq) = l.map (·.seq) ∧ ∀ (p : Nat) s, l'[p]? = some s → ds[p]? = some s.dist

theorem setDists_ok : ∀ (ds : List D) (l : List (StopTime D)), l.length ≤ ds.length → ∃ l', setDists ds l = some l' ∧ SetTo ds l l'
  | ds, [], _ => ⟨[], by rw [setDists], rfl, fun p s h => by cases h⟩
  | [], _ :: _, h => by simp at h
  | d :: ds, s :: l, h => by
    obtain ⟨l', e, e1, e2⟩ := setDists_ok ds l (by simpa using h)
    refine ⟨{ s with dist := d } :: l', by rw [setDists, e]; rfl, by simp [e1], ?_⟩
    intro p x hx
    cases p with
    | zero => cases hx; rfl
    | succ p => exact e2 p x hx

theorem setAll_ok (ds : Nat → List D) : ∀ (ks : List Nat) (ts : List (List (StopTime D))),
    (∀ k ∈ ks, ∃ l, ts[k]? = some l ∧ l.length ≤ (ds k).length) →
    ∃ ts', setAll ds ks ts = some ts' ∧ ts'.length = ts.length ∧ (∀ (k : Nat), k ∉ ks → ts'[k]? = ts[k]?) ∧
      ∀ k ∈ ks, ∀ l, ts[k]? = some l → ∃ l', ts'[k]? = some l' ∧ SetTo (ds k) l l'
  | [], ts, _ => ⟨ts, rfl, rfl, fun _ _ => rfl, by simp⟩
  | k :: ks, ts, h => by
    obtain ⟨l, hl, hlen⟩ := h k (List.mem_cons_self ..)
    obtain ⟨l1, e1, s1, s2⟩ := setDists_ok (ds k) l hlen
    have hk := lt_of_some hl
    have hlen1 : l1.length = l.length := by have := congrArg List.length s1; simpa using this
    obtain ⟨ts', e2, e3, e4, e5⟩ := setAll_ok ds ks (ts.set k l1) (by
      intro k' hk'
      obtain ⟨m, hm, hmlen⟩ := h k' (List.mem_cons_of_mem _ hk')
      by_cases he : k = k'
      · subst he
        exact ⟨l1, by rw [List.getElem?_set_self hk], by omega⟩
      · exact ⟨m, by rw [List.getElem?_set_ne he]; exact hm, hmlen⟩)
    refine ⟨ts', by rw [setAll, hl]; simp only [e1]; exact e2, by simpa using e3, ?_, ?_⟩
    · intro k' hk'
      rw [List.mem_cons, not_or] at hk'
      rw [e4 k' hk'.2, List.getElem?_set_ne (Ne.symm hk'.1)]
    · intro k' hk' m hm
      by_cases hin : k' ∈ ks
      · by_cases he : k = k'
        · subst he
          rw [hl] at hm
          cases hm
          obtain ⟨l2, f1, f2, f3⟩ := e5 k hin l1 (by rw [List.getElem?_set_self hk])
          exact ⟨l2, f1, f2.trans s1, f3⟩
        · exact e5 k' hin m (by rw [List.getElem?_set_ne he]; exact hm)
      · rcases List.mem_cons.mp hk' with he | he
        · subst he
          rw [hl] at hm
          cases hm
          exact ⟨l1, by rw [e4 k' hin, List.getElem?_set_self hk], s1, s2⟩
        · exact absurd he hin

/-- The trips that are matched for a mode configuration. -/
def tripsOf (r : Run) : List Nat := r.jobs.flatMap fun j => j.flatMap (·.trips)

theorem mem_tripsOf {r : Run} {k : Nat} : k ∈ tripsOf r ↔ ∃ j ∈ r.jobs, ∃ l ∈ j, k ∈ l.trips := by
  simp only [tripsOf, List.mem_flatMap]

/-- What is known after all mode configurations. -/
theorem allTimes_ok (limit : Nat) (a : Bool) (n : Nat) : ∀ (rs : List (MRun D)) (s : St) (ts : List (List (StopTime D))),
    Done limit a n (rs.map (·.run)) s → (rs.flatMap fun r => tripsOf r.run).Nodup →
    (∀ (k : Nat) ds, Given rs k ds → ∃ l, ts[k]? = some l ∧ l.length ≤ ds.length) →
    ∃ ts', allTimes limit a n rs s ts = some ts' ∧ ts'.length = ts.length ∧
      (∀ (k : Nat), (¬ ∃ ds, Given rs k ds) → ts'[k]? = ts[k]?) ∧
      ∀ (k : Nat) ds, Given rs k ds → ∀ l, ts[k]? = some l → ∃ l', ts'[k]? = some l' ∧ SetTo ds l l'
  | [], s, ts, _, _, _ => ⟨ts, rfl, rfl, fun _ _ => rfl, fun k ds h => by obtain ⟨r, hr, _⟩ := h; cases hr⟩
  | r :: rs, s, ts, ⟨⟨d1, d2, d3⟩, d4⟩, hn, hg => by
    rw [List.flatMap_cons, List.nodup_append] at hn
    obtain ⟨_, hn2, hn3⟩ := hn
    have hset : ∀ k, k ∈ (Shapes.Workers.run (Result.workers limit a n r.run.jobs s) r.run.sched).setd ↔ k ∈ tripsOf r.run :=
      fun k => (Shapes.Workers.C45_each_job_once _ r.run.W d1 r.run.sched d2 d3).2.mem_iff
    obtain ⟨ts1, e1, e2, e3, e4⟩ := setAll_ok r.dists _ ts (fun k hk =>
      hg k _ ⟨r, List.mem_cons_self .., mem_tripsOf.mp ((hset k).mp hk), rfl⟩)
    have hlater : ∀ (k : Nat) ds, Given rs k ds → k ∉ tripsOf r.run := by
      rintro k ds ⟨r', hr', hj, _⟩ hk
      exact hn3 k hk k (List.mem_flatMap.mpr ⟨r', hr', mem_tripsOf.mpr hj⟩) rfl
    have hsame : ∀ (k : Nat) ds, Given rs k ds → ts1[k]? = ts[k]? := fun k ds h => e3 k fun h' => hlater k ds h ((hset k).mp h')
    obtain ⟨ts2, f1, f2, f3, f4⟩ := allTimes_ok limit a n rs (Result.after limit a n r.run s) ts1 d4 hn2 (by
      intro k ds h
      rw [hsame k ds h]
      obtain ⟨r', hr', h'⟩ := h
      exact hg k ds ⟨r', List.mem_cons_of_mem _ hr', h'⟩)
    refine ⟨ts2, by rw [allTimes, e1]; exact f1, f2.trans e2, ?_, ?_⟩
    · intro k hk
      rw [f3 k (fun ⟨ds, r', hr', h'⟩ => hk ⟨ds, r', List.mem_cons_of_mem _ hr', h'⟩), e3 k]
      intro h'
      exact hk ⟨_, r, List.mem_cons_self .., mem_tripsOf.mp ((hset k).mp h'), rfl⟩
    · rintro k ds ⟨r', hr', hj, he⟩ l hl
      rcases List.mem_cons.mp hr' with hr' | hr'
      · subst hr'
        subst he
        obtain ⟨l', g1, g2⟩ := e4 k ((hset k).mpr (mem_tripsOf.mpr hj)) l hl
        refine ⟨l', ?_, g2⟩
        rw [f3 k (fun ⟨ds, h⟩ => hlater k ds h (mem_tripsOf.mpr hj))]
        exact g1
      · exact f4 k ds ⟨r', hr', hj, he⟩ l (by rw [hsame k ds ⟨r', hr', hj, he⟩]; exact hl)

/-- What is known after reading. -/
theorem readTimes_ok {trips : List (TripRow X)} {rows : List (StRow D S)} {ts : List (List (StopTime D))} (h : readTimes trips rows = some ts) :
    (∀ r ∈ rows, ∃ k : Nat, Content.pos (trips.map (·.id)) r.trip = some k) ∧ ts.length = trips.length ∧
      ∀ (k : Nat) t, trips[k]? = some t → ∃ l, ts[k]? = some l ∧ Sorted l ∧ l.Perm ((rows.filter fun r => r.trip = t.id).map mem) := by
  unfold readTimes at h
  by_cases ha : rows.all fun r => (Content.pos (trips.map (·.id)) r.trip).isSome
  · rw [if_pos ha] at h
    refine ⟨fun r hr => Option.isSome_iff_exists.mp (List.all_eq_true.mp ha r hr), ?_⟩
    clear ha
    induction trips generalizing ts with
    | nil => rw [Content.collect] at h; cases h; exact ⟨rfl, by simp⟩
    | cons t trips ih =>
      rw [Content.collect] at h
      cases h1 : readTrip (rows.filter fun r => r.trip = t.id) [] with
      | none => rw [h1] at h; cases h
      | some l =>
        rw [h1] at h
        dsimp only at h
        obtain ⟨ts', h2, rfl⟩ := Option.map_eq_some_iff.mp h
        obtain ⟨e1, e2⟩ := ih h2
        refine ⟨by simp [e1], ?_⟩
        intro k t' ht
        cases k with
        | zero =>
          cases ht
          have := readTrip_ok _ _ _ List.Pairwise.nil h1
          exact ⟨l, rfl, this.1, by simpa using this.2⟩
        | succ k => exact e2 k t' ht
  · rw [if_neg ha] at h
    cases h

end Verif.Dists
