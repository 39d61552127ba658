import Verif.Intake.Spec
import Verif.Dists.Props
import Verif.Content.Lemmas

namespace Verif.Intake
open Verif.Shapes (Str)
open Verif.Out (StRow)
open Verif.Content (Tables TripRow)
open Verif.Trie (CEnv)

variable {A B X Z S P D K : Type}

abbrev St (P : Type) := Int × Trie.StopTime P

def Sorted (l : List (St P)) : Prop := l.Pairwise fun a b => a.1 < b.1

theorem insert_ok (s : St P) : ∀ (l l' : List (St P)), Sorted l → insert s l = some l' → Sorted l' ∧ l'.Perm (s :: l)
  | [], l', _, h => by
    cases h
    exact ⟨List.pairwise_singleton .., .refl _⟩
  | x :: l, l', hs, h => by
    obtain ⟨hx, hl⟩ := List.pairwise_cons.mp hs
    rw [insert] at h
    by_cases h1 : s.1 < x.1
    · rw [if_pos h1] at h
      cases h
      refine ⟨List.pairwise_cons.mpr ⟨?_, hs⟩, .refl _⟩
      intro b hb
      rcases List.mem_cons.mp hb with rfl | hb
      · exact h1
      · exact Int.lt_trans h1 (hx b hb)
    · rw [if_neg h1] at h
      by_cases h2 : x.1 < s.1
      · rw [if_pos h2] at h
        obtain ⟨m, hm, rfl⟩ := Option.map_eq_some_iff.mp h
        obtain ⟨e1, e2⟩ := insert_ok s l m hl hm
        refine ⟨List.pairwise_cons.mpr ⟨?_, e1⟩, (e2.cons x).trans (.swap ..)⟩
        intro b hb
        rcases List.mem_cons.mp (e2.mem_iff.mp hb) with hb | hb
        · rw [hb]; exact h2
        · exact hx b hb
      · rw [if_neg h2] at h
        cases h

/-- It fails only if there is one with this number. -/
theorem insert_none (s : St P) : ∀ (l : List (St P)), (∀ x ∈ l, x.1 ≠ s.1) → insert s l ≠ none
  | [], _ => by intro h; cases h
  | x :: l, h => by
    rw [insert]
    by_cases h1 : s.1 < x.1
    · rw [if_pos h1]; intro h; cases h
    · rw [if_neg h1]
      have := h x (List.mem_cons_self ..)
      rw [if_pos (by omega)]
      intro e
      exact insert_none s l (fun y hy => h y (List.mem_cons_of_mem _ hy)) (Option.map_eq_none_iff.mp e)

/-- A row as a stop time. -/
def rd (f : Fields A X S) (stops : List (StopRow P)) (r : StRow D S) : Option (St P) := (stopTime f stops r).map fun s => (Dists.getSeq r.seq, s)

theorem rd_some {f : Fields A X S} {stops : List (StopRow P)} {r : StRow D S} {s : St P} (h : rd f stops r = some s) :
    s.1 = Dists.getSeq r.seq ∧ ∃ x ∈ stops, x.id = f.stop r.rest ∧ s.2 = ⟨x.name, x.platform, x.pos, f.arr r.rest, f.dep r.rest⟩ := by
  obtain ⟨s', h', rfl⟩ := Option.map_eq_some_iff.mp h
  refine ⟨rfl, ?_⟩
  unfold stopTime at h'
  cases hp : Content.pos (stops.map (·.id)) (f.stop r.rest) with
  | none => rw [hp] at h'; cases h'
  | some j =>
    rw [hp] at h'
    obtain ⟨x, hx, e⟩ := Option.map_eq_some_iff.mp h'
    have := Content.pos_some hp
    rw [List.getElem?_map, hx] at this
    exact ⟨x, List.mem_of_getElem? hx, Option.some.inj this, e.symm⟩

theorem rd_of {f : Fields A X S} {stops : List (StopRow P)} {r : StRow D S} (h : ∃ s ∈ stops, s.id = f.stop r.rest) : ∃ s, rd f stops r = some s := by
  obtain ⟨s, hs, e⟩ := h
  obtain ⟨j, hj⟩ := Content.pos_mem (e ▸ List.mem_map_of_mem hs : f.stop r.rest ∈ stops.map (·.id))
  have := Content.pos_some hj
  rw [List.getElem?_map] at this
  obtain ⟨x, hx, _⟩ := Option.map_eq_some_iff.mp this
  refine ⟨(Dists.getSeq r.seq, ⟨x.name, x.platform, x.pos, f.arr r.rest, f.dep r.rest⟩), ?_⟩
  unfold rd stopTime
  rw [hj]
  dsimp only
  rw [hx]
  rfl

theorem readTrip_ok {f : Fields A X S} {stops : List (StopRow P)} : ∀ (rows : List (StRow D S)) (l l' : List (St P)), Sorted l →
    readTrip f stops rows l = some l' → Sorted l' ∧ l'.Perm (rows.filterMap (rd f stops) ++ l) ∧ ∀ r ∈ rows, ∃ s, rd f stops r = some s
  | [], l, l', hs, h => by
    cases h
    exact ⟨hs, .refl _, by simp⟩
  | r :: rows, l, l', hs, h => by
    rw [readTrip] at h
    cases h1 : stopTime f stops r with
    | none => rw [h1] at h; cases h
    | some s =>
      rw [h1] at h
      dsimp only at h
      cases h2 : insert (Dists.getSeq r.seq, s) l with
      | none => rw [h2] at h; cases h
      | some m =>
        rw [h2] at h
        obtain ⟨e1, e2⟩ := insert_ok _ l m hs h2
        obtain ⟨e3, e4, e5⟩ := readTrip_ok rows m l' e1 h
        have hr : rd f stops r = some (Dists.getSeq r.seq, s) := by rw [rd, h1]; rfl
        refine ⟨e3, ?_, ?_⟩
        · rw [List.filterMap_cons_some (f := rd f stops) hr]
          exact e4.trans (((List.Perm.refl _).append e2).trans List.perm_middle)
        · intro q hq
          rcases List.mem_cons.mp hq with rfl | hq
          · exact ⟨_, hr⟩
          · exact e5 q hq

theorem readTrip_some {f : Fields A X S} {stops : List (StopRow P)} : ∀ (rows : List (StRow D S)) (l : List (St P)), Sorted l →
    (∀ r ∈ rows, ∃ s, rd f stops r = some s) → (∀ r ∈ rows, ∀ x ∈ l, x.1 ≠ Dists.getSeq r.seq) →
    rows.Pairwise (fun r r' => Dists.getSeq r.seq ≠ Dists.getSeq r'.seq) → ∃ l', readTrip f stops rows l = some l'
  | [], l, _, _, _, _ => ⟨l, rfl⟩
  | r :: rows, l, hs, h1, h2, h3 => by
    obtain ⟨s, hr⟩ := h1 r (List.mem_cons_self ..)
    obtain ⟨s', hs', rfl⟩ := Option.map_eq_some_iff.mp hr
    obtain ⟨h4, h5⟩ := List.pairwise_cons.mp h3
    rw [readTrip, hs']
    dsimp only
    cases hi : insert (Dists.getSeq r.seq, s') l with
    | none => exact absurd hi (insert_none _ l (h2 r (List.mem_cons_self ..)))
    | some m =>
      obtain ⟨e1, e2⟩ := insert_ok _ l m hs hi
      refine readTrip_some rows m e1 (fun q hq => h1 q (List.mem_cons_of_mem _ hq)) ?_ h5
      intro q hq x hx
      rcases List.mem_cons.mp (e2.mem_iff.mp hx) with rfl | hx
      · exact h4 q hq
      · exact h2 q (List.mem_cons_of_mem _ hq) x hx

theorem place_sorted : ∀ (l : List (St P)), Sorted l → ∀ (p : Nat) s, l[p]? = some s → (l.filter fun x => x.1 < s.1).length = p
  | [], _, p, s, h => by cases h
  | x :: l, hs, 0, s, h => by
    cases h
    obtain ⟨hx, _⟩ := List.pairwise_cons.mp hs
    rw [List.length_eq_zero_iff, List.filter_eq_nil_iff]
    intro b hb
    rcases List.mem_cons.mp hb with hb | hb
    · rw [hb]; simp
    · have := hx b hb; simp; omega
  | x :: l, hs, p + 1, s, h => by
    obtain ⟨hx, hl⟩ := List.pairwise_cons.mp hs
    have h : l[p]? = some s := h
    have := hx s (List.mem_of_getElem? h)
    rw [List.filter_cons_of_pos (by simpa using this), List.length_cons, place_sorted l hl p s h]

theorem rd_length {f : Fields A X S} {stops : List (StopRow P)} : ∀ (rows : List (StRow D S)), (∀ r ∈ rows, ∃ s, rd f stops r = some s) →
    (rows.filterMap (rd f stops)).length = rows.length
  | [], _ => rfl
  | r :: rows, h => by
    obtain ⟨s, hs⟩ := h r (List.mem_cons_self ..)
    rw [List.filterMap_cons_some (f := rd f stops) hs, List.length_cons, List.length_cons, rd_length rows fun q hq => h q (List.mem_cons_of_mem _ hq)]

theorem rd_count {f : Fields A X S} {stops : List (StopRow P)} (x : Int) : ∀ (rows : List (StRow D S)), (∀ r ∈ rows, ∃ s, rd f stops r = some s) →
    ((rows.filterMap (rd f stops)).filter fun s => s.1 < x).length = (rows.filter fun r => Dists.getSeq r.seq < x).length
  | [], _ => rfl
  | r :: rows, h => by
    obtain ⟨s, hs⟩ := h r (List.mem_cons_self ..)
    have ih := rd_count x rows fun q hq => h q (List.mem_cons_of_mem _ hq)
    have e := (rd_some hs).1
    rw [List.filterMap_cons_some (f := rd f stops) hs]
    by_cases hx : Dists.getSeq r.seq < x
    · rw [List.filter_cons_of_pos (by rw [e]; simpa using hx), List.filter_cons_of_pos (by simpa using hx), List.length_cons, List.length_cons, ih]
    · rw [List.filter_cons_of_neg (by rw [e]; simpa using hx), List.filter_cons_of_neg (by simpa using hx), ih]

/-- What is known after reading. -/
theorem readStops_ok {f : Fields A X S} {stops : List (StopRow P)} {trips : List (TripRow X)} {rows : List (StRow D S)} {sts : List (List (St P))}
    (h : readStops f stops trips rows = some sts) : (∀ r ∈ rows, ∃ t ∈ trips, t.id = r.trip) ∧ ∀ (k : Nat) t, trips[k]? = some t →
      ∃ l, sts[k]? = some l ∧ Sorted l ∧ l.Perm ((rowsAt rows t).filterMap (rd f stops)) ∧ ∀ r ∈ rowsAt rows t, ∃ s, rd f stops r = some s := by
  unfold readStops at h
  by_cases ha : rows.all fun r => (Content.pos (trips.map (·.id)) r.trip).isSome
  · rw [if_pos ha] at h
    refine ⟨fun r hr => ?_, fun k t ht => ?_⟩
    · obtain ⟨k, hk⟩ := Option.isSome_iff_exists.mp (List.all_eq_true.mp ha r hr)
      have := Content.pos_some hk
      rw [List.getElem?_map] at this
      obtain ⟨t, ht, e⟩ := Option.map_eq_some_iff.mp this
      exact ⟨t, List.mem_of_getElem? ht, e⟩
    · obtain ⟨_, h2⟩ := Content.collect_get h
      obtain ⟨l, h3, h4⟩ := h2 k t ht
      obtain ⟨e1, e2, e3⟩ := readTrip_ok _ _ _ List.Pairwise.nil h4
      exact ⟨l, h3, e1, by simpa [rowsAt] using e2, e3⟩
  · rw [if_neg ha] at h
    cases h

/-- The stop time of a row is at its place. -/
theorem readStops_get {f : Fields A X S} {stops : List (StopRow P)} {trips : List (TripRow X)} {rows : List (StRow D S)} {sts : List (List (St P))}
    (hs : Dists.SmallSeqs rows) (h : readStops f stops trips rows = some sts) {k : Nat} {t : TripRow X} (ht : trips[k]? = some t) {r : StRow D S}
    (hr : r ∈ rowsAt rows t) : ∃ l s, sts[k]? = some l ∧ l[((rowsAt rows t).filter fun q => q.seq < r.seq).length]? = some s ∧ rd f stops r = some s := by
  obtain ⟨l, h1, h2, h3, h4⟩ := (readStops_ok h).2 k t ht
  obtain ⟨s, e⟩ := h4 r hr
  obtain ⟨p, hp⟩ := List.mem_iff_getElem?.mp (h3.mem_iff.mpr (List.mem_filterMap.mpr ⟨r, hr, e⟩))
  have small : ∀ q ∈ rowsAt rows t, Dists.getSeq q.seq = q.seq := fun q hq => Dists.getSeq_small (hs q (List.mem_filter.mp hq).1)
  have e1 := place_sorted l h2 p s hp
  rw [(h3.filter _).length_eq, rd_count _ _ h4, (rd_some e).1, small r hr] at e1
  rw [List.filter_congr (q := fun q => decide (q.seq < r.seq)) (fun q hq => by rw [small q hq])] at e1
  exact ⟨l, s, h1, e1 ▸ hp, e⟩

theorem readStops_length {f : Fields A X S} {stops : List (StopRow P)} {trips : List (TripRow X)} {rows : List (StRow D S)} {sts : List (List (St P))}
    (h : readStops f stops trips rows = some sts) {k : Nat} {t : TripRow X} (ht : trips[k]? = some t) :
    ∃ l, sts[k]? = some l ∧ l.length = (rowsAt rows t).length := by
  obtain ⟨l, h1, _, h3, h4⟩ := (readStops_ok h).2 k t ht
  exact ⟨l, h1, by rw [h3.length_eq, rd_length _ h4]⟩

end Verif.Intake
