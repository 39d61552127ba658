/-!
# Writing stop_times.txt (C43)

Model of `Writer::writeStopTimes`, `src/pfaedle/gtfs/Writer.cpp:660-688`. Rows and distances are of any type; a row
has a trip id, a sequence number and a distance, and the rest of it. Reading and printing rows is cppgtfs.
-/

namespace Verif.Out

/-- A row of the input file. `rest`: stop, times, and all other fields. -/
structure StRow (D X : Type) where
  trip : List Nat
  seq : Int
  dist : D
  rest : X
  deriving DecidableEq, Repr

/-- A stop time of the feed in memory. -/
structure StopTime (D : Type) where
  seq : Int
  dist : D
  deriving DecidableEq, Repr

/-- The trips of the feed, `getTrips().get(id)`. -/
abbrev Trips (D : Type) := List Nat → Option (List (StopTime D))

variable {D X : Type}

/-- `curTripId` and `cur`, Writer.cpp:671-672. -/
structure Cur (D : Type) where
  id : List Nat
  trip : Option (List (StopTime D))

/-- Writer.cpp:676-683. `none`: a null pointer is dereferenced. -/
def setDist (cur : Option (List (StopTime D))) (r : StRow D X) : Option (StRow D X) :=
  match cur with
  | none => none
  | some sts => some (sts.foldl (fun r s => if s.seq = r.seq then { r with dist := s.dist } else r) r)

/-- One iteration of the loop, Writer.cpp:674-686. -/
def stStep (trips : Trips D) (c : Cur D) (r : StRow D X) : Cur D × Option (StRow D X) :=
  let c := if c.id ≠ r.trip then { id := r.trip, trip := trips r.trip } else c
  (c, setDist c.trip r)

/-- The loop. -/
def stLoop (trips : Trips D) : Cur D → List (StRow D X) → Option (List (StRow D X))
  | _, [] => some []
  | c, r :: rs =>
    match (stStep trips c r).2 with
    | none => none
    | some r' => (stLoop trips (stStep trips c r).1 rs).map (r' :: ·)

/-- `Writer::writeStopTimes`. -/
def writeStopTimes (trips : Trips D) (rows : List (StRow D X)) : Option (List (StRow D X)) :=
  stLoop trips { id := [], trip := none } rows

/-! ## Specification -/

/-- The row written for an input row: everything is kept except for the distance; it is that of the stop time with this sequence number of
the row's own trip, if there is one, and else it is kept too. -/
def RowFor (trips : Trips D) (r r' : StRow D X) : Prop :=
  r'.trip = r.trip ∧ r'.seq = r.seq ∧ r'.rest = r.rest ∧
  ∃ sts, trips r.trip = some sts ∧
    (∀ s ∈ sts, s.seq = r.seq → r'.dist = s.dist) ∧
    ((∀ s ∈ sts, s.seq ≠ r.seq) → r'.dist = r.dist)

/-- Every trip has at most one stop time for a sequence number. -/
def UniqueSeqs (trips : Trips D) : Prop := ∀ id sts, trips id = some sts → (sts.map (·.seq)).Nodup

/-! ## Proofs -/

theorem setDist_spec (sts : List (StopTime D)) (hn : (sts.map (·.seq)).Nodup) : ∀ r : StRow D X,
    let r' := sts.foldl (fun r s => if s.seq = r.seq then { r with dist := s.dist } else r) r
    r'.trip = r.trip ∧ r'.seq = r.seq ∧ r'.rest = r.rest ∧
      (∀ s ∈ sts, s.seq = r.seq → r'.dist = s.dist) ∧ ((∀ s ∈ sts, s.seq ≠ r.seq) → r'.dist = r.dist) := by
  induction sts with
  | nil => intro r; simp
  | cons s sts ih =>
    intro r
    simp only [List.map_cons, List.nodup_cons] at hn
    have ih := ih hn.2
    simp only [List.foldl_cons]
    by_cases h : s.seq = r.seq
    · rw [if_pos h]
      obtain ⟨a, b, c, d, e⟩ := ih { r with dist := s.dist }
      have hno : ∀ t ∈ sts, t.seq ≠ r.seq := by
        intro t ht e
        exact hn.1 (List.mem_map.2 ⟨t, ht, e.trans h.symm⟩)
      refine ⟨a, b, c, ?_, ?_⟩
      · intro t ht hs
        rcases List.mem_cons.1 ht with rfl | ht
        · exact e hno
        · exact absurd hs (hno t ht)
      · intro hall
        exact absurd h (hall s List.mem_cons_self)
    · rw [if_neg h]
      obtain ⟨a, b, c, d, e⟩ := ih r
      refine ⟨a, b, c, ?_, ?_⟩
      · intro t ht hs
        rcases List.mem_cons.1 ht with rfl | ht
        · exact absurd hs h
        · exact d t ht hs
      · intro hall
        exact e (fun t ht => hall t (List.mem_cons_of_mem _ ht))

/-- The remembered trip is the trip with the remembered id. -/
def CurOk (trips : Trips D) (c : Cur D) : Prop := c.id = [] ∨ c.trip = trips c.id

theorem stStep_ok (trips : Trips D) (hu : UniqueSeqs trips) (c : Cur D) (hc : CurOk trips c) (r : StRow D X)
    (hne : r.trip ≠ []) (ht : (trips r.trip).isSome) :
    CurOk trips (stStep trips c r).1 ∧ ∃ r', (stStep trips c r).2 = some r' ∧ RowFor trips r r' := by
  obtain ⟨sts, hs⟩ := Option.isSome_iff_exists.1 ht
  have e : (if c.id ≠ r.trip then ({ id := r.trip, trip := trips r.trip } : Cur D) else c).trip = some sts ∧
      CurOk trips (if c.id ≠ r.trip then ({ id := r.trip, trip := trips r.trip } : Cur D) else c) := by
    by_cases h : c.id = r.trip
    · rw [if_neg (by simpa using h)]
      refine ⟨?_, hc⟩
      rcases hc with hc | hc
      · exact absurd (h.symm.trans hc) hne
      · rw [hc, h, hs]
    · rw [if_pos h]
      exact ⟨hs, .inr rfl⟩
  refine ⟨e.2, ?_⟩
  obtain ⟨a, b, c', d, f⟩ := setDist_spec sts (hu _ _ hs) r
  exact ⟨_, by simp only [stStep, e.1, setDist], a, b, c', sts, hs, d, f⟩

theorem stLoop_ok (trips : Trips D) (hu : UniqueSeqs trips) : ∀ (rows : List (StRow D X)) (c : Cur D), CurOk trips c →
    (∀ r ∈ rows, r.trip ≠ [] ∧ (trips r.trip).isSome) →
    ∃ out, stLoop trips c rows = some out ∧ out.length = rows.length ∧
      ∀ (i : Nat) r r', rows[i]? = some r → out[i]? = some r' → RowFor trips r r' := by
  intro rows
  induction rows with
  | nil => intro c _ _; exact ⟨[], rfl, rfl, by simp⟩
  | cons r rows ih =>
    intro c hc hall
    obtain ⟨h1, r', h2, h3⟩ := stStep_ok trips hu c hc r (hall r List.mem_cons_self).1 (hall r List.mem_cons_self).2
    obtain ⟨out, e, el, eo⟩ := ih _ h1 (fun q hq => hall q (List.mem_cons_of_mem _ hq))
    refine ⟨r' :: out, by simp [stLoop, h2, e], by simp [el], ?_⟩
    intro i q q' hq hq'
    cases i with
    | zero =>
      simp at hq hq'
      subst hq; subst hq'
      exact h3
    | succ i => exact eo i q q' (by simpa using hq) (by simpa using hq')

/-- **C43.** For rows of known trips, in any order and interleaving, the output has one row for each input row, in
the same order, and it is the input row with the distance of its own trip and sequence number. -/
theorem C43_rows (trips : Trips D) (hu : UniqueSeqs trips) (rows : List (StRow D X))
    (h : ∀ r ∈ rows, r.trip ≠ [] ∧ (trips r.trip).isSome) :
    ∃ out, writeStopTimes trips rows = some out ∧ out.length = rows.length ∧
      ∀ (i : Nat) r r', rows[i]? = some r → out[i]? = some r' → RowFor trips r r' :=
  stLoop_ok trips hu rows _ (.inl rfl) h

/-- The memory of the loop after some rows. -/
def curAfter (trips : Trips D) (pre : List (StRow D X)) : Cur D :=
  pre.foldl (fun c r => (stStep trips c r).1) { id := [], trip := none }

theorem curAfter_ok (trips : Trips D) (hu : UniqueSeqs trips) (pre : List (StRow D X)) : ∀ (c : Cur D), CurOk trips c →
    (∀ r ∈ pre, r.trip ≠ [] ∧ (trips r.trip).isSome) → CurOk trips (pre.foldl (fun c r => (stStep trips c r).1) c) := by
  induction pre with
  | nil => intro c hc _; exact hc
  | cons r pre ih =>
    intro c hc hall
    exact ih _ (stStep_ok trips hu c hc r (hall r List.mem_cons_self).1 (hall r List.mem_cons_self).2).1
      (fun q hq => hall q (List.mem_cons_of_mem _ hq))

/-- **C43 (row by row).** The row written after the rows `pre` is the right one. With this, `stopTime` in the model of the writer is
`fun pre r => (stStep trips (curAfter trips pre) r).2`. -/
theorem C43_stream (trips : Trips D) (hu : UniqueSeqs trips) (pre : List (StRow D X)) (r : StRow D X)
    (h : ∀ q ∈ pre ++ [r], q.trip ≠ [] ∧ (trips q.trip).isSome) :
    ∃ r', (stStep trips (curAfter trips pre) r).2 = some r' ∧ RowFor trips r r' := by
  have hc := curAfter_ok trips hu pre { id := [], trip := none } (.inl rfl) (fun q hq => h q (List.mem_append_left _ hq))
  have hr := h r (by simp)
  exact (stStep_ok trips hu _ hc r hr.1 hr.2).2

/-- Two trips, with distances for the stops 1, 2 and 1. -/
def exTrips : Trips Nat := fun id =>
  if id = [65] then some [⟨1, 10⟩, ⟨2, 20⟩] else if id = [66] then some [⟨1, 30⟩] else none

example : UniqueSeqs exTrips := by
  intro id sts h
  simp only [exTrips] at h
  split at h
  · cases h; decide
  · split at h
    · cases h; decide
    · cases h

example : writeStopTimes exTrips [⟨[65], 2, 0, "b"⟩, ⟨[66], 1, 0, "c"⟩, ⟨[65], 1, 0, "a"⟩, ⟨[65], 7, 5, "d"⟩] =
    some [⟨[65], 2, 20, "b"⟩, ⟨[66], 1, 30, "c"⟩, ⟨[65], 1, 10, "a"⟩, ⟨[65], 7, 5, "d"⟩] := by decide

/-- **C43 (limit).** A row of a trip that is not in the feed makes the program dereference a null pointer; if
such rows are accepted when the feed is read, the output is never finished. -/
theorem C43_limit_unknown_trip : ∃ (trips : Trips Nat) (rows : List (StRow Nat Unit)), UniqueSeqs trips ∧
    writeStopTimes trips rows = none :=
  ⟨fun _ => none, [⟨[65], 1, 0, ()⟩], (fun _ _ h => by cases h), rfl⟩

/-- **C43 (limit).** The same happens in a feed with a trip whose id is empty, if its row is the first. -/
theorem C43_limit_empty_id : ∃ (trips : Trips Nat) (rows : List (StRow Nat Unit)), UniqueSeqs trips ∧
    (∀ r ∈ rows, (trips r.trip).isSome) ∧ writeStopTimes trips rows = none :=
  ⟨fun _ => some [⟨1, 1⟩], [⟨[], 1, 0, ()⟩], (fun _ _ h => by cases h; decide), by simp, rfl⟩

end Verif.Out
