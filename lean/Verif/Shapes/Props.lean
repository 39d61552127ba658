import Verif.Shapes.ContainerLemmas

/-!
# Shape container and shapes.txt (properties)

C06 stored shapes read back exactly; C07 content of shapes.txt.
-/

namespace Verif.Shapes

/-! ## Specification -/

/-- A call on the container before the output is written. -/
inductive Op where
  /-- the input feed has a shape with this id -/
  | register (id : Str)
  /-- a newly computed shape -/
  | add (s : Shape)
  | remove (id : Str)
deriving DecidableEq

/-- Run one call. -/
def Op.run (limit : Nat) (c : Container) : Op → Container
  | .register id => c.register id
  | .add s => c.add limit s
  | .remove id => c.remove id

/-- The container after a history (oldest call first). -/
def exec (limit : Nat) (h : List Op) : Container := h.foldl (Op.run limit) .empty

/-- What a call says about an id: present, absent, or nothing. -/
def Op.says (id : Str) : Op → Option Bool
  | .register i => if i = id then some true else none
  | .add s => if s.id = id then some true else none
  | .remove i => if i = id then some false else none

/-- The id is present: the last call concerning it was not a removal. -/
def live (h : List Op) (id : Str) : Bool := ((h.reverse.filterMap (Op.says id)).head?).getD false

/-- The shapes accepted in a history given newest call first: those whose id was
not present when they were added. -/
def acceptedRev : List Op → List Shape
  | [] => []
  | .add s :: older =>
    if live older.reverse s.id then acceptedRev older else acceptedRev older ++ [s]
  | _ :: older => acceptedRev older

/-- The accepted shapes in order of addition. -/
def accepted (h : List Op) : List Shape := acceptedRev h.reverse

/-- The rows of a shape: its points in order, numbered from 1. -/
def shapeRows (s : Shape) : List Row := s.pts.zipIdx.map fun p => ⟨s.id, p.1, p.2 + 1⟩

/-- All added shapes are storable: id non-empty and without white space, at
least one point, fields of the fixed widths. -/
def AllGood (w : Widths) (h : List Op) : Prop := ∀ s, Op.add s ∈ h → GoodShape w s

/-- What a user reads back: the rows obtained by opening the storage and
fetching points until there are none left. -/
def readBack (w : Widths) (c : Container) : List Row :=
  readAll w c.ids ((c.storage ++ c.buf).length + 1) c.open

/-! ## Invariant -/

theorem rowsFrom_eq (id : Str) (k : Nat) (ps : List Point) :
    rowsFrom id k ps = (ps.zipIdx k).map fun p => ⟨id, p.1, p.2 + 1⟩ := by
  induction ps generalizing k with
  | nil => rfl
  | cons p ps ih => simp [rowsFrom, ih]

theorem shapeRows_eq (s : Shape) : shapeRows s = rowsFrom s.id 0 s.pts := by
  rw [rowsFrom_eq]; rfl

theorem live_append (h : List Op) (op : Op) (id : Str) :
    live (h ++ [op]) id = (op.says id).getD (live h id) := by
  unfold live
  rw [List.reverse_append]
  simp only [List.reverse_cons, List.reverse_nil, List.nil_append, List.singleton_append,
    List.filterMap_cons]
  cases op.says id <;> rfl

theorem accepted_append (h : List Op) (op : Op) :
    accepted (h ++ [op]) = match op with
      | .add s => if live h s.id then accepted h else accepted h ++ [s]
      | _ => accepted h := by
  unfold accepted
  rw [List.reverse_append]
  cases op <;> simp [acceptedRev]

theorem exec_inv (limit : Nat) (h : List Op) :
    (∀ id, id ∈ (exec limit h).ids ↔ live h id = true) ∧
    (exec limit h).storage ++ (exec limit h).buf = (accepted h).flatMap encShape := by
  suffices H : ∀ r : List Op,
      (∀ id, id ∈ (exec limit r.reverse).ids ↔ live r.reverse id = true) ∧
      (exec limit r.reverse).storage ++ (exec limit r.reverse).buf =
        (accepted r.reverse).flatMap encShape by
    have := H h.reverse
    simpa using this
  intro r
  induction r with
  | nil => simp [exec, Container.empty, live, accepted, acceptedRev]
  | cons op r ih =>
    rw [List.reverse_cons]
    generalize r.reverse = h at ih ⊢
    obtain ⟨ih1, ih2⟩ := ih
    have e : exec limit (h ++ [op]) = op.run limit (exec limit h) := by simp [exec]
    rw [e, accepted_append]
    simp only [live_append]
    generalize exec limit h = c at ih1 ih2
    cases op with
    | register i =>
      refine ⟨fun id => ?_, ih2⟩
      simp only [Op.run, Container.register, Op.says]
      by_cases hi : i = id
      · subst hi
        simp only [if_true, Option.getD_some, iff_true]
        split <;> simp_all
      · have hi' : ¬ id = i := fun e => hi e.symm
        simp only [hi, if_false, Option.getD_none, ← ih1]
        split <;> simp [hi']
    | remove i =>
      refine ⟨fun id => ?_, ih2⟩
      simp only [Op.run, Container.remove, Op.says, List.mem_filter, decide_eq_true_eq]
      by_cases hi : i = id
      · subst hi; simp
      · have hi' : id ≠ i := fun e => hi e.symm
        simp [hi, hi', ih1]
    | add s =>
      simp only [Op.run, Container.add, Container.has, Op.says, decide_eq_true_eq]
      by_cases hl : s.id ∈ c.ids
      · rw [if_pos hl, if_pos ((ih1 _).mp hl)]
        refine ⟨fun id => ?_, ih2⟩
        by_cases hi : s.id = id
        · subst hi; simp [hl]
        · simp [hi, ih1]
      · have hl' : ¬ (live h s.id = true) := fun e => hl ((ih1 _).mpr e)
        rw [if_neg hl, if_neg hl']
        have hids : ∀ id, id ∈ s.id :: c.ids ↔ (if s.id = id then some true else none).getD
            (live h id) = true := by
          intro id
          by_cases hi : s.id = id
          · simp [hi]
          · have hi' : ¬ id = s.id := fun e => hi e.symm
            simp [hi, hi', ih1]
        split
        · refine ⟨hids, ?_⟩
          simp only [List.append_nil, List.flatMap_append, List.flatMap_cons, List.flatMap_nil,
            ← ih2, List.append_assoc]
        · refine ⟨hids, ?_⟩
          simp only [List.append_nil, List.flatMap_append, List.flatMap_cons, List.flatMap_nil,
            ← ih2, List.append_assoc]

theorem accepted_mem {h : List Op} {s : Shape} (hm : s ∈ accepted h) : Op.add s ∈ h := by
  unfold accepted at hm
  suffices H : ∀ r : List Op, s ∈ acceptedRev r → Op.add s ∈ r by
    have := H h.reverse hm
    simpa using this
  intro r
  induction r with
  | nil => simp [acceptedRev]
  | cons op r ih =>
    intro hm
    cases op with
    | add t =>
      simp only [acceptedRev] at hm
      split at hm
      · exact List.mem_cons_of_mem _ (ih hm)
      · rcases List.mem_append.mp hm with h | h
        · exact List.mem_cons_of_mem _ (ih h)
        · simp only [List.mem_singleton] at h; subst h; simp
    | register i => exact List.mem_cons_of_mem _ (ih (by simpa [acceptedRev] using hm))
    | remove i => exact List.mem_cons_of_mem _ (ih (by simpa [acceptedRev] using hm))

/-! ## C06 -/

/-- **C06.** After any history of registrations, additions and removals, reading
back yields the accepted shapes that are still present, in order of addition,
each with exactly its points in order and numbered from 1. Independent of when
the write buffer is flushed (`limit`). -/
theorem C06_read_back (w : Widths) (hw : 0 < w.lat + w.lng + w.dist) (limit : Nat) (h : List Op)
    (hg : AllGood w h) : readBack w (exec limit h) =
      ((accepted h).filter (fun s => live h s.id)).flatMap shapeRows := by
  obtain ⟨h1, h2⟩ := exec_inv limit h
  have hs : ∀ s ∈ accepted h, GoodShape w s := fun s hm => hg s (accepted_mem hm)
  obtain ⟨r, hst, hp, hr⟩ := steps_all w (accepted h) hs 0 []
  have hlen := rows_le_bytes w hw (accepted h) hs
  unfold readBack Container.open
  rw [h2, readAll_steps hst (stepPt_end w r hp hr) _ (by omega)]
  generalize accepted h = l
  induction l with
  | nil => rfl
  | cons s l ih =>
    simp only [List.flatMap_cons, List.filter_append, ih, List.filter_cons]
    cases hl : live h s.id with
    | true =>
      simp only [if_true, List.flatMap_cons]
      congr 1
      rw [shapeRows_eq, List.filter_eq_self]
      intro a ha
      rw [rowsFrom_id ha]
      exact decide_eq_true ((h1 _).mpr hl)
    | false =>
      simp only [Bool.false_eq_true, if_false]
      have : List.filter (fun x => decide (x.id ∈ (exec limit h).ids)) (rowsFrom s.id 0 s.pts)
          = [] := by
        rw [List.filter_eq_nil_iff]
        intro a ha hd
        have := (h1 a.id).mp (of_decide_eq_true hd)
        rw [rowsFrom_id ha, hl] at this
        cases this
      rw [this]; rfl

/-- **C06.** No row of a removed shape is ever read back. -/
theorem C06_removed_absent (w : Widths) (hw : 0 < w.lat + w.lng + w.dist) (limit : Nat)
    (h : List Op) (hg : AllGood w h) (id : Str) (hrm : live h id = false) :
    ∀ row ∈ readBack w (exec limit h), row.id ≠ id := by
  rw [C06_read_back w hw limit h hg]
  intro row hm e
  obtain ⟨s, hs, hrow⟩ := List.mem_flatMap.mp hm
  have hl := (List.mem_filter.mp hs).2
  rw [shapeRows_eq] at hrow
  rw [← rowsFrom_id hrow, e, hrm] at hl
  cases hl

/-- **C06.** If every added shape has an id of its own that is neither
registered nor removed, all of them come back. -/
theorem C06_distinct_ids_all_back (w : Widths) (hw : 0 < w.lat + w.lng + w.dist) (limit : Nat)
    (ss : List Shape) (hg : ∀ s ∈ ss, GoodShape w s) (hd : (ss.map (·.id)).Nodup) :
    readBack w (exec limit (ss.map .add)) = ss.flatMap shapeRows := by
  have hlive : ∀ (l : List Shape) id, live (l.map .add) id = true ↔ id ∈ l.map (·.id) := by
    intro l id
    suffices H : ∀ r : List Shape, live (r.reverse.map .add) id = true ↔ id ∈ r.map (·.id) by
      have := H l.reverse
      simpa using this
    intro r
    induction r with
    | nil => simp [live]
    | cons s r ih =>
      rw [List.reverse_cons, List.map_append, List.map_cons, List.map_nil, live_append]
      simp only [Op.says]
      by_cases e : s.id = id
      · simp [e]
      · have e' : ¬ id = s.id := fun x => e x.symm
        simp only [e, if_false, Option.getD_none, ih, List.map_cons, List.mem_cons, e', false_or]
  have hacc : accepted (ss.map .add) = ss := by
    suffices H : ∀ r : List Shape, (r.map (·.id)).Nodup →
        accepted (r.reverse.map .add) = r.reverse by
      have := H ss.reverse (by rw [List.map_reverse]; exact (List.reverse_perm _).nodup_iff.mpr hd)
      simpa using this
    intro r
    induction r with
    | nil => intro _; rfl
    | cons s r ih =>
      intro hn
      simp only [List.map_cons, List.nodup_cons] at hn
      rw [List.reverse_cons, List.map_append, List.map_cons, List.map_nil, accepted_append]
      have : ¬ (live (r.reverse.map .add) s.id = true) := by
        rw [hlive]; simpa using hn.1
      simp only [if_neg this, ih hn.2]
  have hg' : AllGood w (ss.map .add) := by
    intro s hs
    obtain ⟨t, ht, e⟩ := List.mem_map.mp hs
    cases e; exact hg _ ht
  rw [C06_read_back w hw limit _ hg', hacc]
  congr 1
  rw [List.filter_eq_self]
  intro s hs
  rw [hlive]
  exact List.mem_map_of_mem hs

/-! ### Limits of C06 -/

/-- One byte fields. -/
def w1 : Widths := ⟨1, 1, 1⟩

/-- A shape without points makes the following shapes unreadable: the proviso
'at least one point' is needed. -/
theorem C06_limit_no_points : ∃ h : List Op,
    readBack w1 (exec 100 h) ≠ ((accepted h).filter (fun s => live h s.id)).flatMap shapeRows ∧
    ∃ s ∈ accepted h, GoodShape w1 s ∧ live h s.id = true ∧
      ∀ row ∈ readBack w1 (exec 100 h), row ∉ shapeRows s := by
  refine ⟨[.add ⟨[65], []⟩, .add ⟨[66], [⟨[1], [2], [3]⟩]⟩], by decide +kernel,
    ⟨[66], [⟨[1], [2], [3]⟩]⟩, by decide +kernel, ?_, by decide +kernel, by decide +kernel⟩
  refine ⟨⟨by decide, by decide⟩, by decide, by decide, ?_⟩
  intro p hp
  simp only [List.mem_singleton] at hp
  subst hp
  exact ⟨rfl, rfl, rfl⟩

/-- White space in an id breaks the format. -/
theorem C06_limit_whitespace : ∃ h : List Op,
    readBack w1 (exec 100 h) ≠ ((accepted h).filter (fun s => live h s.id)).flatMap shapeRows :=
  ⟨[.add ⟨[65, 32, 66], [⟨[1], [2], [3]⟩]⟩], by decide +kernel⟩

/-- Adding a removed id again brings the points of the removed shape back: both
shapes are read under one id. -/
theorem C06_limit_readded : ∃ h : List Op, AllGood w1 h ∧
    readBack w1 (exec 100 h) = [⟨[65], ⟨[1], [2], [3]⟩, 1⟩, ⟨[65], ⟨[4], [5], [6]⟩, 1⟩] := by
  refine ⟨[.add ⟨[65], [⟨[1], [2], [3]⟩]⟩, .remove [65], .add ⟨[65], [⟨[4], [5], [6]⟩]⟩],
    ?_, by decide +kernel⟩
  intro s hs
  simp only [List.mem_cons, Op.add.injEq, reduceCtorEq, List.not_mem_nil, or_false,
    false_or] at hs
  rcases hs with rfl | rfl <;>
    exact ⟨⟨by decide, by decide⟩, by decide, by decide, by
      intro p hp; simp only [List.mem_singleton] at hp; subst hp; exact ⟨rfl, rfl, rfl⟩⟩

/-! ## C07 -/

/-- **C07.** shapes.txt consists of the input rows whose shape is present, in
input order and unchanged, followed by the accepted new shapes that are
present. -/
theorem C07_shapes_file (w : Widths) (hw : 0 < w.lat + w.lng + w.dist) (limit : Nat) (h : List Op)
    (hg : AllGood w h) (src : List Row) (hne : ∀ r ∈ src, r.id ≠ []) :
    writeShapes w src (exec limit h) = src.filter (fun r => live h r.id) ++
      ((accepted h).filter (fun s => live h s.id)).flatMap shapeRows := by
  have hb := C06_read_back w hw limit h hg
  unfold readBack at hb
  unfold writeShapes
  rw [hb, copyRows_eq _ src hne [] [] (Or.inl rfl) (Or.inl rfl)]
  congr 1
  apply List.filter_congr
  intro r _
  rw [Bool.eq_iff_iff, decide_eq_true_eq]
  exact (exec_inv limit h).1 r.id

/-- **C07.** No row of a dropped shape is written. -/
theorem C07_dropped_absent (w : Widths) (hw : 0 < w.lat + w.lng + w.dist) (limit : Nat)
    (h : List Op) (hg : AllGood w h) (src : List Row) (hne : ∀ r ∈ src, r.id ≠ []) (id : Str)
    (hd : live h id = false) : ∀ row ∈ writeShapes w src (exec limit h), row.id ≠ id := by
  rw [C07_shapes_file w hw limit h hg src hne]
  intro row hm e
  rcases List.mem_append.mp hm with hm | hm
  · have := (List.mem_filter.mp hm).2
    rw [e, hd] at this; cases this
  · have := C06_removed_absent w hw limit h hg id hd row
    rw [C06_read_back w hw limit h hg] at this
    exact this hm e

/-- **C07 (partial).** No id carries points of two shapes, *provided* no
accepted shape has the id of an input shape and accepted ids are distinct. The
proviso can fail in the program: see `C07_negation`. -/
theorem C07_no_mixture_partial (w : Widths) (hw : 0 < w.lat + w.lng + w.dist) (limit : Nat)
    (h : List Op) (hg : AllGood w h) (src : List Row) (hne : ∀ r ∈ src, r.id ≠ [])
    (hfresh : ∀ s ∈ accepted h, ∀ r ∈ src, r.id ≠ s.id)
    (hnd : ((accepted h).map (·.id)).Nodup) (id : Str) :
    (writeShapes w src (exec limit h)).filter (fun r => decide (r.id = id)) =
        (if live h id then src.filter (fun r => decide (r.id = id)) else []) ∨
    ∃ s ∈ accepted h, s.id = id ∧
      (writeShapes w src (exec limit h)).filter (fun r => decide (r.id = id)) = shapeRows s := by
  rw [C07_shapes_file w hw limit h hg src hne, List.filter_append, List.filter_filter]
  have hsrc : List.filter (fun a => decide (a.id = id) && live h a.id) src =
      if live h id then src.filter (fun r => decide (r.id = id)) else [] := by
    cases hl : live h id with
    | true =>
      simp only [if_true]
      apply List.filter_congr
      intro r _
      by_cases e : r.id = id <;> simp [e, hl]
    | false =>
      simp only [Bool.false_eq_true, if_false, List.filter_eq_nil_iff]
      intro r _
      by_cases e : r.id = id <;> simp [e, hl]
  have hnone : ∀ l : List Shape, (∀ s ∈ l, s.id ≠ id) →
      List.filter (fun r => decide (r.id = id)) ((l.filter (fun s => live h s.id)).flatMap
        shapeRows) = [] := by
    intro l hl
    rw [List.filter_eq_nil_iff]
    intro r hr
    obtain ⟨s, hs, hr⟩ := List.mem_flatMap.mp hr
    rw [shapeRows_eq] at hr
    have := hl s (List.mem_filter.mp hs).1
    rw [← rowsFrom_id hr] at this
    simp [this]
  by_cases hex : ∃ s ∈ accepted h, s.id = id ∧ live h id = true
  · right
    obtain ⟨s, hs, hid, hl⟩ := hex
    refine ⟨s, hs, hid, ?_⟩
    have h0 : List.filter (fun a => decide (a.id = id) && live h a.id) src = [] := by
      rw [List.filter_eq_nil_iff]
      intro r hr
      have := hfresh s hs r hr
      rw [hid] at this
      simp [this]
    rw [h0, List.nil_append]
    generalize accepted h = l at hs hnd
    induction l with
    | nil => simp at hs
    | cons t l ih =>
      simp only [List.map_cons, List.nodup_cons] at hnd
      rcases List.mem_cons.mp hs with rfl | hs
      · have hl' : live h s.id = true := by rw [hid]; exact hl
        simp only [List.filter_cons, hl', if_true, List.flatMap_cons, List.filter_append]
        rw [hnone l (fun t ht e => hnd.1 (by rw [hid, ← e]; exact List.mem_map_of_mem ht)),
          List.append_nil, List.filter_eq_self]
        intro r hr
        rw [shapeRows_eq] at hr
        rw [rowsFrom_id hr]; simp [hid]
      · have hne : t.id ≠ id := fun e => hnd.1 (by
          rw [e, ← hid]; exact List.mem_map_of_mem hs)
        have ih := ih hs hnd.2
        have : List.filter (fun r => decide (r.id = id)) (shapeRows t) = [] := by
          rw [List.filter_eq_nil_iff]
          intro r hr
          rw [shapeRows_eq] at hr
          rw [rowsFrom_id hr]; simp [hne]
        simp only [List.filter_cons]
        split
        · rw [List.flatMap_cons, List.filter_append, this, List.nil_append, ih]
        · exact ih
  · left
    rw [hsrc]
    have : List.filter (fun r => decide (r.id = id)) (((accepted h).filter
        (fun s => live h s.id)).flatMap shapeRows) = [] := by
      rw [List.filter_eq_nil_iff]
      intro r hr hd
      obtain ⟨s, hs, hr⟩ := List.mem_flatMap.mp hr
      rw [shapeRows_eq] at hr
      have e : r.id = id := of_decide_eq_true hd
      have e2 := rowsFrom_id hr
      have h2 := (List.mem_filter.mp hs).2
      exact hex ⟨s, (List.mem_filter.mp hs).1, by rw [← e2, e], by rw [← e, e2]; exact h2⟩
    rw [this, List.append_nil]

/-! ## Non-vacuity -/

/-- A history with an accepted, a rejected, a removed and a flushed shape. -/
def exHist : List Op :=
  [.register [70], .register [71], .add ⟨[65], [⟨[1], [2], [3]⟩, ⟨[32], [32], [0]⟩]⟩,
   .add ⟨[70], [⟨[9], [9], [9]⟩]⟩, .remove [71], .add ⟨[66], [⟨[7], [8], [9]⟩]⟩, .remove [66],
   .add ⟨[67], [⟨[4], [5], [6]⟩]⟩]

example : writeShapes w1 [⟨[70], ⟨[0], [0], [0]⟩, 1⟩, ⟨[71], ⟨[0], [0], [0]⟩, 1⟩] (exec 10 exHist) =
    [⟨[70], ⟨[0], [0], [0]⟩, 1⟩, ⟨[65], ⟨[1], [2], [3]⟩, 1⟩, ⟨[65], ⟨[32], [32], [0]⟩, 2⟩,
     ⟨[67], ⟨[4], [5], [6]⟩, 1⟩] := by decide +kernel

example : AllGood w1 exHist := by
  intro s hs
  simp only [exHist, List.mem_cons, Op.add.injEq, reduceCtorEq, List.not_mem_nil, or_false,
    false_or] at hs
  rcases hs with rfl | rfl | rfl | rfl <;>
    refine ⟨⟨by decide, by decide⟩, by decide, by decide, ?_⟩ <;> intro p hp <;>
    simp at hp <;> (try rcases hp with rfl | rfl) <;> (try subst hp) <;> exact ⟨rfl, rfl, rfl⟩

end Verif.Shapes
