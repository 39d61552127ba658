import Verif.Region.Spec
import Verif.Extract.Main

/-!
# The area of a filtered OSM file (lemmas)
-/

namespace Verif.Region
open Verif.Names (Str)
open Verif.Osm
open Verif.BBoxIdx (Pt Box InBox InHull treeHas leafs)
open Verif.Extract (Pen extract head)

/-! ### areas -/

/-- The boxes that are reported. -/
def Reports (area : Box → Option Box → Int) (boxes bs : List Box) : Prop :=
  (boxes ≠ [] → leafs (BBoxIdx.build area boxes) = bs.map some) ∧ (boxes = [] → bs = []) ∧ ∀ p, treeHas p (BBoxIdx.build area boxes) = true ↔ ∃ b ∈ bs, InBox p b

theorem reports_nil (area : Box → Option Box → Int) : Reports area [] [] := by
  refine ⟨fun h => absurd rfl h, fun _ => rfl, fun p => ?_⟩
  have : treeHas p (BBoxIdx.build area []) = false := rfl
  rw [this]
  simp

theorem map_some_inj {a b : List Box} (h : a.map some = b.map some) : a = b := (List.map_inj_right (fun _ _ => Option.some.inj)).1 h

theorem reports_step {area : Box → Option Box → Int} {boxes bs : List Box} (h : Reports area boxes bs) (box : Box) :
    ∃ bs', Reports area (boxes ++ [box]) bs' ∧
      (((∀ b ∈ bs, area box (some b) ≤ 0) ∧ bs' = bs ++ [box]) ∨
        ∃ (i : Nat) (b c : Box), bs[i]? = some b ∧ 0 < area box (some b) ∧ bs' = bs.set i c ∧ BBoxIdx.IsHull c [box, b]) := by
  obtain ⟨b0, bs', h1, h2, h3, h4, h5⟩ := BBoxIdx.C21_leafs area boxes box
  have e : b0 = bs := by
    by_cases hb : boxes = []
    · rw [h2 hb, h.2.1 hb]
    · exact map_some_inj ((h1 hb).symm.trans (h.1 hb))
  subst e
  refine ⟨bs', ⟨fun _ => h3, fun hn => by simp at hn, h5⟩, ?_⟩
  rcases h4 with h | ⟨i, b, c, a1, a2, _, a4, a5⟩
  · exact .inl h
  · exact .inr ⟨i, b, c, a1, a2, a4, a5⟩

theorem reports_grow {area : Box → Option Box → Int} (more : List Box) : ∀ {boxes bs : List Box}, Reports area boxes bs →
    ∃ bs', Reports area (boxes ++ more) bs' ∧ ∀ p, (∃ b ∈ bs, InBox p b) → ∃ b ∈ bs', InBox p b := by
  induction more with
  | nil => intro boxes bs h; exact ⟨bs, by rw [List.append_nil]; exact h, fun _ h => h⟩
  | cons x more ih =>
    intro boxes bs h
    obtain ⟨bs', h', hs⟩ := reports_step h x
    obtain ⟨bs2, h2, hg⟩ := ih h'
    refine ⟨bs2, by rw [List.append_assoc] at h2; exact h2, fun p hp => hg p ?_⟩
    obtain ⟨b, hb, hin⟩ := hp
    rcases hs with ⟨_, rfl⟩ | ⟨i, b', c, hi, _, rfl, hc⟩
    · exact ⟨b, List.mem_append_left _ hb, hin⟩
    · obtain ⟨j, hj⟩ := List.getElem?_of_mem hb
      by_cases hij : i = j
      · subst hij
        rw [hi] at hj
        cases hj
        have hil := (List.getElem?_eq_some_iff.1 hi).1
        refine ⟨c, List.mem_of_getElem? (i := i) (by simp [hil]), ?_⟩
        obtain ⟨a1, a2, a3, a4⟩ := hc.1 b (by simp)
        obtain ⟨q1, q2, q3, q4⟩ := hin
        exact ⟨Int.le_trans a1 q1, Int.le_trans q2 a2, Int.le_trans a3 q3, Int.le_trans q4 a4⟩
      · exact ⟨b, List.mem_of_getElem? (i := j) (by rw [List.getElem?_set_ne hij]; exact hj), hin⟩

theorem reports_any (area : Box → Option Box → Int) (boxes : List Box) : ∃ bs, Reports area boxes bs := by
  obtain ⟨bs, h, _⟩ := reports_grow boxes (reports_nil area)
  exact ⟨bs, h⟩

theorem area_grows (area : Box → Option Box → Int) (boxes more : List Box) (p : Pt) (h : treeHas p (BBoxIdx.build area boxes) = true) :
    treeHas p (BBoxIdx.build area (boxes ++ more)) = true := by
  obtain ⟨bs, hb⟩ := reports_any area boxes
  obtain ⟨bs', hb', hg⟩ := reports_grow more hb
  exact (hb'.2.2 p).2 (hg p ((hb.2.2 p).1 h))

theorem area_apart_aux {area : Box → Option Box → Int} (more : List Box) : ∀ {boxes : List Box}, Reports area boxes boxes → Apart area (boxes ++ more) →
    Reports area (boxes ++ more) (boxes ++ more) := by
  induction more with
  | nil => intro boxes h _; rw [List.append_nil]; exact h
  | cons x more ih =>
    intro boxes h ha
    obtain ⟨bs', h', hs⟩ := reports_step h x
    have hx : ∀ b ∈ boxes, area x (some b) ≤ 0 := fun b hb => (List.pairwise_append.1 ha).2.2 b hb x List.mem_cons_self
    rcases hs with ⟨_, rfl⟩ | ⟨i, b, c, hi, hpos, _⟩
    · have := ih h' (by rw [List.append_assoc]; exact ha)
      rw [List.append_assoc] at this
      exact this
    · exact absurd (hx b (List.mem_of_getElem? hi)) (by omega)

theorem area_apart {area : Box → Option Box → Int} {boxes : List Box} (ha : Apart area boxes) (p : Pt) :
    treeHas p (BBoxIdx.build area boxes) = true ↔ ∃ b ∈ boxes, InBox p b :=
  (area_apart_aux (boxes := []) boxes (reports_nil area) ha).2.2 p

theorem area_within {area : Box → Option Box → Int} {boxes : List Box} {c : Box} (h : Within boxes c) {p : Pt}
    (hp : treeHas p (BBoxIdx.build area boxes) = true) : InBox p c := by
  obtain ⟨gs, hperm, _, hg⟩ := BBoxIdx.C21_reported area boxes
  obtain ⟨g, hgm, ⟨b1, m1, q1⟩, ⟨b2, m2, q2⟩, ⟨b3, m3, q3⟩, ⟨b4, m4, q4⟩⟩ := (hg p).1 hp
  have mem : ∀ b ∈ g, b ∈ boxes := fun b hb => hperm.mem_iff.1 (List.mem_flatten.2 ⟨g, hgm, hb⟩)
  exact ⟨Int.le_trans (h b1 (mem _ m1)).1 q1, Int.le_trans q2 (h b2 (mem _ m2)).2.1, Int.le_trans (h b3 (mem _ m3)).2.2.1 q3,
    Int.le_trans q4 (h b4 (mem _ m4)).2.2.2⟩

theorem area_one (area : Box → Option Box → Int) (b : Box) (p : Pt) : treeHas p (BBoxIdx.build area [b]) = true ↔ InBox p b := by
  rw [area_apart (by simp [Apart])]
  simp

/-! ### the tags that are read -/

theorem isBounds_iff (e : XEv) : e.isBounds = true ↔ ∃ k b, e = .bounds k b := by
  cases e <;> simp [XEv.isBounds]

theorem skipBounds_eq (h0 : XEv) (pre : List XEv) (l : Nat) (b : Bounds) (post : List XEv) (h : ∀ e ∈ pre, ∀ k b, e ≠ .bounds k b) :
    skipBounds (h0 :: (pre ++ .bounds l b :: post)) = .bounds l b :: post := by
  show (pre ++ .bounds l b :: post).dropWhile _ = _
  induction pre with
  | nil => rfl
  | cons e pre ih =>
    have he : e.isBounds = false := by
      cases hb : e.isBounds with
      | false => rfl
      | true =>
        obtain ⟨k, b, rfl⟩ := (isBounds_iff e).1 hb
        exact absurd rfl (h _ List.mem_cons_self k b)
    rw [List.cons_append, List.dropWhile_cons_of_pos (by simp [he])]
    exact ih fun e he => h e (List.mem_cons_of_mem _ he)

theorem skipBounds_some {file : List XEv} {l : Nat} {b : Bounds} {post : List XEv} (h : skipBounds file = .bounds l b :: post) :
    ∃ h0 pre, file = h0 :: (pre ++ .bounds l b :: post) ∧ ∀ e ∈ pre, ∀ k b, e ≠ .bounds k b := by
  cases file with
  | nil => cases h
  | cons h0 rest =>
    refine ⟨h0, ?_⟩
    change rest.dropWhile _ = _ at h
    refine ⟨rest.takeWhile fun e => !e.isBounds, ?_, fun e he k b hk => ?_⟩
    · have := List.takeWhile_append_dropWhile (p := fun e : XEv => !e.isBounds) (l := rest)
      rw [h] at this
      rw [this]
    · have : (!e.isBounds) = true := List.all_eq_true.1 List.all_takeWhile e he
      subst hk
      cases this

theorem skipBounds_head {file : List XEv} {e : Ev Pt} {post : List XEv} (h : skipBounds file = .ev e :: post) : False := by
  cases file with
  | nil => cases h
  | cons h0 rest =>
    change rest.dropWhile _ = _ at h
    have := List.head?_dropWhile_not (fun e : XEv => !e.isBounds) rest
    rw [h] at this
    simp [XEv.isBounds] at this

/-- Filtering looks only at the tags from the first node on. -/
theorem filterWrite_skip {P : Type} (p0 : P) (f : Flt) (kN kW kR : List Str) (box : List BoxOp → Nat → Bool) (bbox : P → Bool) {a b : List (Ev P)}
    (h : skipUntil .node a = skipUntil .node b) : filterWrite p0 f kN kW kR box bbox a = filterWrite p0 f kN kW kR box bbox b := by
  unfold filterWrite
  rw [h]

theorem extract_skip {P : Type} (w : Pen P) (p0 : P) (os : List Opts) (ord : Attrs → Attrs) (box : List BoxOp → Nat → Bool) (bbox : P → Bool)
    {a b : List (Ev P)} (h : skipUntil .node a = skipUntil .node b) : extract w p0 os ord box bbox a = extract w p0 os ord box bbox b := by
  unfold extract
  rw [filterWrite_skip _ _ _ _ _ _ _ h]

theorem extract_head {P : Type} (w : Pen P) (p0 : P) (os : List Opts) (ord : Attrs → Attrs) (box : List BoxOp → Nat → Bool) (bbox : P → Bool)
    (a : List (Ev P)) : ∃ l, extract w p0 os ord box bbox a = head ++ l := ⟨_, rfl⟩

/-- The written tags, without the corners of the `bounds` tag. -/
theorem write_seen (w : Pen Pt) (p0 : Pt) (os : List Opts) (ord : Attrs → Attrs) (box : List BoxOp → Nat → Bool) (area : Box → Option Box → Int)
    (pad : Box → Box) (boxes bs : List Box) (file rest : List XEv) (h : region pad boxes file = .ok (bs, rest)) :
    ∃ out, write w p0 os ord box area pad boxes file = .ok out ∧
      out.map XEv.seen = extract w p0 os ord box (fun q => treeHas q (BBoxIdx.build area bs)) (rest.map XEv.seen) := by
  unfold write
  rw [h]
  refine ⟨_, rfl, ?_⟩
  obtain ⟨l, hl⟩ := extract_head w p0 os ord box (fun q => treeHas q (BBoxIdx.build area bs)) (rest.map XEv.seen)
  rw [hl]
  simp only [head, List.map_cons, List.map_map]
  have : (XEv.seen ∘ XEv.ev) = id := rfl
  rw [this, List.map_id]
  rfl

theorem seen_rest (l : List (Ev Pt)) : (l.map XEv.ev).map XEv.seen = l := by
  rw [List.map_map]
  have : (XEv.seen ∘ XEv.ev) = id := rfl
  rw [this, List.map_id]

theorem file_seen {d : Doc Pt} {hdr file : List XEv} (h : IsFile d hdr file) : file.map XEv.seen = d.tags := by
  obtain ⟨l, h1, rfl⟩ := h.rest
  rw [List.map_append, seen_rest, h.header, h1]

/-- The tags from the `bounds` tag on have the same elements. -/
theorem bounds_rest {d : Doc Pt} (hd : d.Ok) {hdr file : List XEv} (hf : IsFile d hdr file) {h0 : XEv} {pre : List XEv} {l : Nat} {b : Bounds}
    {post : List XEv} (hh : hdr = h0 :: (pre ++ .bounds l b :: post)) (hp : ∀ e ∈ pre, ∀ k b, e ≠ .bounds k b) :
    ∃ rest, skipBounds file = .bounds l b :: rest ∧ skipUntil .node ((XEv.bounds l b :: rest).map XEv.seen) = skipUntil .node d.tags := by
  obtain ⟨r, h1, h2⟩ := hf.rest
  refine ⟨post ++ r.map .ev, ?_, ?_⟩
  · rw [h2, hh]
    simp only [List.cons_append, List.append_assoc]
    exact skipBounds_eq h0 pre l b _ hp
  · obtain ⟨g0, gs, hg, hn⟩ := hd.head
    have hr : r = flat (d.nodes.map DNode.el) ++ (flat (d.ways.map DElem.way) ++ flat (d.rels.map DElem.rel)) := List.append_cancel_left (h1.symm.trans rfl)
    have e1 : skipUntil .node d.tags = r := by
      rw [h1, hg, hr]
      exact skip_node g0 gs hn d.nodes hd.some _
    rw [e1]
    have hseen := hf.header
    rw [hh, hg] at hseen
    simp only [List.map_cons, List.map_append, List.cons.injEq] at hseen
    have hpost : ∀ e ∈ post.map XEv.seen, isNode e.tag = false := fun e he => hn e (by
      rw [← hseen.2]
      exact List.mem_append_right _ (List.mem_cons_of_mem _ he))
    rw [List.map_cons, List.map_append, seen_rest, hr]
    exact skip_node _ _ hpost d.nodes hd.some _

theorem boundsBox_ok {b : Bounds} {c : Box} : boundsBox b = .ok c ↔ b = ⟨some c.y1, some c.x1, some c.y2, some c.x2⟩ := by
  obtain ⟨a1, a2, a3, a4⟩ := b
  obtain ⟨x1, y1, x2, y2⟩ := c
  unfold boundsBox
  cases a1 <;> cases a2 <;> cases a3 <;> cases a4 <;> simp
  constructor <;> (rintro ⟨rfl, rfl, rfl, rfl⟩; simp)

theorem boundsBox_err {b : Bounds} : (∃ e, boundsBox b = .error e) ↔ b.minlat = none ∨ b.minlon = none ∨ b.maxlat = none ∨ b.maxlon = none := by
  obtain ⟨a1, a2, a3, a4⟩ := b
  unfold boundsBox
  cases a1 <;> cases a2 <;> cases a3 <;> cases a4 <;> simp

end Verif.Region
