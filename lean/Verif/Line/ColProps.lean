import Verif.Line.ColLemmas

/-!
# Colour of a shape (property C60), distances of stop times (C46), examples
-/

set_option linter.unusedSectionVars false

namespace Verif.Line
open Verif.Router (Hop HopEnd)
variable {E Pt : Type} [DecidableEq E]

theorem best_pos {tot : Rat} (ht : 0 < tot) (cols : Cols) :
    (∀ c, bestColor cols tot = some c → ∃ x, (c, x) ∈ cols ∧ 9 / 10 * tot < x ∧ ∀ p ∈ cols, p.2 ≤ x) ∧
    (bestColor cols tot = none → ∀ p ∈ cols, p.2 ≤ 9 / 10 * tot) := by
  have h := best_inv ht cols [] (Share.fin 0, none) ⟨⟨0, rfl, by grind, by simp, by simp, fun _ => rfl⟩, by simp⟩
  rw [List.nil_append] at h
  rw [bestColor_eq]
  have hdiv : ∀ x : Rat, x / tot * tot = x := fun x => by
    rw [Rat.div_mul_cancel]; grind
  have hle : ∀ x y : Rat, x / tot ≤ y → x ≤ y * tot := by
    intro x y hxy
    have := Rat.mul_le_mul_of_nonneg_right hxy (c := tot) (by grind)
    rwa [hdiv] at this
  have hlt : ∀ x y : Rat, y < x / tot → y * tot < x := by
    intro x y hxy
    have := Rat.mul_lt_mul_of_pos_right hxy ht
    rwa [hdiv] at this
  obtain ⟨⟨v, _, _, h1, h2, _⟩, h3⟩ := h
  constructor
  · intro c hc
    obtain ⟨x, hx, hv, hgt⟩ := h2 c hc
    refine ⟨x, hx, hlt _ _ (by rw [← hv]; exact hgt), ?_⟩
    intro p hp
    have : p.2 / tot ≤ x / tot := by
      rcases h1 p hp with h | h
      · rw [← hv]; exact h
      · rw [← hv]; grind
    have := hle _ _ this
    rwa [hdiv] at this
  · intro hn p hp
    exact hle _ _ (h3 hn p hp)

theorem best_mem {tot : Rat} : ∀ (cols seen : Cols) (b : Share × Option Nat),
    (∀ c, b.2 = some c → ∃ x, (c, x) ∈ seen ∧ (share x tot).gt (.fin (9 / 10)) = true) →
    ∀ c, (cols.foldl (bestStep tot) b).2 = some c →
      ∃ x, (c, x) ∈ seen ++ cols ∧ (share x tot).gt (.fin (9 / 10)) = true := by
  intro cols
  induction cols with
  | nil => intro seen b h; simpa using h
  | cons p cols ih =>
    intro seen b h
    rw [List.foldl_cons]
    have e : seen ++ p :: cols = (seen ++ [p]) ++ cols := by simp
    rw [e]
    apply ih
    intro c hc
    unfold bestStep at hc
    split at hc
    · rename_i hg
      simp only [Option.some.injEq] at hc
      simp only [Bool.and_eq_true] at hg
      exact ⟨p.2, by rw [← hc]; simp, hg.1⟩
    · obtain ⟨x, hx, hx'⟩ := h c hc
      exact ⟨x, List.mem_append_left _ hx, hx'⟩

/-- C60, for trips without a hop that stays on one edge (see `C60_negation`): a colour is only
chosen if more than 90 % of the length of the shape are on edges with a matching line of that
colour, no other colour has more, and if none is chosen then no colour has that much. -/
theorem C60_color_partial {geo : Geo Pt} {pt : List Pt → Rat → Pt} (ok : GeoOk geo pt) {g : Edges E Pt} (gok : GeomOk g)
    (hn : ∀ e, (g.cols e).Nodup) (hops : List (LHop E Pt)) (hok : ∀ h ∈ hops, HopOk g h)
    (h1 : ∀ h ∈ hops, h.edges.length ≠ 1) (hne : hops ≠ []) :
    ∃ r tot, getGtfsShape geo g hops = some r ∧ r.dists.getLast? = some tot ∧
      (∀ c, r.color = some c → 9 / 10 * tot < onHops geo g c hops ∧
        (0 < tot → ∀ c', onHops geo g c' hops ≤ onHops geo g c hops)) ∧
      (0 < tot → r.color = none → ∀ c, onHops geo g c hops ≤ 9 / 10 * tot) := by
  obtain ⟨lines, cols, g1, g2, g3⟩ := getGeom_spec ok gok hops hok
  obtain ⟨r, lines', cols', k1, k2, _, _, _, _, _, _, k3, k4, _, k5⟩ := C46_shape_partial ok gok hops hok hne
  rw [g1] at k1; cases k1
  have hlen : 0 < hops.length := List.length_pos_iff.mpr hne
  have hlne : lines ≠ [] := by intro e; rw [e] at g2; simp at g2; omega
  have hall : ∀ l ∈ lines, l ≠ [] := by
    intro l hl
    obtain ⟨k, hk⟩ := List.mem_iff_getElem?.mp hl
    have hk' : k < hops.reverse.length := by
      rw [List.length_reverse, ← g2]; exact (List.getElem?_eq_some_iff.mp hk).1
    exact lineOf_ne_nil (g3 k _ l (List.getElem?_eq_getElem hk') hk)
  obtain ⟨p, rest, tot, hfl, htot, hmeas, hshp⟩ := getGtfsShape_eq g1 hlne hall
  rw [k2] at hshp
  have hr := Option.some.inj hshp
  have hadds := geomGo_cols hn hops hok h1 hops.length ([], []) _ g1
  rw [List.take_length] at hadds
  have hsorted : Cols.Sorted cols := hadds.1 (by simp [Cols.Sorted])
  have hval : ∀ c, Cols.val cols c = onHops geo g c hops := by
    intro c
    rw [hadds.2 c]
    simp [Cols.val]
    grind
  have hcol : r.color = bestColor cols tot := by rw [hr]
  have hd : r.dists.getLast? = some tot := by
    rw [k5, hr]
    simp only
    have hml : (0 :: distsFrom geo 0 p rest).length = lines.flatten.length := by rw [hfl]; simp [distsFrom_length]
    have hfp : 0 < lines.flatten.length := by rw [hfl]; simp
    have hi : lines.flatten.length - 1 < (mkPts (0 :: distsFrom geo 0 p rest) lines.flatten 0).length := by
      rw [mkPts_length]; omega
    have hq := List.getElem?_eq_getElem hi
    rw [List.getLast?_eq_getElem?, mkPts_length, hq, Option.map_some, (mkPts_get hq).2.2, Nat.zero_add]
    rw [List.getLast?_eq_getElem?, hml] at htot
    rw [List.getD, htot]; rfl
  have htot0 : 0 ≤ tot := by
    obtain ⟨ys, hys⟩ := List.getLast?_eq_some_iff.mp hd
    rw [hys] at k3 k4
    cases ys with
    | nil => simp at k3; grind
    | cons y ys =>
      simp at k3
      rw [List.cons_append, List.pairwise_cons] at k4
      have := k4.1 tot (by simp)
      grind
  refine ⟨r, tot, k2, hd, ?_, ?_⟩
  · intro c hc
    rw [hcol] at hc
    by_cases hp : 0 < tot
    · obtain ⟨x, hx, hgt, hmax⟩ := (best_pos hp cols).1 c hc
      have hxv : onHops geo g c hops = x := by rw [← hval, val_of_mem hsorted hx]
      refine ⟨by rw [hxv]; exact hgt, fun _ c' => ?_⟩
      rw [hxv, ← hval]
      by_cases hz : Cols.val cols c' = 0
      · rw [hz]; grind
      · obtain ⟨y, hy⟩ := mem_of_val hz
        rw [val_of_mem hsorted hy]
        exact hmax _ hy
    · have ht : tot = 0 := by grind
      refine ⟨?_, fun h => absurd h hp⟩
      rw [bestColor_eq] at hc
      obtain ⟨x, hx, hgt⟩ := best_mem (tot := tot) cols [] (Share.fin 0, none) (by simp) c hc
      rw [List.nil_append] at hx
      rw [← hval, val_of_mem hsorted hx, ht]
      unfold share at hgt
      rw [if_pos ht] at hgt
      split at hgt
      · grind
      · simp [Share.gt] at hgt
  · intro hp hc c
    rw [hcol] at hc
    rw [← hval]
    by_cases hz : Cols.val cols c = 0
    · rw [hz]; grind
    · obtain ⟨y, hy⟩ := mem_of_val hz
      rw [val_of_mem hsorted hy]
      exact (best_pos hp cols).2 hc _ hy

/-- C46, distances of the stop times: with one distance per stop time, each stop time gets the
distance with its index (and nothing is read out of range). -/
theorem C46_stop_times (dists : List Rat) (n : Nat) (h : dists.length = n) : setDists dists 0 n = some dists := by
  suffices ∀ (m i : Nat), i + m = dists.length → setDists dists i m = some (dists.drop i) by
    have := this n 0 (by omega)
    simpa using this
  intro m
  induction m with
  | zero => intro i hi; rw [List.drop_eq_nil_of_le (by omega)]; rfl
  | succ m ih =>
    intro i hi
    have hlt : i < dists.length := by omega
    unfold setDists
    rw [List.getElem?_eq_getElem hlt]
    simp only [ih (i + 1) (by omega), Option.map_some]
    rw [List.drop_eq_getElem_cons hlt]

/-! ### examples -/

/-- Points on a straight line; parts of a line are the straight line between their ends. -/
def exPt (l : List Rat) (x : Rat) : Rat :=
  if x ≤ 0 then l.headD 0 else if 1 ≤ x then l.getLastD 0 else l.headD 0 + x * (l.getLastD 0 - l.headD 0)

def exGeo : Geo Rat :=
  { seg := fun l a b => if a ≤ b then [exPt l a, exPt l b] else []
    simplify := id
    dist := fun a b => if a ≤ b then b - a else a - b
    rnd := id }

theorem exGeo_ok : GeoOk exGeo exPt := by
  constructor
  · intro l p h; cases l with
    | nil => simp at h
    | cons a l => simp at h; simp [exPt, h]
  · intro l p h
    have : ¬ (1 : Rat) ≤ 0 := by decide
    obtain ⟨ys, rfl⟩ := List.getLast?_eq_some_iff.mp h
    unfold exPt
    rw [if_neg this, if_pos (by decide)]
    simp
  · intro l a b _ _ hab _
    simp only [exGeo, if_pos hab]
    exact ⟨rfl, rfl, by simp⟩
  · intro l _; rfl
  · intro l _; rfl
  · intro l _; exact List.Sublist.refl _
  · intro a b; simp only [exGeo]; split <;> grind
  · rfl
  · intro x; rfl
  · intro x y h; exact h

/-- Edge 0 leads from 0 to 10, edge 1 (whose geometry is reversed) to 30 and edge 2 to 40; colour 7
matches on the first two. -/
def exG : Edges Nat Rat :=
  { from_ := fun e => match e with | 0 => 0 | 1 => 10 | 2 => 30 | _ => 0
    to_ := fun e => match e with | 0 => 10 | 1 => 30 | 2 => 40 | _ => 0
    geom := fun e => match e with | 0 => some [0, 10] | 1 => some [30, 18, 10] | 2 => some [30, 40] | _ => none
    rev := fun e => match e with | 1 => true | _ => false
    cols := fun e => match e with | 0 => [7, 9] | 1 => [7] | _ => [] }

theorem exG_ok : GeomOk exG := by
  intro e l h
  rw [trav_unique h]
  match e with
  | 0 => decide +kernel
  | 1 => decide +kernel
  | 2 => decide +kernel
  | _ + 3 => exact ⟨rfl, rfl⟩

/-- From the middle of edge 0 to a tenth of edge 2, then straight to a position. -/
def exHop1 : LHop Nat Rat := ⟨[2, 1, 0], .onEdge 0 (⟨1/2, 0⟩, 0), .onEdge 2 (⟨1/10, 0⟩, 0)⟩
def exHop2 : LHop Nat Rat := ⟨[], .onEdge 2 (⟨1/10, 0⟩, 0), .free (⟨0, 32⟩, 0)⟩

theorem exHops_ok : ∀ h ∈ [exHop2, exHop1], HopOk exG h := by
  intro h hh
  simp only [List.mem_cons, List.not_mem_nil, or_false] at hh
  rcases hh with rfl | rfl
  · constructor
    · intro e x h; cases h; decide +kernel
    · intro e x h; cases h
    · intro _; rfl
    · intro e x _ h; exact absurd rfl h
    · intro e x _ h; exact absurd rfl h
    · trivial
    · intro e h; cases h
    · intro e x e' y _ h; cases h
  · constructor
    · intro e x h; cases h; decide +kernel
    · intro e x h; cases h; decide +kernel
    · rintro (⟨x, h⟩ | ⟨x, h⟩) <;> cases h
    · intro e x h _; cases h; rfl
    · intro e x h _; cases h; rfl
    · exact ⟨rfl, rfl, trivial⟩
    · decide
    · intro e x e' y _ _ h; cases h

-- the hypotheses of C46, C53 and C60 are met by a trip along three edges
example : (∀ h ∈ [exHop2, exHop1], HopOk exG h) ∧ (∀ h ∈ [exHop2, exHop1], h.edges.length ≠ 1) ∧
    (∀ e, (exG.cols e).Nodup) := by
  refine ⟨exHops_ok, by decide, ?_⟩
  intro e
  match e with
  | 0 => decide
  | 1 => decide
  | _ + 2 => exact List.nodup_nil

example : getGtfsShape exGeo exG [exHop2, exHop1] =
    some ⟨[⟨5, 0, 0⟩, ⟨10, 5, 1⟩, ⟨10, 5, 2⟩, ⟨18, 13, 3⟩, ⟨30, 25, 4⟩, ⟨30, 25, 5⟩, ⟨31, 26, 6⟩, ⟨31, 26, 7⟩, ⟨32, 27, 8⟩],
      [0, 26, 27], some 7⟩ := by decide +kernel

/-! ### limits -/

/-- Edge 0 leads from 0 to 10 (colour 7), edge 1 to 20 (no colour). -/
def exG2 : Edges Nat Rat :=
  { from_ := fun e => match e with | 0 => 0 | 1 => 10 | _ => 0
    to_ := fun e => match e with | 0 => 10 | 1 => 20 | _ => 0
    geom := fun e => match e with | 0 => some [0, 10] | 1 => some [10, 20] | _ => none
    rev := fun _ => false
    cols := fun e => match e with | 0 => [7] | _ => [] }

/-- The last tenth of edge 0, then nine tenths of edge 1. -/
def exShort : LHop Nat Rat := ⟨[0], .onEdge 0 (⟨9/10, 0⟩, 0), .onEdge 0 (⟨1, 0⟩, 0)⟩
def exLong : LHop Nat Rat := ⟨[1], .onEdge 1 (⟨0, 0⟩, 0), .onEdge 1 (⟨9/10, 0⟩, 0)⟩

theorem exShort_ok : ∀ h ∈ [exLong, exShort], HopOk exG2 h := by
  intro h hh
  simp only [List.mem_cons, List.not_mem_nil, or_false] at hh
  rcases hh with rfl | rfl
  all_goals
    constructor
    · intro e x h; cases h; decide +kernel
    · intro e x h; cases h; decide +kernel
    · rintro (⟨x, h⟩ | ⟨x, h⟩) <;> cases h
    · intro e x h _; cases h; rfl
    · intro e x h _; cases h; rfl
    · trivial
    · decide
    · intro e x e' y h h' _; cases h; cases h'; decide +kernel

/-- C60 fails for hops that stay on one edge: the whole length of the edge is added to its colours.
Here only a tenth of the way has colour 7 (1 of 10), and it is chosen all the same. -/
theorem C60_negation : ∃ (hops : List (LHop Nat Rat)) (r : Shp Rat), (∀ h ∈ hops, HopOk exG2 h) ∧
    getGtfsShape exGeo exG2 hops = some r ∧ r.dists.getLast? = some 10 ∧ r.color = some 7 ∧
    onHops exGeo exG2 7 hops = 1 :=
  ⟨[exLong, exShort], ⟨[⟨9, 0, 0⟩, ⟨10, 1, 1⟩, ⟨10, 1, 2⟩, ⟨19, 10, 3⟩], [0, 1, 10], some 7⟩, exShort_ok,
    by decide +kernel, rfl, rfl, by decide +kernel⟩

/-! ### hops that go backwards on an edge -/

/-- Every stop has a candidate on edge 0, the last one is further back than the one before. -/
def bwGen : Verif.Router.Gen Nat (Option Nat) (Pos Rat) :=
  { cands := fun i => [⟨none, some 0, ⟨0, 3⟩⟩, ⟨some 0, some 3, ⟨if i = 1 then 1 / 5 else if i = 4 then 2 / 5 else 4 / 5, 0⟩⟩]
    timePen := fun a b => some (a - b).natAbs
    add := Verif.Router.exCost.add }

/-- As in the program, there are no costs for going back on an edge (Router.tpp:393-404); the path
from an edge to itself is this edge. -/
def bwEnv (ecm : Verif.Router.Ecm Nat (Option Nat) (Pos Rat)) :
    Verif.Router.Env Nat (Option Nat) (Pos Rat × Int) Nat Unit :=
  { ops := Verif.Router.exCost, ecm := ecm, maxCost0 := fun _ => 5
    hops := fun _ nid _ _ => (if nid = 2 then [⟨1, 1, 3, 0⟩] else [], ())
    weight := fun _ e => some e.c.toNat
    path := fun _ a b => if a = b then [a] else [] }

def bwHops (nid : Nat) : Option (List (LHop Nat Rat)) :=
  match Verif.Trie.history Verif.Trie.exEnv Verif.Trie.exOps with
  | none => none
  | some r => match Verif.Router.getECM bwGen r.1.nds with
    | none => none
    | some ecm => Verif.Router.route (bwEnv ecm) r.1.nds () nid

/-- The hops of a trip as found by the router (last one first): edges, start and end. -/
def bwEnds : Option (List (List Nat × (Option Nat × Rat) × (Option Nat × Rat))) :=
  (bwHops 4).map fun hs => hs.map fun h =>
    (h.edges, (h.fr.place.1, h.fr.place.2.progr), (h.to.place.1, h.to.place.2.progr))

/-- C53 and C46, limit: if no hop was found, the router uses `dummy edges' (Router.tpp:166-179),
which may lead backwards within one edge (here from 4/5 to 2/5 of edge 0). The line is then
`getSegment(4/5, 2/5)`; if that is the empty line, the shape ends at the stop before. -/
theorem C53_limit_backward :
    bwEnds = some [([0], (some 0, 4 / 5), (some 0, 2 / 5)), ([0], (some 0, 1 / 5), (some 0, 4 / 5))] ∧
    (bwHops 4).bind (getGtfsShape exGeo exG2) = some ⟨[⟨2, 0, 0⟩, ⟨8, 6, 1⟩], [0, 6, 6], some 7⟩ := by
  refine ⟨by decide +kernel, by decide +kernel⟩

end Verif.Line
