import Verif.Line.MeasLemmas
import Verif.Router.Props

/-!
# Geometries and distances of shapes (properties C46, C53)
-/

set_option linter.unusedSectionVars false

namespace Verif.Line
open Verif.Router (Hop HopEnd route getECM Laws Finite Placeholder Gen)
open Verif.Trie (Op history)
variable {E Pt : Type} [DecidableEq E]

theorem getGeom_spec {geo : Geo Pt} {pt : List Pt → Rat → Pt} (ok : GeoOk geo pt) {g : Edges E Pt} (gok : GeomOk g)
    (hops : List (LHop E Pt)) (hok : ∀ h ∈ hops, HopOk g h) :
    ∃ lines c, getGeom geo g hops = some (lines, c) ∧ lines.length = hops.length ∧
      ∀ (k : Nat) (h : LHop E Pt) (l : List Pt), hops.reverse[k]? = some h → lines[k]? = some l → LineOf pt g h l := by
  obtain ⟨ls, c, h1, h2, h3⟩ := geomGo_spec (geo := geo) (g := g) (LineOf pt g) hops
    (fun h hh cols => oneLine_spec ok gok (hok h hh) cols) hops.length ([], []) (Nat.le_refl _)
  refine ⟨ls, c, by simpa [getGeom] using h1, h2, ?_⟩
  intro k h l hk hl
  exact h3 k h l (by rw [List.take_length]; exact hk) hl

/-- C53. The lines of a trip are those of its hops, in the order of travel (the hops are stored
in reverse order): each leads from the start position of its hop to its end position, is straight
if the hop has no route, and otherwise follows the edges of the route, each in its direction of
travel. Nothing undefined happens. -/
theorem C53_lines_partial {geo : Geo Pt} {pt : List Pt → Rat → Pt} (ok : GeoOk geo pt) {g : Edges E Pt} (gok : GeomOk g)
    (hops : List (LHop E Pt)) (hok : ∀ h ∈ hops, HopOk g h) :
    ∃ lines c, getGeom geo g hops = some (lines, c) ∧ lines.length = hops.length ∧
      ∀ (k : Nat) (h : LHop E Pt) (l : List Pt), hops.reverse[k]? = some h → lines[k]? = some l → LineOf pt g h l :=
  getGeom_spec ok gok hops hok

theorem at_unique {pt : List Pt → Rat → Pt} {g : Edges E Pt} {x y : HopEnd E (Pos Pt × Int)} {a b : Pt}
    (ha : At pt g x a) (hb : At pt g y b) (h : x.place = y.place) : a = b := by
  cases ha with
  | edge e x l ht =>
    cases hb with
    | edge e' y l' ht' =>
      simp only [HopEnd.place, Prod.mk.injEq, Option.some.injEq] at h
      obtain ⟨h1, h2⟩ := h
      subst h1
      rw [trav_unique ht, trav_unique ht', h2]
    | free => simp [HopEnd.place] at h
  | free x =>
    cases hb with
    | edge => simp [HopEnd.place] at h
    | free y =>
      simp only [HopEnd.place, Prod.mk.injEq, true_and] at h
      rw [h]

theorem meet_get : ∀ (hs : List (LHop E Pt)), Verif.Router.Meet hs → ∀ (k : Nat) (h h' : LHop E Pt),
    hs[k]? = some h → hs[k + 1]? = some h' → h.fr.place = h'.to.place := by
  intro hs
  induction hs with
  | nil => intro _ k h h' hk; simp at hk
  | cons a hs ih =>
    intro hm k h h' hk hk'
    cases hs with
    | nil => simp at hk'
    | cons b hs =>
      cases k with
      | zero =>
        simp only [List.getElem?_cons_zero, List.getElem?_cons_succ, Option.some.injEq] at hk hk'
        subst hk; subst hk'
        exact hm.1
      | succ k =>
        simp only [List.getElem?_cons_succ] at hk hk'
        exact ih hm.2 k h h' hk (by simpa using hk')

/-- Lines of hops of which each starts where the one before ended are connected. -/
theorem lines_meet {pt : List Pt → Rat → Pt} {g : Edges E Pt} {hops : List (LHop E Pt)} {lines : List (List Pt)}
    (hlen : lines.length = hops.length) (hm : Verif.Router.Meet hops)
    (H : ∀ (k : Nat) (h : LHop E Pt) (l : List Pt), hops.reverse[k]? = some h → lines[k]? = some l → LineOf pt g h l)
    (k : Nat) (l l' : List Pt) (hl : lines[k]? = some l) (hl' : lines[k + 1]? = some l') : l.getLast? = l'.head? := by
  have hk1 : k + 1 < hops.length := by
    rw [← hlen]; exact (List.getElem?_eq_some_iff.mp hl').1
  have e1 : hops.reverse[k]? = some (hops[hops.length - 1 - k]'(by omega)) := by
    rw [List.getElem?_reverse (by omega), List.getElem?_eq_getElem]
  have e2 : hops.reverse[k + 1]? = some (hops[hops.length - 1 - (k + 1)]'(by omega)) := by
    rw [List.getElem?_reverse (by omega), List.getElem?_eq_getElem]
  obtain ⟨⟨a, b, _, hb, _, hlast, _⟩, _⟩ := H k _ l e1 hl
  obtain ⟨⟨a', b', ha', _, hhead, _, _⟩, _⟩ := H (k + 1) _ l' e2 hl'
  have := meet_get hops hm (hops.length - 1 - (k + 1)) _ _ (List.getElem?_eq_getElem (by omega))
    (by rw [List.getElem?_eq_getElem (by omega)])
  have e3 : hops.length - 1 - (k + 1) + 1 = hops.length - 1 - k := by omega
  simp only [e3] at this
  rw [hlast, hhead, at_unique ha' hb this]

/-- C53, for the hops found by the router: the lines of a filed trip are connected, one per pair
of consecutive stops. -/
theorem C53_trip_partial {C D S T P A : Type} [DecidableEq T] {geo : Geo Pt} {pt : List Pt → Rat → Pt} (ok : GeoOk geo pt)
    {g : Edges E Pt} (gok : GeomOk g)
    (tenv : Verif.Trie.Env T P A) (hnear : ∀ p, tenv.near p p = true) (ops : List (Op T A))
    (tr : Verif.Trie.Trie T P A) (log : List (Op T A × Nat)) (h : history tenv ops = some (tr, log))
    (env : Verif.Router.Env E C (Pos Pt × Int) D S) (L : Laws env.ops) (F : Finite env.ops) (gen : Gen E C (Pos Pt))
    (pl : Placeholder env.ops gen) (he : getECM gen tr.nds = some env.ecm) (s : S) (op : Op T A) (nid : Nat)
    (hop : (op, nid) ∈ log) (hstops : 2 ≤ (tenv.stops op.t).length)
    (hok : ∀ hs, route env tr.nds s nid = some hs → ∀ h ∈ hs, HopOk g h) :
    ∃ hs lines c, route env tr.nds s nid = some hs ∧ getGeom geo g hs = some (lines, c) ∧
      lines.length = (tenv.stops op.t).length - 1 ∧
      (∀ (k : Nat) (h : LHop E Pt) (l : List Pt), hs.reverse[k]? = some h → lines[k]? = some l → LineOf pt g h l) ∧
      ∀ (k : Nat) (l l' : List Pt), lines[k]? = some l → lines[k + 1]? = some l' → l.getLast? = l'.head? := by
  obtain ⟨hs, h1, h2⟩ := Verif.Router.C57_hops_meet tenv hnear ops tr log h env L F gen pl he s op nid hop hstops
  obtain ⟨hs', h3, h4⟩ := Verif.Router.C13_one_hop_per_pair tenv hnear ops tr log h env L F gen pl he s op nid hop hstops
  rw [h1] at h3; cases h3
  obtain ⟨lines, c, h5, h6, h7⟩ := getGeom_spec ok gok hs (hok hs h1)
  exact ⟨hs, lines, c, h1, h5, by omega, h7, lines_meet h6 h2 h7⟩

/-! ### distances -/

theorem mkPts_get {meas : List Rat} {l : List Pt} {k i : Nat} {q : ShpPt Pt} (h : (mkPts meas l k)[i]? = some q) :
    q.seq = k + i ∧ l[i]? = some q.p ∧ q.d = meas.getD (k + i) 0 := by
  simp only [mkPts, List.getElem?_map, Option.map_eq_some_iff] at h
  obtain ⟨⟨p, j⟩, h1, rfl⟩ := h
  rw [List.getElem?_zipIdx, Option.map_eq_some_iff] at h1
  obtain ⟨p', h2, h3⟩ := h1
  cases h3
  exact ⟨rfl, h2, rfl⟩

theorem mkPts_length (meas : List Rat) (l : List Pt) (k : Nat) : (mkPts meas l k).length = l.length := by
  simp [mkPts]

theorem getGtfsShape_eq {geo : Geo Pt} {g : Edges E Pt} {hops : List (LHop E Pt)} {lines : List (List Pt)} {c : Cols}
    (h : getGeom geo g hops = some (lines, c)) (hne : lines ≠ []) (hl : ∀ l ∈ lines, l ≠ []) :
    ∃ p rest tot, lines.flatten = p :: rest ∧ (0 :: distsFrom geo 0 p rest).getLast? = some tot ∧
      getMeasure geo lines = some (0 :: distsFrom geo 0 p rest) ∧
      getGtfsShape geo g hops = some ⟨mkPts (0 :: distsFrom geo 0 p rest) lines.flatten 0,
        0 :: ends (0 :: distsFrom geo 0 p rest) lines 0, bestColor c tot⟩ := by
  cases lines with
  | nil => exact absurd rfl hne
  | cons l ls =>
    cases l with
    | nil => exact absurd rfl (hl [] List.mem_cons_self)
    | cons p l =>
      have hm := getMeasure_eq geo p l ls
      have hlen : (0 :: distsFrom geo 0 p (l ++ ls.flatten)).length = ((p :: l) :: ls).flatten.length := by
        simp [distsFrom_length]
      obtain ⟨tot, htot⟩ : ∃ tot, (0 :: distsFrom geo 0 p (l ++ ls.flatten)).getLast? = some tot :=
        ⟨_, List.getLast?_eq_some_getLast (by simp)⟩
      refine ⟨p, l ++ ls.flatten, tot, by simp, htot, hm, ?_⟩
      unfold getGtfsShape
      rw [h]
      simp only [hm]
      rw [shpGo_eq _ _ _ _ _ (by omega) hl]
      simp only [htot]
      simp

/-- C46. The shape of a trip: its points are numbered consecutively, their distances start with
0 (at the start of the first hop), never decrease, and each adds the distance to the point before (up to rounding). There is one
distance per stop; the first one is 0, they never decrease, that of every other stop is the
distance of a shape point at the end of the hop to this stop, and the last one is the distance of
the last point. -/
theorem C46_shape_partial {geo : Geo Pt} {pt : List Pt → Rat → Pt} (ok : GeoOk geo pt) {g : Edges E Pt} (gok : GeomOk g)
    (hops : List (LHop E Pt)) (hok : ∀ h ∈ hops, HopOk g h) (hne : hops ≠ []) :
    ∃ r lines c, getGeom geo g hops = some (lines, c) ∧ getGtfsShape geo g hops = some r ∧
      r.pts.map (·.p) = lines.flatten ∧
      (∀ (i : Nat) q, r.pts[i]? = some q → q.seq = i) ∧
      (∃ q, r.pts.head? = some q ∧ q.d = 0 ∧ ∃ h, hops.getLast? = some h ∧ At pt g h.fr q.p) ∧
      (r.pts.map (·.d)).Pairwise (· ≤ ·) ∧
      (∀ (i : Nat) q q', r.pts[i]? = some q → r.pts[i + 1]? = some q' → q'.d = geo.rnd (q.d + geo.dist q.p q'.p)) ∧
      r.dists.length = hops.length + 1 ∧
      r.dists.head? = some 0 ∧
      r.dists.Pairwise (· ≤ ·) ∧
      (∀ (k : Nat) (h : LHop E Pt) d, hops.reverse[k]? = some h → r.dists[k + 1]? = some d →
        ∃ (i : Nat) (q : ShpPt Pt), r.pts[i]? = some q ∧ q.d = d ∧ At pt g h.to q.p) ∧
      r.dists.getLast? = (r.pts.getLast?).map (·.d) := by
  obtain ⟨lines, c, h1, h2, h3⟩ := getGeom_spec ok gok hops hok
  have hlen : 0 < hops.length := List.length_pos_iff.mpr hne
  have hlne : lines ≠ [] := by intro e; rw [e] at h2; simp at h2; omega
  have lineOf : ∀ (k : Nat) (l : List Pt), lines[k]? = some l → ∃ h, hops.reverse[k]? = some h ∧ LineOf pt g h l := by
    intro k l hl
    have hk : k < hops.reverse.length := by
      rw [List.length_reverse, ← h2]; exact (List.getElem?_eq_some_iff.mp hl).1
    exact ⟨_, List.getElem?_eq_getElem hk, h3 k _ l (List.getElem?_eq_getElem hk) hl⟩
  have hall : ∀ l ∈ lines, l ≠ [] := by
    intro l hl
    obtain ⟨k, hk⟩ := List.mem_iff_getElem?.mp hl
    obtain ⟨h, _, hh⟩ := lineOf k l hk
    exact lineOf_ne_nil hh
  obtain ⟨p, rest, tot, hfl, htot, hmeas, hshp⟩ := getGtfsShape_eq h1 hlne hall
  have hml : (0 :: distsFrom geo 0 p rest).length = lines.flatten.length := by rw [hfl]; simp [distsFrom_length]
  have hsorted := distsFrom_sorted ok rest 0 p ok.rnd_zero
  generalize hM : (0 :: distsFrom geo 0 p rest) = M at *
  have hM0 : M.getD 0 0 = 0 := by rw [← hM]; rfl
  have mono : ∀ i j, i ≤ j → j < M.length → M.getD i 0 ≤ M.getD j 0 := by
    intro i j hij hj
    have hi : i < M.length := by omega
    simp only [List.getD, List.getElem?_eq_getElem hi, List.getElem?_eq_getElem hj, Option.getD_some]
    by_cases e : i = j
    · subst e; grind
    · exact List.pairwise_iff_getElem.mp hsorted i j hi hj (by omega)
  refine ⟨_, lines, c, h1, hshp, ?_, ?_, ?_, ?_, ?_, ?_, rfl, ?_, ?_, ?_⟩
  · simp [mkPts, Function.comp_def]
  · intro i q hq; have := (mkPts_get hq).1; omega
  · refine ⟨⟨p, 0, 0⟩, ?_, rfl, ?_⟩
    · rw [hfl]
      simp [mkPts, ← hM]
    · cases hl : lines with
      | nil => exact absurd hl hlne
      | cons l ls =>
        obtain ⟨h, hh, ⟨a, _, ha, _, hla, _⟩, _⟩ := lineOf 0 l (by rw [hl]; rfl)
        refine ⟨h, by rw [← List.head?_reverse, List.head?_eq_getElem?]; exact hh, ?_⟩
        have : lines.flatten.head? = some a := by
          rw [hl, List.flatten_cons, List.head?_append, hla]; rfl
        rw [hfl] at this
        cases this
        exact ha
  · have : (mkPts M lines.flatten 0).map (·.d) = M := by
      apply List.ext_getElem?
      intro i
      simp only [List.getElem?_map]
      cases hq : (mkPts M lines.flatten 0)[i]? with
      | none =>
        rw [List.getElem?_eq_none_iff, mkPts_length, ← hml] at hq
        simp [List.getElem?_eq_none hq]
      | some q =>
        have hi : i < M.length := by
          have := (List.getElem?_eq_some_iff.mp hq).1
          rw [mkPts_length] at this; omega
        simp only [Option.map_some, (mkPts_get hq).2.2, Nat.zero_add, List.getD, List.getElem?_eq_getElem hi,
          Option.getD_some]
    simp only [this]
    exact hsorted
  · intro i q q' hq hq'
    have hi := (List.getElem?_eq_some_iff.mp hq').1
    rw [mkPts_length, ← hml] at hi
    obtain ⟨_, a1, a2⟩ := mkPts_get hq
    obtain ⟨_, b1, b2⟩ := mkPts_get hq'
    rw [hfl] at a1 b1
    have hi0 : i < M.length := by omega
    refine distsFrom_step geo rest 0 p i q.p q'.p q.d q'.d a1 b1 ?_ ?_
    · rw [hM, a2, Nat.zero_add, List.getD, List.getElem?_eq_getElem hi0]; rfl
    · rw [hM, b2, Nat.zero_add, List.getD, List.getElem?_eq_getElem hi]; rfl
  · simp [ends_length, h2]
  · rw [List.pairwise_cons]
    have hidx : ∀ (i : Nat) (l : List Pt), lines[i]? = some l → (lines.take i).flatten.length + l.length ≤ M.length := by
      intro i l hl
      obtain ⟨hi, rfl⟩ := List.getElem?_eq_some_iff.mp hl
      rw [hml]
      have e := flatten_split lines i hi
      rw [e]; simp only [List.length_append]; omega
    have hpos : ∀ (i : Nat) (l : List Pt), lines[i]? = some l → 0 < l.length := fun i l hl =>
      List.length_pos_iff.mpr (hall l (List.mem_of_getElem? hl))
    constructor
    · intro d hd
      obtain ⟨i, hi⟩ := List.mem_iff_getElem?.mp hd
      have hil : i < lines.length := by
        have := (List.getElem?_eq_some_iff.mp hi).1
        rwa [ends_length] at this
      have hl := List.getElem?_eq_getElem hil
      rw [ends_get M lines 0 i _ hl] at hi
      cases hi
      have := mono 0 (0 + ((lines.take i).flatten.length + lines[i].length) - 1) (Nat.zero_le _)
        (by have := hidx i _ hl; have := hpos i _ hl; omega)
      rwa [hM0] at this
    · rw [List.pairwise_iff_getElem]
      intro i j hi hj hij
      have hil : i < lines.length := by rwa [ends_length] at hi
      have hjl : j < lines.length := by rwa [ends_length] at hj
      have ei := ends_get M lines 0 i _ (List.getElem?_eq_getElem hil)
      have ej := ends_get M lines 0 j _ (List.getElem?_eq_getElem hjl)
      rw [List.getElem?_eq_getElem hi] at ei
      rw [List.getElem?_eq_getElem hj] at ej
      simp only [Option.some.injEq] at ei ej
      rw [ei, ej]
      have hpi := hpos i _ (List.getElem?_eq_getElem hil)
      have hpj := hpos j _ (List.getElem?_eq_getElem hjl)
      have hjx := hidx j _ (List.getElem?_eq_getElem hjl)
      apply mono
      · have e : (lines.take j).flatten.length = (lines.take i).flatten.length + lines[i].length +
            ((lines.drop (i + 1)).take (j - (i + 1))).flatten.length := by
          have : lines.take j = lines.take i ++ lines[i] :: (lines.drop (i + 1)).take (j - (i + 1)) := by
            have e1 : j = i + (j - i) := by omega
            conv => lhs; rw [e1, List.take_add, List.drop_eq_getElem_cons hil]
            have e2 : j - i = (j - (i + 1)) + 1 := by omega
            rw [e2, List.take_succ_cons]
          rw [this]
          simp only [List.flatten_append, List.flatten_cons, List.length_append]
          omega
        omega
      · omega
  · intro k h d hk hd
    have hkl : k < lines.length := by
      rw [h2]; have := (List.getElem?_eq_some_iff.mp hk).1; rwa [List.length_reverse] at this
    have hl := List.getElem?_eq_getElem hkl
    simp only [List.getElem?_cons_succ] at hd
    rw [ends_get M lines 0 k _ hl] at hd
    have hline := h3 k h _ hk hl
    obtain ⟨⟨a, b, _, hb, _, hlast, _⟩, _⟩ := hline
    have hflat := flatten_get_last lines k _ hl (hall _ (List.mem_of_getElem? hl))
    rw [hlast] at hflat
    have hi : (lines.take k).flatten.length + lines[k].length - 1 < (mkPts M lines.flatten 0).length := by
      rw [mkPts_length]; exact (List.getElem?_eq_some_iff.mp hflat).1
    have hq := List.getElem?_eq_getElem hi
    obtain ⟨_, q1, q2⟩ := mkPts_get hq
    refine ⟨_, _, hq, ?_, ?_⟩
    · rw [q2]
      simp only [Option.some.injEq] at hd
      rw [← hd]
      congr 1
      omega
    · rw [hflat] at q1
      cases q1
      exact hb
  · have hl := List.getLast?_eq_getElem? (l := lines)
    have hlast : lines.length - 1 < lines.length := by have := List.length_pos_iff.mpr hlne; omega
    rw [List.getElem?_eq_getElem hlast] at hl
    have e1 : (0 :: ends M lines 0).getLast? = (ends M lines 0)[lines.length - 1]? := by
      rw [List.getLast?_eq_getElem?]
      simp only [List.length_cons, ends_length, Nat.add_sub_cancel]
      have : lines.length = (lines.length - 1) + 1 := by omega
      rw [this, List.getElem?_cons_succ]
      simp
    rw [e1, ends_get M lines 0 _ _ (List.getElem?_eq_getElem hlast)]
    have e2 : (lines.take (lines.length - 1)).flatten.length + lines[lines.length - 1].length = lines.flatten.length := by
      have e := congrArg List.length (flatten_split lines (lines.length - 1) hlast)
      have e3 : lines.length - 1 + 1 = lines.length := by omega
      rw [e3, List.drop_length] at e
      simp only [List.length_append, List.flatten_nil, List.length_nil] at e
      omega
    rw [e2, Nat.zero_add, List.getLast?_eq_getElem?, mkPts_length]
    have hfp : 0 < lines.flatten.length := by rw [hfl]; simp
    have hi : lines.flatten.length - 1 < (mkPts M lines.flatten 0).length := by rw [mkPts_length]; omega
    have hq := List.getElem?_eq_getElem hi
    rw [hq, Option.map_some, (mkPts_get hq).2.2, Nat.zero_add]

end Verif.Line
