import Verif.Line.Spec

/-!
# Geometries of hops (lemmas)
-/

set_option linter.unusedSectionVars false

namespace Verif.Line
open Verif.Router (Hop HopEnd)
variable {E Pt : Type} [DecidableEq E]

theorem trav_edgeLine (g : Edges E Pt) (e : E) : Trav g e (edgeLine g e) := by
  unfold edgeLine
  split
  · rename_i h; exact .none (fun l hl => by rw [h] at hl; cases hl)
  · rename_i h; exact .none (fun l hl => by rw [h] at hl; cases hl; rfl)
  · rename_i p l h
    cases hr : g.rev e
    · simp only [Bool.false_eq_true, if_false]; exact .fwd _ h (by simp) hr
    · simp only [if_true]; exact .bwd _ h (by simp) hr

theorem edgeLine_ne_nil (g : Edges E Pt) (e : E) : edgeLine g e ≠ [] := by
  unfold edgeLine
  split
  · simp
  · simp
  · split <;> simp

theorem trav_unique {g : Edges E Pt} {e : E} {l : List Pt} (h : Trav g e l) : l = edgeLine g e := by
  unfold edgeLine
  cases h with
  | none hn =>
    split
    · rfl
    · rfl
    · rename_i p l h; exact absurd (hn _ h) (by simp)
  | fwd _ h hne hr =>
    cases l with
    | nil => exact absurd rfl hne
    | cons p l => simp [h, hr]
  | bwd m h hne hr =>
    cases m with
    | nil => exact absurd rfl hne
    | cons p m => simp [h, hr]

theorem dropLast_infix (l : List Pt) : l.dropLast <:+: l := (List.dropLast_prefix l).isInfix

theorem piece_whole {geo : Geo Pt} {pt : List Pt → Rat → Pt} (ok : GeoOk geo pt) {l : List Pt} (h : l ≠ []) :
    Piece pt l 0 1 l := by
  refine ⟨?_, ?_, ?_⟩
  · cases l with
    | nil => exact absurd rfl h
    | cons p l => simp [ok.pt_zero (p :: l) p rfl]
  · rw [List.getLast?_eq_some_getLast h, ok.pt_one l _ (List.getLast?_eq_some_getLast h)]
  · exact (List.dropLast_prefix _).isInfix.trans (List.tail_suffix l).isInfix

theorem midGo_spec (geo : Geo Pt) (g : Edges E Pt) (edges : List E)
    (hg : ∀ e ∈ edges, g.geom e ≠ none) :
    ∀ (j : Nat) (s : List Pt × Cols), j < edges.length → ∃ c,
      midGo geo g edges j s = some (s.1 ++ (((edges.drop 1).take j).reverse.map (edgeLine g)).flatten, c) := by
  intro j
  induction j with
  | zero => intro s _; exact ⟨s.2, by simp [midGo]⟩
  | succ j ih =>
    intro s hj
    have hm := List.getElem_mem hj
    have hne := hg _ hm
    obtain ⟨l, hl⟩ := Option.ne_none_iff_exists'.mp hne
    unfold midGo
    rw [List.getElem?_eq_getElem hj]
    simp only [length, hl, Option.map_some]
    obtain ⟨c, hc⟩ := ih (s.1 ++ edgeLine g edges[j + 1], s.2.addAll (g.cols edges[j + 1]) (lenGo geo l)) (by omega)
    refine ⟨c, ?_⟩
    rw [hc]
    have : (edges.drop 1).take (j + 1) = (edges.drop 1).take j ++ [edges[j + 1]] := by
      rw [List.take_add_one, List.getElem?_drop, Nat.add_comm, List.getElem?_eq_getElem hj]; rfl
    rw [this]
    simp

/-- Lines of inner edges followed by a last part. -/
theorem rest_of_mid {pt : List Pt → Rat → Pt} {g : Edges E Pt} {b : Rat} {en : E} {r : List Pt}
    (h : Rest pt g b [en] r) : ∀ es : List E, Rest pt g b (es ++ [en]) ((es.map (edgeLine g)).flatten ++ r) := by
  intro es
  induction es with
  | nil => exact h
  | cons e es ih =>
    have := Rest.pass (pt := pt) (b := b) e _ _ _ (trav_edgeLine g e) (by simp) ih
    simpa using this

theorem flatten_ne (g : Edges E Pt) (es : List E) (h : es ≠ []) : (es.map (edgeLine g)).flatten ≠ [] := by
  cases es with
  | nil => exact absurd rfl h
  | cons e es =>
    have := edgeLine_ne_nil g e
    simp [this]

/-! ### lines of routed hops -/

theorem simpl_refl (m : List Pt) : Simpl m m := ⟨List.Sublist.refl _, rfl, rfl⟩

theorem simpl_simplify {geo : Geo Pt} {pt : List Pt → Rat → Pt} (ok : GeoOk geo pt) (m : List Pt) :
    Simpl m (if m.length > 1 then geo.simplify m else m) := by
  split
  · rename_i h; exact ⟨ok.simp_sub m h, ok.simp_head m h, ok.simp_last m h⟩
  · exact simpl_refl m

theorem two_ends {l : List E} (h : 1 < l.length) {a b : E} (ha : l.head? = some a) (hb : l.getLast? = some b) :
    ∃ m, l = a :: (m ++ [b]) := by
  cases l with
  | nil => simp at h
  | cons x l =>
    simp only [List.head?_cons, Option.some.injEq] at ha
    subst ha
    obtain ⟨ys, hys⟩ := List.getLast?_eq_some_iff.mp hb
    cases ys with
    | nil => simp at hys; rw [hys.2] at h; simp at h
    | cons y ys =>
      simp only [List.cons_append, List.cons.injEq] at hys
      exact ⟨ys, by rw [hys.2]⟩

theorem hopLine_full {geo : Geo Pt} {pt : List Pt → Rat → Pt} (ok : GeoOk geo pt) {g : Edges E Pt} (edges : List E)
    (hg : ∀ e ∈ edges, g.geom e ≠ none) (hne : edges ≠ []) {st en : E} (hs : edges.getLast? = some st)
    (he : edges.head? = some en) {ps pe : Rat} (h0 : 0 ≤ ps) (h1 : ps ≤ 1) (h2 : 0 ≤ pe) (h3 : pe ≤ 1)
    (hf : edges.length = 1 → ps ≤ pe) (cols : Cols) :
    ∃ full line c, hopLine geo g edges st en ps pe cols = some (line, c) ∧ Full pt g ps pe edges.reverse full ∧
      Simpl full line := by
  have hstm : st ∈ edges := List.mem_of_getLast? hs
  have henm : en ∈ edges := List.mem_of_mem_head? he
  obtain ⟨gs, hgs⟩ := Option.ne_none_iff_exists'.mp (hg _ hstm)
  obtain ⟨ge, hge⟩ := Option.ne_none_iff_exists'.mp (hg _ henm)
  have hl0 : edges.length ≠ 0 := by simpa using hne
  by_cases hlen : edges.length = 1
  · obtain ⟨e, rfl⟩ := List.length_eq_one_iff.mp hlen
    simp only [List.getLast?_singleton, Option.some.injEq, List.head?_cons] at hs he
    subst hs; subst he
    have e1 : hopLine geo g [e] e e ps pe cols =
        some (geo.seg (edgeLine g e) ps pe, cols.addAll (g.cols e) (lenGo geo gs)) := by
      unfold hopLine
      rw [if_neg hl0, if_pos ⟨hlen, rfl⟩]
      simp [length, hgs]
    refine ⟨_, _, _, e1, ?_, simpl_refl _⟩
    exact .one e _ _ (trav_edgeLine g e) (ok.seg _ _ _ (edgeLine_ne_nil g e) h0 (hf hlen) h3)
  · have hgt : 1 < edges.length := by omega
    obtain ⟨m, hm⟩ := two_ends hgt he hs
    unfold hopLine
    rw [if_neg hl0, if_neg (fun h => hlen h.1)]
    simp only [length, hgs, hge, Option.map_some]
    have hj : (if edges.length > 1 then edges.length - 2 else 0) = m.length := by
      rw [if_pos hgt, hm]; simp
    rw [hj]
    have hjl : m.length < edges.length := by rw [hm]; simp; omega
    have htake : (edges.drop 1).take m.length = m := by rw [hm]; simp
    generalize hS : (if ps > 0 then
          ((geo.seg (edgeLine g st) ps 1, cols.addAll (g.cols st) (lenGo geo gs * (1 - ps))) : List Pt × Cols)
        else (edgeLine g st, cols.addAll (g.cols st) (lenGo geo gs))) = S
    obtain ⟨c, hc⟩ := midGo_spec geo g edges hg m.length S hjl
    rw [hc, htake]
    have hrev : edges.reverse = st :: (m.reverse ++ [en]) := by rw [hm]; simp
    -- the last part
    obtain ⟨r, hr, c', hc'⟩ : ∃ r, Rest pt g pe [en] r ∧ ∃ c', (if pe > 0 then
            some (S.1 ++ (m.reverse.map (edgeLine g)).flatten ++ geo.seg (edgeLine g en) 0 pe,
              c.addAll (g.cols en) (lenGo geo ge * pe))
          else some (S.1 ++ (m.reverse.map (edgeLine g)).flatten, c)) =
          some (S.1 ++ ((m.reverse.map (edgeLine g)).flatten ++ r), c') := by
      by_cases hp : pe > 0
      · refine ⟨geo.seg (edgeLine g en) 0 pe, .part en _ _ hp (trav_edgeLine g en)
          (ok.seg _ _ _ (edgeLine_ne_nil g en) (by grind) h2 h3),
          c.addAll (g.cols en) (lenGo geo ge * pe), ?_⟩
        rw [if_pos hp]
        simp
      · refine ⟨[], .stop en (by grind), c, ?_⟩
        rw [if_neg hp]
        simp
    simp only [hc']
    refine ⟨_, _, _, rfl, ?_, simpl_simplify ok _⟩
    rw [hrev]
    have hrest := rest_of_mid hr m.reverse
    by_cases hp : ps > 0
    · rw [if_pos hp] at hS
      subst hS
      exact .from_ st _ _ _ _ hp (trav_edgeLine g st)
        (ok.seg _ _ _ (edgeLine_ne_nil g st) h0 h1 (by grind)) (by simp) hrest
    · rw [if_neg hp] at hS
      subst hS
      exact .whole st _ _ _ (by grind) (trav_edgeLine g st) (by simp) hrest

/-! ### the ends of a line along edges -/

theorem rest_last {pt : List Pt → Rat → Pt} {g : Edges E Pt} (gok : GeomOk g) {b : Rat} {es : List E} {r : List Pt}
    (h : Rest pt g b es r) {geo : Geo Pt} (ok : GeoOk geo pt) :
    ∀ (q : Pt) (e0 en : E), Chain g (e0 :: es) → es.getLast? = some en → q = g.to_ e0 → ∀ pre : List Pt,
      pre.getLast? = some q → (pre ++ r).getLast? = some (pt (edgeLine g en) b) := by
  induction h with
  | stop e hb =>
    intro q e0 en hc hl hq pre hp
    simp only [List.getLast?_singleton, Option.some.injEq] at hl
    subst hl
    have := (gok _ _ (trav_edgeLine g e)).1
    rw [List.append_nil, hp, hb, ok.pt_zero _ _ this, hq, hc.1]
  | part e l m _ ht hp =>
    intro q e0 en hc hl hq pre hpre
    simp only [List.getLast?_singleton, Option.some.injEq] at hl
    subst hl
    rw [List.getLast?_append, hp.last, ← trav_unique ht]
    rfl
  | pass e l es r ht hne _ ih =>
    intro q e0 en hc hl hq pre hpre
    rw [← List.append_assoc]
    refine ih (g.to_ e) e en ?_ ?_ rfl (pre ++ l) ?_
    · cases es with
      | nil => exact absurd rfl hne
      | cons => exact hc.2
    · cases es with
      | nil => exact absurd rfl hne
      | cons => simpa using hl
    · rw [List.getLast?_append, (gok _ _ ht).2]; rfl

theorem full_ends {pt : List Pt → Rat → Pt} {g : Edges E Pt} (gok : GeomOk g) {geo : Geo Pt} (ok : GeoOk geo pt)
    {a b : Rat} {es : List E} {m : List Pt} (h : Full pt g a b es m) (hc : Chain g es) {st en : E}
    (hs : es.head? = some st) (he : es.getLast? = some en) :
    m.head? = some (pt (edgeLine g st) a) ∧ m.getLast? = some (pt (edgeLine g en) b) := by
  cases h with
  | one e l m ht hp =>
    simp only [List.getLast?_singleton, Option.some.injEq, List.head?_cons] at hs he
    subst hs; subst he
    rw [← trav_unique ht]
    exact ⟨hp.head, hp.last⟩
  | whole e l es r ha ht hne hr =>
    simp only [List.head?_cons, Option.some.injEq] at hs
    subst hs
    have he' : es.getLast? = some en := by
      cases es with
      | nil => exact absurd rfl hne
      | cons => simpa using he
    have g1 := gok _ _ ht
    refine ⟨?_, rest_last gok hr ok _ e en hc he' rfl l g1.2⟩
    rw [← trav_unique ht, ha, List.head?_append, g1.1, ok.pt_zero _ _ g1.1]
    rfl
  | from_ e l p es r ha ht hp hne hr =>
    simp only [List.head?_cons, Option.some.injEq] at hs
    subst hs
    have he' : es.getLast? = some en := by
      cases es with
      | nil => exact absurd rfl hne
      | cons => simpa using he
    have g1 := gok _ _ ht
    refine ⟨?_, rest_last gok hr ok _ e en hc he' rfl p ?_⟩
    · rw [← trav_unique ht, List.head?_append, hp.head]; rfl
    · rw [hp.last, ok.pt_one _ _ g1.2]

/-! ### all hops -/

theorem startPt_spec {geo : Geo Pt} {pt : List Pt → Rat → Pt} (ok : GeoOk geo pt) {g : Edges E Pt} (e : E) {x : Rat}
    (h0 : 0 ≤ x) (h1 : x ≤ 1) {first : Option Pt} (hf : first = (edgeLine g e).head?) :
    startPt geo g e x first = some (pt (edgeLine g e) x) := by
  unfold startPt
  by_cases hx : x > 0
  · rw [if_pos hx, (ok.seg _ _ _ (edgeLine_ne_nil g e) h0 h1 (by grind)).head]
  · rw [if_neg hx, hf]
    have : x = 0 := by grind
    subst this
    cases h : edgeLine g e with
    | nil => exact absurd h (edgeLine_ne_nil g e)
    | cons p l => rw [ok.pt_zero _ p rfl]; rfl

theorem endPt_spec {geo : Geo Pt} {pt : List Pt → Rat → Pt} (ok : GeoOk geo pt) {g : Edges E Pt} (gok : GeomOk g)
    (e : E) {x : Rat} (h0 : 0 ≤ x) (h1 : x ≤ 1) : endPt geo g e x = some (pt (edgeLine g e) x) := by
  unfold endPt
  by_cases hx : x > 0
  · rw [if_pos hx, (ok.seg _ _ _ (edgeLine_ne_nil g e) (by grind) h0 h1).last]
  · rw [if_neg hx]
    have : x = 0 := by grind
    subst this
    rw [ok.pt_zero _ _ (gok _ _ (trav_edgeLine g e)).1]

theorem lineOf_ne_nil {pt : List Pt → Rat → Pt} {g : Edges E Pt} {h : LHop E Pt} {l : List Pt}
    (hl : LineOf pt g h l) : l ≠ [] := by
  obtain ⟨⟨a, b, _, _, h1, _⟩, _⟩ := hl
  intro e; subst e; simp at h1

/-- No undefined behaviour, and the line is as it should be. -/
theorem oneLine_spec {geo : Geo Pt} {pt : List Pt → Rat → Pt} (ok : GeoOk geo pt) {g : Edges E Pt} (gok : GeomOk g)
    {h : LHop E Pt} (hok : HopOk g h) (cols : Cols) :
    ∃ l c, oneLine geo g h cols = some (l, c) ∧ LineOf pt g h l := by
  have hfirst : ∀ e, some (g.from_ e) = (edgeLine g e).head? := fun e => (gok _ _ (trav_edgeLine g e)).1.symm
  unfold oneLine
  cases hfr : h.fr with
  | free x =>
    cases hto : h.to with
    | free y =>
      refine ⟨_, _, rfl, ⟨x.1.point, y.1.point, ?_, ?_, rfl, rfl, fun _ => rfl⟩, ?_⟩
      · rw [hfr]; exact .free x
      · rw [hto]; exact .free y
      · intro e z e' y h1; rw [hfr] at h1; cases h1
    | onEdge e y =>
      have hp := hok.to e y hto
      have := endPt_spec ok gok e hp.1 hp.2
      simp only [this]
      refine ⟨_, _, rfl, ⟨x.1.point, pt (edgeLine g e) y.1.progr, ?_, ?_, rfl, rfl, fun _ => rfl⟩, ?_⟩
      · rw [hfr]; exact .free x
      · rw [hto]; exact .edge e y _ (trav_edgeLine g e)
      · intro e z e' y h1; rw [hfr] at h1; cases h1
  | onEdge s x =>
    have hp := hok.fr s x hfr
    cases hto : h.to with
    | free y =>
      have := startPt_spec ok s hp.1 hp.2 (hfirst s)
      simp only [this]
      refine ⟨_, _, rfl, ⟨pt (edgeLine g s) x.1.progr, y.1.point, ?_, ?_, rfl, rfl, fun _ => rfl⟩, ?_⟩
      · rw [hfr]; exact .edge s x _ (trav_edgeLine g s)
      · rw [hto]; exact .free y
      · intro e z e' y _ h1; rw [hto] at h1; cases h1
    | onEdge e y =>
      have hq := hok.to e y hto
      have hA : At pt g h.fr (pt (edgeLine g s) x.1.progr) := by rw [hfr]; exact .edge s x _ (trav_edgeLine g s)
      have hB : At pt g h.to (pt (edgeLine g e) y.1.progr) := by rw [hto]; exact .edge e y _ (trav_edgeLine g e)
      by_cases hnil : h.edges = []
      · have e1 := startPt_spec ok s hp.1 hp.2 (first := (edgeLine g s).head?) rfl
        have e2 := endPt_spec ok gok e hq.1 hq.2
        simp only [hopLine, hnil, List.length_nil, if_true, e1, e2]
        refine ⟨_, _, rfl, ⟨_, _, hA, hB, rfl, rfl, fun _ => rfl⟩, ?_⟩
        intro _ _ _ _ _ _ h1; exact absurd hnil h1
      · have hs := hok.start s x hfr hnil
        have he := hok.stop e y hto hnil
        obtain ⟨full, line, c, h1, h2, h3⟩ := hopLine_full ok h.edges hok.geom hnil hs he hp.1 hp.2 hq.1 hq.2
          (hok.forward s x e y hfr hto) cols
        have hends := full_ends gok ok h2 hok.chain (by simpa using hs) (by simpa using he)
        refine ⟨line, c, h1, ⟨_, _, hA, hB, ?_, ?_, fun h => absurd h hnil⟩, ?_⟩
        · rw [h3.2.1]; exact hends.1
        · rw [h3.2.2]; exact hends.2
        · intro e' z e'' w k1 k2 _
          rw [hfr] at k1; rw [hto] at k2
          cases k1; cases k2
          exact ⟨full, h2, h3⟩

theorem geomGo_spec {geo : Geo Pt} {g : Edges E Pt} (Q : LHop E Pt → List Pt → Prop) (hops : List (LHop E Pt))
    (H : ∀ h ∈ hops, ∀ cols, ∃ l c, oneLine geo g h cols = some (l, c) ∧ Q h l) :
    ∀ (i : Nat) (s : List (List Pt) × Cols), i ≤ hops.length → ∃ ls c,
      geomGo geo g hops i s = some (s.1 ++ ls, c) ∧ ls.length = i ∧
      ∀ (k : Nat) (h : LHop E Pt) (l : List Pt), (hops.take i).reverse[k]? = some h → ls[k]? = some l → Q h l := by
  intro i
  induction i with
  | zero =>
    intro s _
    exact ⟨[], s.2, by simp [geomGo], rfl, by intro k h l hk; simp at hk⟩
  | succ i ih =>
    intro s hi
    have hi' : i < hops.length := by omega
    obtain ⟨l, c, h1, h2⟩ := H _ (List.getElem_mem hi') s.2
    obtain ⟨ls, c', h3, h4, h5⟩ := ih (s.1 ++ [l], c) (by omega)
    refine ⟨l :: ls, c', ?_, by simp [h4], ?_⟩
    · unfold geomGo
      rw [List.getElem?_eq_getElem hi']
      simp only [h1, h3]
      simp
    · intro k h m hk hm
      have ht : (hops.take (i + 1)).reverse = hops[i] :: (hops.take i).reverse := by
        rw [List.take_add_one, List.getElem?_eq_getElem hi']; simp
      rw [ht] at hk
      cases k with
      | zero =>
        simp only [List.getElem?_cons_zero, Option.some.injEq] at hk hm
        subst hk; subst hm; exact h2
      | succ k =>
        simp only [List.getElem?_cons_succ] at hk hm
        exact h5 k h m hk hm

end Verif.Line
