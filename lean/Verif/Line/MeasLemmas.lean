import Verif.Line.Lemmas

/-!
# Distances along a shape (lemmas)
-/

set_option linter.unusedSectionVars false

namespace Verif.Line
variable {E Pt : Type} [DecidableEq E]

/-- The distances of the points after `last`, which has distance `b`. -/
def distsFrom (geo : Geo Pt) : Rat → Pt → List Pt → List Rat
  | _, _, [] => []
  | b, last, p :: l => geo.rnd (b + geo.dist last p) :: distsFrom geo (geo.rnd (b + geo.dist last p)) p l

theorem distsFrom_length (geo : Geo Pt) : ∀ (l : List Pt) b last, (distsFrom geo b last l).length = l.length := by
  intro l
  induction l with
  | nil => intro b last; rfl
  | cons p l ih => intro b last; simp [distsFrom, ih]

theorem measLine_some (geo : Geo Pt) : ∀ (l : List Pt) (ret : List Rat) (b : Rat) (last : Pt),
    (measLine geo (ret ++ [b], last) l).1 = ret ++ [b] ++ distsFrom geo b last l := by
  intro l
  induction l with
  | nil => intro ret b last; simp [measLine, distsFrom]
  | cons p l ih =>
    intro ret b last
    have := ih (ret ++ [b]) (geo.rnd (b + geo.dist last p)) p
    unfold measLine at this ⊢
    rw [List.foldl_cons]
    simp only [List.getLast?_append, List.getLast?_singleton, Option.some_or]
    rw [this]
    simp [distsFrom]

theorem foldl_measLine (geo : Geo Pt) : ∀ (ls : List (List Pt)) s,
    ls.foldl (measLine geo) s = measLine geo s ls.flatten := by
  intro ls
  induction ls with
  | nil => intro s; rfl
  | cons l ls ih =>
    intro s
    rw [List.foldl_cons, ih]
    simp [measLine, List.foldl_append]

theorem getMeasure_eq (geo : Geo Pt) (p : Pt) (l : List Pt) (ls : List (List Pt)) :
    getMeasure geo ((p :: l) :: ls) = some (0 :: distsFrom geo 0 p (l ++ ls.flatten)) := by
  change some (((p :: l) :: ls).foldl (measLine geo) ([], p)).1 = _
  rw [foldl_measLine]
  have : measLine geo ([], p) ((p :: l) :: ls).flatten = measLine geo ([] ++ [0], p) (l ++ ls.flatten) := by
    simp [measLine]
  rw [this, measLine_some]
  rfl

theorem distsFrom_ge {geo : Geo Pt} {pt : List Pt → Rat → Pt} (ok : GeoOk geo pt) :
    ∀ (l : List Pt) b last, geo.rnd b = b → ∀ x ∈ distsFrom geo b last l, b ≤ x := by
  intro l
  induction l with
  | nil => intro b last _ x hx; simp [distsFrom] at hx
  | cons p l ih =>
    intro b last hb x hx
    have h1 : b ≤ geo.rnd (b + geo.dist last p) := by
      have h2 := ok.rnd_mono b (b + geo.dist last p) (by have := ok.dist_nonneg last p; grind)
      rw [hb] at h2; exact h2
    simp only [distsFrom, List.mem_cons] at hx
    rcases hx with rfl | hx
    · exact h1
    · have := ih _ p (ok.rnd_idem _) x hx
      grind

theorem distsFrom_sorted {geo : Geo Pt} {pt : List Pt → Rat → Pt} (ok : GeoOk geo pt) :
    ∀ (l : List Pt) b last, geo.rnd b = b → (b :: distsFrom geo b last l).Pairwise (· ≤ ·) := by
  intro l
  induction l with
  | nil => intro b last _; simp [distsFrom]
  | cons p l ih =>
    intro b last hb
    rw [List.pairwise_cons]
    exact ⟨distsFrom_ge ok _ _ _ hb, ih _ p (ok.rnd_idem _)⟩

theorem distsFrom_step (geo : Geo Pt) : ∀ (l : List Pt) b last (i : Nat) p q d d',
    (last :: l)[i]? = some p → (last :: l)[i + 1]? = some q → (b :: distsFrom geo b last l)[i]? = some d →
    (b :: distsFrom geo b last l)[i + 1]? = some d' → d' = geo.rnd (d + geo.dist p q) := by
  intro l
  induction l with
  | nil => intro b last i p q d d' _ h; simp at h
  | cons x l ih =>
    intro b last i p q d d' hp hq hd hd'
    cases i with
    | zero =>
      simp [distsFrom] at hp hq hd hd'
      subst hp; subst hq; subst hd; exact hd'.symm
    | succ i =>
      simp only [List.getElem?_cons_succ] at hp hq hd hd'
      simp only [distsFrom] at hd hd'
      exact ih _ x i p q d d' hp hq hd hd'

/-! ### the points of the shape -/

/-- The points with their distances and numbers, from number `k` on. -/
def mkPts (meas : List Rat) (l : List Pt) (k : Nat) : List (ShpPt Pt) :=
  (l.zipIdx k).map fun q => ⟨q.1, meas.getD q.2 0, q.2⟩

theorem mkPts_append (meas : List Rat) (l m : List Pt) (k : Nat) :
    mkPts meas (l ++ m) k = mkPts meas l k ++ mkPts meas m (k + l.length) := by
  simp [mkPts, List.zipIdx_append]

theorem ptsGo_eq (meas : List Rat) : ∀ (l : List Pt) (acc : List (ShpPt Pt)) (k : Nat), k + l.length ≤ meas.length →
    ptsGo meas l (acc, k) = some (acc ++ mkPts meas l k, k + l.length) := by
  intro l
  induction l with
  | nil => intro acc k _; simp [ptsGo, mkPts]
  | cons p l ih =>
    intro acc k h
    simp only [List.length_cons] at h
    have hk : k < meas.length := by omega
    unfold ptsGo
    simp only [List.getElem?_eq_getElem hk]
    rw [ih _ _ (by omega)]
    simp [mkPts, hk, List.getD]
    omega

/-- The distances at the ends of the lines. -/
def ends (meas : List Rat) : List (List Pt) → Nat → List Rat
  | [], _ => []
  | l :: ls, k => meas.getD (k + l.length - 1) 0 :: ends meas ls (k + l.length)

theorem shpGo_eq (meas : List Rat) : ∀ (ls : List (List Pt)) (acc : List (ShpPt Pt)) (k : Nat) (ds : List Rat),
    k + ls.flatten.length ≤ meas.length → (∀ l ∈ ls, l ≠ []) →
    shpGo meas ls (acc, k) ds = some (acc ++ mkPts meas ls.flatten k, ds ++ ends meas ls k) := by
  intro ls
  induction ls with
  | nil => intro acc k ds _ _; simp [shpGo, mkPts, ends]
  | cons l ls ih =>
    intro acc k ds h hne
    simp only [List.flatten_cons, List.length_append] at h
    have h1 : l ≠ [] := hne l List.mem_cons_self
    have h2 : 0 < l.length := List.length_pos_iff.mpr h1
    unfold shpGo
    rw [ptsGo_eq meas l acc k (by omega)]
    have h3 : k + l.length - 1 < meas.length := by omega
    simp only
    rw [if_neg (by omega)]
    simp only [List.getElem?_eq_getElem h3]
    rw [ih _ _ _ (by omega) (fun m hm => hne m (List.mem_cons_of_mem _ hm)), List.flatten_cons, mkPts_append]
    simp [ends, List.getD, h3]

theorem ends_length (meas : List Rat) : ∀ (ls : List (List Pt)) k, (ends meas ls k).length = ls.length := by
  intro ls
  induction ls with
  | nil => intro k; rfl
  | cons l ls ih => intro k; simp [ends, ih]

theorem ends_get (meas : List Rat) : ∀ (ls : List (List Pt)) (k i : Nat) (l : List Pt), ls[i]? = some l →
    (ends meas ls k)[i]? = some (meas.getD (k + ((ls.take i).flatten.length + l.length) - 1) 0) := by
  intro ls
  induction ls with
  | nil => intro k i l h; simp at h
  | cons m ls ih =>
    intro k i l h
    cases i with
    | zero =>
      simp only [List.getElem?_cons_zero, Option.some.injEq] at h
      subst h
      simp [ends]
    | succ i =>
      simp only [List.getElem?_cons_succ] at h
      have := ih (k + m.length) i l h
      simp only [ends, List.getElem?_cons_succ, List.take_succ_cons, List.flatten_cons, List.length_append]
      rw [this]
      simp only [Nat.add_assoc]

theorem flatten_split (ls : List (List Pt)) (i : Nat) (hi : i < ls.length) :
    ls.flatten = (ls.take i).flatten ++ (ls[i] ++ (ls.drop (i + 1)).flatten) := by
  calc ls.flatten = (ls.take i ++ ls.drop i).flatten := by rw [List.take_append_drop]
    _ = _ := by rw [List.drop_eq_getElem_cons hi]; simp only [List.flatten_append, List.flatten_cons]

theorem flatten_get_last (ls : List (List Pt)) (i : Nat) (l : List Pt) (h : ls[i]? = some l) (hl : l ≠ []) :
    ls.flatten[(ls.take i).flatten.length + l.length - 1]? = l.getLast? := by
  obtain ⟨hi, rfl⟩ := List.getElem?_eq_some_iff.mp h
  have h1 := flatten_split ls i hi
  have h2 : 0 < ls[i].length := List.length_pos_iff.mpr hl
  rw [h1, List.getElem?_append_right (by omega), List.getElem?_append_left (by omega), List.getLast?_eq_getElem?]
  congr 1
  omega

end Verif.Line
