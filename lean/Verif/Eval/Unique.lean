import Verif.Trie.CanonForest
set_option linter.unusedSimpArgs false
set_option linter.unusedSectionVars false
/-!
# Reference trips of the ground truth with `--unique` (property C65)

ShapevlMain.cpp:63-103. The tries are those of `Verif.Trie`. The map of routes is ordered by addresses; here routes come in the order of their
first trips, which only changes the order of the references.
-/
namespace Verif.Eval.Unique

open Verif.Trie

variable {T P A R : Type}

/-- The trips of the ground truth: their stops and routes, and the attributes made from the id of a route (ShapevlMain.cpp:74-75). -/
structure UEnv (T P A R : Type) extends Env T P A where
  route : T → R
  attrs : R → A

/-- ShapevlMain.cpp:72-80: the tries of the route in turn. -/
def offerU [DecidableEq T] (u : UEnv T P A R) (t : T) : List (Trie T P A) → Option (Bool × List (Trie T P A))
  | [] => some (false, [])
  | tr :: rest =>
    match tr.addTrip u.toEnv t (u.attrs (u.route t)) false false with
    | none => none
    | some (true, tr') => some (true, tr' :: rest)
    | some (false, tr') =>
      match offerU u t rest with
      | none => none
      | some (ins, rest') => some (ins, tr' :: rest')

/-- ShapevlMain.cpp:71-88: a trip goes to the first trie that takes it, otherwise to a new one. The result of the last call is ignored. -/
def addSub [DecidableEq T] (u : UEnv T P A R) (t : T) (sub : List (Trie T P A)) : Option (List (Trie T P A)) :=
  match offerU u t sub with
  | none => none
  | some (true, sub') => some sub'
  | some (false, sub') =>
    match (Trie.empty u.toEnv).addTrip u.toEnv t (u.attrs (u.route t)) false false with
    | none => none
    | some (_, tr) => some (sub' ++ [tr])

/-- `forest[route]` (ShapevlMain.cpp:70), changed by `f`. -/
def upd [DecidableEq R] (r : R) (f : List (Trie T P A) → Option (List (Trie T P A))) :
    List (R × List (Trie T P A)) → Option (List (R × List (Trie T P A)))
  | [] => (f []).map fun s => [(r, s)]
  | (k, s) :: m => if k = r then (f s).map fun s' => (k, s') :: m else (upd r f m).map fun m' => (k, s) :: m'

/-- ShapevlMain.cpp:69-89. -/
def forest [DecidableEq T] [DecidableEq R] (u : UEnv T P A R) (trips : List T) : Option (List (R × List (Trie T P A))) :=
  trips.foldlM (fun m t => upd (u.route t) (addSub u t) m) []

/-- ShapevlMain.cpp:92-95: the first trip of each node with trips, and the number of the trips. -/
def trieRefs (tr : Trie T P A) : List (T × Nat) :=
  (List.range tr.nds.length).filterMap fun j => (tr.ndTrips j).head?.map fun t => (t, (tr.ndTrips j).length)

/-- ShapevlMain.cpp:63-103: the trips to be compared, each with the number of trips it stands for. -/
def references [DecidableEq T] [DecidableEq R] (u : UEnv T P A R) (unique : Bool) (trips : List T) : Option (List (T × Nat)) :=
  if unique then (forest u trips).map fun m => m.flatMap fun p => p.2.flatMap trieRefs
  else some (trips.map fun t => (t, 1))

/-! ### specification -/

/-- Two trips of one route with the same stops. -/
def Equal (u : UEnv T P A R) (t t' : T) : Prop :=
  u.route t = u.route t' ∧
    (u.stops t).map (fun s => (s.name, s.platform, s.pos)) = (u.stops t').map (fun s => (s.name, s.platform, s.pos))

/-- Two trips of one route whose stops have the same names and platforms. -/
def Similar (u : UEnv T P A R) (t t' : T) : Prop :=
  u.route t = u.route t' ∧ (u.stops t).map (fun s => (s.name, s.platform)) = (u.stops t').map (fun s => (s.name, s.platform))

/-- The references come from classes of trips: the first trip of each class, with its size. -/
def Represent (refs : List (T × Nat)) (classes : List (List T)) : Prop :=
  refs.map (fun r => (some r.1, r.2)) = classes.map fun c => (c.head?, c.length)

/-! ### proofs -/

variable [DecidableEq T]

/-- The same as a clustering. -/
def UEnv.c (u : UEnv T P A R) : CEnv T P A :=
  { u.toEnv with
    lt := fun _ _ => false, rAttrs := fun t => u.attrs (u.route t), shapeEmpty := fun _ => true, mot := fun _ => 0, dropShapes := false
    mots := [], cfgMots := [], timeEx := false, noTrie := false }

theorem offerU_eq (u : UEnv T P A R) (t : T) (l : List (Trie T P A)) : offerU u t l = offer u.c (u.attrs (u.route t)) t l := by
  induction l with
  | nil => rfl
  | cons tr l ih => simp only [offerU, offer, ih]; rfl

theorem addSub_eq (u : UEnv T P A R) (t : T) (l : List (Trie T P A)) : addSub u t l = clusterTrip u.c (u.attrs (u.route t)) l t := by
  simp only [addSub, clusterTrip, offerU_eq]; rfl

theorem offer_append_true {c : CEnv T P A} {key : A} {t : T} {b : List (Trie T P A)} : ∀ {a a' : List (Trie T P A)},
    offer c key t a = some (true, a') → offer c key t (a ++ b) = some (true, a' ++ b) := by
  intro a
  induction a with
  | nil => intro a' h; simp [offer] at h
  | cons x a ih =>
    intro a' h
    simp only [List.cons_append, offer] at h ⊢
    cases hx : x.addTrip c.toEnv t key c.timeEx c.noTrie with
    | none => simp [hx] at h
    | some r =>
      obtain ⟨i, x'⟩ := r
      cases i with
      | true => simp only [hx, Option.some.injEq, Prod.mk.injEq, true_and] at h ⊢; rw [← h]; rfl
      | false =>
        simp only [hx] at h ⊢
        cases ho : offer c key t a with
        | none => simp [ho] at h
        | some r =>
          obtain ⟨i, r⟩ := r
          simp only [ho, Option.some.injEq, Prod.mk.injEq] at h
          obtain ⟨rfl, rfl⟩ := h
          rw [ih ho]; rfl

theorem offer_append_false {c : CEnv T P A} {key : A} {t : T} {b : List (Trie T P A)} : ∀ {a : List (Trie T P A)},
    (∀ x ∈ a, Rejects c key x t) → offer c key t (a ++ b) = (offer c key t b).map fun r => (r.1, a ++ r.2) := by
  intro a
  induction a with
  | nil => intro _; simp
  | cons x a ih =>
    intro h
    have hx : x.addTrip c.toEnv t key c.timeEx c.noTrie = some (false, x) := h x (List.mem_cons_self ..)
    simp only [List.cons_append, offer, hx, ih fun y hy => h y (List.mem_cons_of_mem _ hy)]
    cases offer c key t b <;> rfl

/-- Tries of a route: those with trips, then empty ones. -/
def shown (u : UEnv T P A R) (fs : List (Trie T P A × List (T × Nat))) (k : Nat) : List (Trie T P A) :=
  fs.map (·.1) ++ List.replicate k (Trie.empty u.toEnv)

theorem sub_nil {u : UEnv T P A R} {t : T} (hs : u.stops t = []) (fs : List (Trie T P A × List (T × Nat))) (k : Nat) :
    addSub u t (shown u fs k) = some (shown u fs (k + 1)) := by
  rw [addSub_eq]
  have h1 := offer_append_false (c := u.c) (key := u.attrs (u.route t)) (t := t) (b := []) (a := shown u fs k) fun x _ => rejects_nil hs
  rw [List.append_nil] at h1
  have h2 : (Trie.empty u.c.toEnv).addTrip u.c.toEnv t (u.attrs (u.route t)) u.c.timeEx false = some (false, Trie.empty u.c.toEnv) := by
    have hs' : u.c.stops t = [] := hs
    unfold Trie.addTrip Trie.add
    simp [hs']
  simp only [clusterTrip, h1, offer, Option.map_some, h2, List.append_nil]
  simp only [shown, List.replicate_succ', List.append_assoc]
  rfl

theorem sub_add {u : UEnv T P A R} (hnear : ∀ p, u.near p p = true) {t : T} (hs : u.stops t ≠ [])
    {fs : List (Trie T P A × List (T × Nat))} (h : FInv u.c (u.attrs (u.route t)) fs) (k : Nat) :
    ∃ fs' k', addSub u t (shown u fs k) = some (shown u fs' k') ∧ FInv u.c (u.attrs (u.route t)) fs' ∧
      ((fs'.flatMap (·.2)).map (·.1)).Perm ((fs.flatMap (·.2)).map (·.1) ++ [t]) := by
  have hc : Clear u.c t := fun hd => by cases hd
  obtain ⟨fs', h1, h2, h3⟩ := cluster_finv (c := u.c) hnear h t hs hc
  cases k with
  | zero => exact ⟨fs', 0, by rw [addSub_eq]; simpa [shown] using h1, h2, h3⟩
  | succ k =>
    rcases offer_finv (c := u.c) hnear (key := u.attrs (u.route t)) t hs fs h.each with ⟨g1, g2⟩ | ⟨pre, p, post, tr', nid, _, _, g3, _, _⟩
    · refine ⟨fs', k, ?_, h2, h3⟩
      obtain ⟨tr, nid, n1, _⟩ := TInv.new (c := u.c) hnear (key := u.attrs (u.route t)) t hs hc
      have n2 : (Trie.empty u.toEnv).addTrip u.c.toEnv t (u.attrs (u.route t)) u.c.timeEx u.c.noTrie = some (true, tr) := n1
      have e : fs'.map (·.1) = fs.map (·.1) ++ [tr] := by
        simp only [clusterTrip, g1, n1, Option.some.injEq] at h1
        exact h1.symm
      have r : ∀ x ∈ fs.map (·.1), Rejects u.c (u.attrs (u.route t)) x t := by
        intro x hx
        obtain ⟨q, hq, rfl⟩ := List.mem_map.1 hx
        exact g2 q hq
      rw [addSub_eq]
      have o := offer_append_false (b := List.replicate (k + 1) (Trie.empty u.toEnv)) r
      rw [List.replicate_succ] at o
      simp only [offer, n2, Option.map_some] at o
      simp only [clusterTrip, shown, List.replicate_succ, o, e, List.append_assoc, List.cons_append, List.nil_append]
    · refine ⟨fs', k + 1, ?_, h2, h3⟩
      rw [addSub_eq]
      have o := offer_append_true (b := List.replicate (k + 1) (Trie.empty u.toEnv)) g3
      have e : fs'.map (·.1) = (pre ++ (tr', p.2 ++ [(t, nid)]) :: post).map (·.1) := by
        simp only [clusterTrip, g3, Option.some.injEq] at h1
        exact h1.symm
      simp only [clusterTrip, shown, o, e]

/-- What is known about a route. -/
structure Rt (T P A R : Type) where
  r : R
  fs : List (Trie T P A × List (T × Nat))
  k : Nat

def Rt.trips (g : Rt T P A R) : List T := (g.fs.flatMap (·.2)).map (·.1)

structure RtInv (u : UEnv T P A R) (g : Rt T P A R) : Prop where
  finv : FInv u.c (u.attrs g.r) g.fs
  route : ∀ t ∈ g.trips, u.route t = g.r

def view (u : UEnv T P A R) (gs : List (Rt T P A R)) : List (R × List (Trie T P A)) := gs.map fun g => (g.r, shown u g.fs g.k)

variable [DecidableEq R]

theorem step_spec {u : UEnv T P A R} (hnear : ∀ p, u.near p p = true) (t : T) : ∀ (gs : List (Rt T P A R)), (∀ g ∈ gs, RtInv u g) →
    ∃ gs', upd (u.route t) (addSub u t) (view u gs) = some (view u gs') ∧ (∀ g ∈ gs', RtInv u g) ∧
      gs'.map (·.r) = (if u.route t ∈ gs.map (·.r) then gs.map (·.r) else gs.map (·.r) ++ [u.route t]) ∧
      (gs'.flatMap Rt.trips).Perm (gs.flatMap Rt.trips ++ [t].filter fun t => !(u.stops t).isEmpty) := by
  intro gs
  have one : ∀ g : Rt T P A R, g.r = u.route t → RtInv u g → ∃ g', addSub u t (shown u g.fs g.k) = some (shown u g'.fs g'.k) ∧ RtInv u g' ∧
      g'.r = g.r ∧ g'.trips.Perm (g.trips ++ [t].filter fun t => !(u.stops t).isEmpty) := by
    intro g hr hg
    cases hs : u.stops t with
    | nil => exact ⟨⟨g.r, g.fs, g.k + 1⟩, sub_nil hs _ _, ⟨hg.finv, hg.route⟩, rfl, by simp [hs, Rt.trips]⟩
    | cons s rest =>
      obtain ⟨fs', k', a1, a2, a3⟩ := sub_add hnear (t := t) (by simp [hs]) (hr ▸ hg.finv) g.k
      refine ⟨⟨g.r, fs', k'⟩, a1, ⟨by rw [hr]; exact a2, ?_⟩, rfl, by simpa [hs, Rt.trips] using a3⟩
      intro x hx
      rcases List.mem_append.1 (a3.mem_iff.1 hx) with hx | hx
      · exact hg.route x hx
      · rw [List.mem_singleton] at hx; subst hx; exact hr.symm
  induction gs with
  | nil =>
    intro _
    obtain ⟨g', b1, b2, b3, b4⟩ := one ⟨u.route t, [], 0⟩ rfl ⟨⟨by simp, List.Pairwise.nil⟩, by simp [Rt.trips]⟩
    refine ⟨[g'], ?_, by simpa using b2, by simp [b3], by simpa [Rt.trips] using b4⟩
    have b1' : addSub u t [] = some (shown u g'.fs g'.k) := by simpa [shown] using b1
    simp [view, upd, b1', b3]
  | cons g gs ih =>
    intro h
    by_cases hr : g.r = u.route t
    · obtain ⟨g', b1, b2, b3, b4⟩ := one g hr (h g (List.mem_cons_self ..))
      refine ⟨g' :: gs, ?_, ?_, ?_, ?_⟩
      · simp [view, upd, hr, b1, b3]
      · intro x hx
        rcases List.mem_cons.1 hx with rfl | hx
        · exact b2
        · exact h x (List.mem_cons_of_mem _ hx)
      · rw [if_pos (by simp [hr])]; simp [b3]
      · simp only [List.flatMap_cons, List.append_assoc]
        refine (b4.append_right _).trans ?_
        rw [List.append_assoc]
        exact List.Perm.append_left _ List.perm_append_comm
    · obtain ⟨gs', c1, c2, c3, c4⟩ := ih fun x hx => h x (List.mem_cons_of_mem _ hx)
      refine ⟨g :: gs', ?_, ?_, ?_, ?_⟩
      · have c1' := c1
        simp only [view] at c1'
        simp only [view, List.map_cons, upd, if_neg hr, c1', Option.map_some]
      · intro x hx
        rcases List.mem_cons.1 hx with rfl | hx
        · exact h x (List.mem_cons_self ..)
        · exact c2 x hx
      · have hr' : ¬ u.route t = g.r := fun e => hr e.symm
        simp only [List.map_cons, c3, List.mem_cons, hr', false_or]
        split <;> simp
      · simp only [List.flatMap_cons, List.append_assoc]
        exact List.Perm.append_left _ c4

theorem fold_spec {u : UEnv T P A R} (hnear : ∀ p, u.near p p = true) : ∀ (ts : List T) (gs : List (Rt T P A R)), (∀ g ∈ gs, RtInv u g) →
    (gs.map (·.r)).Nodup →
    ∃ gs', ts.foldlM (fun m t => upd (u.route t) (addSub u t) m) (view u gs) = some (view u gs') ∧ (∀ g ∈ gs', RtInv u g) ∧
      (gs'.map (·.r)).Nodup ∧ (gs'.flatMap Rt.trips).Perm (gs.flatMap Rt.trips ++ ts.filter fun t => !(u.stops t).isEmpty) := by
  intro ts
  induction ts with
  | nil => intro gs h hn; exact ⟨gs, rfl, h, hn, by simp⟩
  | cons t ts ih =>
    intro gs h hn
    obtain ⟨g1, a1, a2, a3, a4⟩ := step_spec hnear t gs h
    have hn1 : (g1.map (·.r)).Nodup := by
      rw [a3]
      split
      · exact hn
      · rename_i hm
        rw [List.nodup_append]
        refine ⟨hn, by simp, ?_⟩
        intro x hx y hy
        rw [List.mem_singleton] at hy
        subst hy
        rintro rfl
        exact hm hx
    obtain ⟨g2, b1, b2, b3, b4⟩ := ih g1 a2 hn1
    refine ⟨g2, by simp only [List.foldlM_cons, a1, Option.bind_eq_bind, Option.bind_some]; exact b1, b2, b3, ?_⟩
    refine b4.trans ((a4.append_right _).trans ?_)
    rw [List.append_assoc, ← List.filter_append]
    exact List.Perm.refl _

/-! #### the classes -/

def trieClasses (tr : Trie T P A) : List (List T) := ((List.range tr.nds.length).map tr.ndTrips).filter fun c => !c.isEmpty

theorem trieRefs_classes (tr : Trie T P A) : Represent (trieRefs tr) (trieClasses tr) := by
  unfold Represent trieRefs trieClasses
  induction List.range tr.nds.length with
  | nil => rfl
  | cons j l ih =>
    cases hj : tr.ndTrips j with
    | nil => simpa [hj] using ih
    | cons t ts => simp only [List.filterMap_cons, List.map_cons, List.filter_cons, hj, List.head?_cons, Option.map_some, List.isEmpty_cons, Bool.not_false, if_true, ih]

theorem flatten_nonempty {α : Type} (l : List (List α)) : (l.filter fun c => !c.isEmpty).flatten = l.flatten := by
  induction l with
  | nil => rfl
  | cons c l ih => cases c <;> simp [ih]

theorem classes_perm {c : CEnv T P A} {key : A} {tr : Trie T P A} {l} (h : TInv c key tr l) : (trieClasses tr).flatten.Perm (l.map (·.1)) := by
  obtain ⟨log, I, rfl⟩ := h.inv
  unfold trieClasses
  rw [flatten_nonempty, ← List.flatMap_def]
  have := filings_perm I
  simpa [filings, List.map_map, Function.comp_def] using this

theorem mem_trieClasses {tr : Trie T P A} {c : List T} (h : c ∈ trieClasses tr) : ∃ j, c = tr.ndTrips j := by
  obtain ⟨h1, _⟩ := List.mem_filter.1 h
  obtain ⟨j, _, rfl⟩ := List.mem_map.1 h1
  exact ⟨j, rfl⟩

theorem dup_inj {α : Type} : ∀ (l l' : List α), l.length = l'.length → l.length ≠ 1 → dup l = dup l' → l = l' := by
  intro l
  induction l with
  | nil =>
    intro l' h _ _
    exact (List.length_eq_zero_iff.1 h.symm).symm
  | cons a l ih =>
    intro l' hl h1 hd
    cases l with
    | nil => exact absurd rfl h1
    | cons b l =>
      match l', hl, hd with
      | a' :: b' :: l', hl, hd =>
        simp only [dup, List.cons.injEq] at hd
        obtain ⟨rfl, rfl, hd⟩ := hd
        cases l with
        | nil =>
          have : l' = [] := List.length_eq_zero_iff.1 (by simpa using hl.symm)
          rw [this]
        | cons x l =>
          rw [ih (b :: l') (by simpa using hl) (by simp) hd]

theorem spell_np (l : List (StopTime P)) : (spell l).map (fun e => (e.st.name, e.st.platform)) = dup (l.map fun s => (s.name, s.platform)) := by
  match l with
  | [] => rfl
  | [_] => rfl
  | s :: s' :: rest =>
    have := spell_np (s' :: rest)
    simp only [spell, List.map_cons, dup] at this ⊢
    rw [this]

/-- Fits a list of events to a path: the names are those of the nodes. -/
theorem fits_names {env : Env T P A} {nds : List (Nd P A)} {tx start} : ∀ (path : List Nat) (es : List (Ev P)), path.length = es.length →
    (∀ p ∈ path.zip es, Fits env nds tx start p.1 p.2) →
    es.map (fun e => some (e.st.name, e.st.platform)) = path.map (fun i => (nds[i]?).map fun n => (n.name, n.platform)) := by
  intro path
  induction path with
  | nil => intro es h _; rw [List.length_eq_zero_iff.1 h.symm]; rfl
  | cons i path ih =>
    intro es h hf
    cases es with
    | nil => simp at h
    | cons e es =>
      obtain ⟨n, h1, h2, h3, _⟩ := hf (i, e) (by simp)
      simp only [List.map_cons, h1, Option.map_some, ih es (by simpa using h) fun p hp => hf p (by simp [hp]), h2, h3]

theorem TInv.similar {c : CEnv T P A} {key : A} {tr : Trie T P A} {l} (h : TInv c key tr l) {t t' : T} {j : Nat} (ht : (t, j) ∈ l)
    (ht' : (t', j) ∈ l) : (c.stops t).length = (c.stops t').length ∧
      ((c.stops t).length ≠ 1 → (c.stops t).map (fun s => (s.name, s.platform)) = (c.stops t').map (fun s => (s.name, s.platform))) := by
  have hs := h.stops _ ht
  have hs' := h.stops _ ht'
  obtain ⟨log, I, rfl⟩ := h.inv
  obtain ⟨p, hp, e⟩ := List.mem_map.1 ht
  obtain ⟨p', hp', e'⟩ := List.mem_map.1 ht'
  simp only [Prod.mk.injEq] at e e'
  obtain ⟨e1, e2⟩ := e
  obtain ⟨e1', e2'⟩ := e'
  have s := I.spells p hp
  have s' := I.spells p' hp'
  rw [e2] at s; rw [e2'] at s'
  unfold Spells at s s'
  rw [e1] at s; rw [e1'] at s'
  have hl : (c.stops t).length = (c.stops t').length := by
    have a := List.length_pos_iff.2 hs
    have b := List.length_pos_iff.2 hs'
    have a1 := s.1
    have b1 := s'.1
    simp only at a b
    omega
  refine ⟨hl, fun h1 => dup_inj _ _ (by simpa using hl) (by simpa using h1) ?_⟩
  have n1 := fits_names _ (spell (c.stops t)) (by rw [spell_length]; exact s.1) s.2
  have n2 := fits_names _ (spell (c.stops t')) (by rw [spell_length]; exact s'.1) s'.2
  rw [← spell_np, ← spell_np]
  have := n1.trans n2.symm
  have m : ∀ l : List (Ev P), l.map (fun e => some (e.st.name, e.st.platform)) = (l.map fun e => (e.st.name, e.st.platform)).map some := by
    intro l; rw [List.map_map]; rfl
  rw [m, m] at this
  exact (List.map_inj_right (fun a b h => Option.some.inj h)).1 this

theorem Equal.alike {u : UEnv T P A R} {t t' : T} (h : Equal u t t') (key : A) : Alike u.c.toEnv (callOf u.c key t) (callOf u.c key t') :=
  ⟨h.2, rfl, fun e => by cases e⟩

theorem Equal.symm {u : UEnv T P A R} {t t' : T} (h : Equal u t t') : Equal u t' t := ⟨h.1.symm, h.2.symm⟩

/-- **C65.** With `--unique` the references are the first trips of classes of trips, with the sizes of the classes. Every trip of the ground truth
with stops is in exactly one class. The trips of a class have the same route and the same number of stops; if it is not one, with the same names
and platforms. Trips of one route with the same stops are in the same class. Without the option every trip is compared, and counts one. -/
theorem C65_unique_references (u : UEnv T P A R) (hnear : ∀ p, u.near p p = true) (trips : List T) :
    references u false trips = some (trips.map fun t => (t, 1)) ∧
    ∃ refs classes, references u true trips = some refs ∧ Represent refs classes ∧
      classes.flatten.Perm (trips.filter fun t => !(u.stops t).isEmpty) ∧
      (∀ c ∈ classes, c ≠ [] ∧ ∀ t ∈ c, ∀ t' ∈ c, u.route t = u.route t' ∧ (u.stops t).length = (u.stops t').length ∧
        ((u.stops t).length ≠ 1 → Similar u t t')) ∧
      classes.Pairwise fun c c' => ∀ t ∈ c, ∀ t' ∈ c', ¬ Equal u t t' := by
  refine ⟨rfl, ?_⟩
  obtain ⟨gs, h1, h2, h3, h4⟩ := fold_spec hnear trips [] (by simp) (by simp)
  have hv : forest u trips = some (view u gs) := h1
  let cls : List (List T) := gs.flatMap fun g => g.fs.flatMap fun p => trieClasses p.1
  refine ⟨(view u gs).flatMap fun p => p.2.flatMap trieRefs, cls, by simp [references, hv], ?_, ?_, ?_, ?_⟩
  · have e : ∀ (k : Nat), (List.replicate k (Trie.empty u.toEnv)).flatMap trieRefs = [] := by
      intro k
      rw [List.flatMap_eq_nil_iff]
      intro x hx
      rw [(List.mem_replicate.1 hx).2]
      rfl
    unfold Represent
    simp only [view, cls, List.flatMap_map, shown, List.flatMap_append, e, List.append_nil, List.map_flatMap]
    refine flatMap_congr' fun g _ => flatMap_congr' fun p _ => ?_
    exact trieRefs_classes p.1
  · simp only [List.flatMap_nil, List.nil_append] at h4
    refine List.Perm.trans ?_ h4
    have : ∀ (gs : List (Rt T P A R)), (∀ g ∈ gs, RtInv u g) →
        (gs.flatMap fun g => g.fs.flatMap fun p => trieClasses p.1).flatten.Perm (gs.flatMap Rt.trips) := by
      intro gs
      induction gs with
      | nil => intro _; exact List.Perm.refl _
      | cons g gs ih =>
        intro h
        simp only [List.flatMap_cons, List.flatten_append]
        refine List.Perm.append ?_ (ih fun x hx => h x (List.mem_cons_of_mem _ hx))
        have hg := (h g (List.mem_cons_self ..)).finv.each
        unfold Rt.trips
        generalize g.fs = fs at hg
        induction fs with
        | nil => exact List.Perm.refl _
        | cons p fs ih =>
          simp only [List.flatMap_cons, List.flatten_append, List.map_append]
          exact List.Perm.append (classes_perm (hg p (List.mem_cons_self ..))) (ih fun x hx => hg x (List.mem_cons_of_mem _ hx))
    exact this gs h2
  · intro c hc
    obtain ⟨g, hg, hc⟩ := List.mem_flatMap.1 hc
    obtain ⟨p, hp, hc⟩ := List.mem_flatMap.1 hc
    have I := (h2 g hg).finv.each p hp
    refine ⟨by rintro rfl; simpa using (List.mem_filter.1 hc).2, ?_⟩
    obtain ⟨j, rfl⟩ := mem_trieClasses hc
    have hr : ∀ x, (x, j) ∈ p.2 → u.route x = g.r := fun x hx =>
      (h2 g hg).route x (List.mem_map.2 ⟨(x, j), List.mem_flatMap.2 ⟨p, hp, hx⟩, rfl⟩)
    intro t ht t' ht'
    rw [I.mem_iff] at ht ht'
    have s := TInv.similar I ht ht'
    have r : u.route t = u.route t' := by rw [hr t ht, hr t' ht']
    exact ⟨r, s.1, fun h => ⟨r, s.2 h⟩⟩
  · have mem : ∀ g ∈ gs, ∀ c ∈ g.fs.flatMap (fun p => trieClasses p.1), ∀ t ∈ c, u.route t = g.r := by
      intro g hg c hc t ht
      obtain ⟨p, hp, hc⟩ := List.mem_flatMap.1 hc
      obtain ⟨j, rfl⟩ := mem_trieClasses hc
      rw [((h2 g hg).finv.each p hp).mem_iff] at ht
      exact (h2 g hg).route t (List.mem_map.2 ⟨(t, j), List.mem_flatMap.2 ⟨p, hp, ht⟩, rfl⟩)
    refine List.pairwise_flatMap.2 ⟨?_, ?_⟩
    · intro g hg
      have F := (h2 g hg).finv
      refine List.pairwise_flatMap.2 ⟨?_, ?_⟩
      · intro p hp
        have I := F.each p hp
        unfold trieClasses
        refine List.Pairwise.filter _ (List.pairwise_map.2 (List.Pairwise.imp ?_ List.pairwise_lt_range))
        intro i j hij t ht t' ht' he
        rw [I.mem_iff] at ht ht'
        obtain ⟨_, e⟩ := F.share hnear (fun e => by cases e) (fun e => by cases e) (he.alike _) hp hp ht ht'
        omega
      · refine List.Pairwise.imp_of_mem ?_ F.rej
        intro p q hp hq hr c hc c' hc' t ht t' ht' he
        obtain ⟨j, rfl⟩ := mem_trieClasses hc
        obtain ⟨j', rfl⟩ := mem_trieClasses hc'
        have I := F.each p hp
        have J := F.each q hq
        rw [I.mem_iff] at ht
        rw [J.mem_iff] at ht'
        refine accepts hnear I (J.stops _ ht') (fun e => by cases e) (nid := j) ?_ (fun e => by cases e) (hr _ ht')
        have w := (he.alike (u.attrs g.r)).walk p.1.nds
        unfold leads
        have l := I.lead _ ht
        unfold leads at l
        exact w.symm.trans l
    · have := List.pairwise_map.1 h3
      refine List.Pairwise.imp_of_mem ?_ this
      intro g g' hg hg' hne c hc c' hc' t ht t' ht' he
      exact hne (by rw [← mem g hg c hc t ht, ← mem g' hg' c' hc' t' ht', he.1])

/-- The references stand for all trips with stops. -/
theorem C65_unique_total (u : UEnv T P A R) (hnear : ∀ p, u.near p p = true) (trips : List T) :
    ∃ refs, references u true trips = some refs ∧ (refs.map (·.2)).sum = (trips.filter fun t => !(u.stops t).isEmpty).length := by
  obtain ⟨_, refs, classes, h1, h2, h3, _⟩ := C65_unique_references u hnear trips
  refine ⟨refs, h1, ?_⟩
  have e : refs.map (·.2) = classes.map List.length := by
    have := congrArg (List.map Prod.snd) h2
    simpa [Represent, List.map_map, Function.comp_def] using this
  rw [e, ← List.length_flatten, h3.length_eq]

/-! ### limits and non-vacuity -/

/-- Trips 0, 3 are A B C, 1 is A B D, 2 and 7 are B C; 4 is A B C of another route, 5 has the stop A only, 6 has the stop B only, 8 has none. -/
def exU : UEnv Nat Nat (List Nat) Nat :=
  { stops := fun t =>
      let s (n : String) (p : Nat) : StopTime Nat := ⟨n, "", p, some 0, some 0⟩
      match t with
      | 0 | 3 | 4 => [s "A" 0, s "B" 1, s "C" 2]
      | 1 => [s "A" 0, s "B" 1, s "D" 3]
      | 5 => [s "A" 0]
      | 6 => [s "B" 1]
      | 8 => []
      | _ => [s "B" 1, s "C" 2]
    near := fun a b => a == b
    merge := (· ++ ·)
    emptySecs := 3660
    rootPos := 0
    rootAttrs := []
    route := fun t => if t = 4 then 1 else 0
    attrs := fun r => [r] }

example : ∀ p, exU.near p p = true := by intro p; simp [exU]
example : references exU true [0, 1, 2, 3, 4, 7] = some [(0, 2), (1, 1), (2, 2), (4, 1)] := by decide +kernel
example : Equal exU 0 3 := ⟨by decide, by decide⟩
example : ¬ Equal exU 0 4 := fun h => absurd h.1 (by decide)

/-- **Limit of C65.** Trips with a single stop count as the same, whatever the stop is. -/
theorem C65_limit_one_stop : references exU true [5, 6] = some [(5, 2)] ∧
    (exU.stops 5).map (·.name) = ["A"] ∧ (exU.stops 6).map (·.name) = ["B"] := by decide +kernel

/-- **Limit of C65.** Trips without stops are never compared with the option. -/
theorem C65_limit_no_stops : references exU true [8, 0, 8] = some [(0, 1)] ∧ references exU false [8, 0, 8] = some [(8, 1), (0, 1), (8, 1)] := by
  decide +kernel

end Verif.Eval.Unique
