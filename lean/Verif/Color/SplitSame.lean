import Verif.Color.SplitRuns

/-!
# The order in which colours are collected does not matter
-/

namespace Verif.Color
open Verif.Shapes (Str)

variable {A B V : Type}

/-- The same keys, and related values. -/
inductive All2 (Q : V → V → Prop) : List (Nat × V) → List (Nat × V) → Prop
  | nil : All2 Q [] []
  | cons {k : Nat} {v v' : V} {l l' : List (Nat × V)} : Q v v' → All2 Q l l' → All2 Q ((k, v) :: l) ((k, v') :: l')

theorem all2_of {Q : V → V → Prop} : ∀ (l l' : List (Nat × V)), (l.map (·.1)).Pairwise (· < ·) → (l'.map (·.1)).Pairwise (· < ·) →
    (∀ k, (∃ v, (k, v) ∈ l) ↔ ∃ v, (k, v) ∈ l') → (∀ k v v', (k, v) ∈ l → (k, v') ∈ l' → Q v v') → All2 Q l l'
  | [], [], _, _, _, _ => .nil
  | [], (k', v') :: _, _, _, h, _ => by
    obtain ⟨v, hv⟩ := (h k').mpr ⟨v', List.mem_cons_self ..⟩
    cases hv
  | (k, v) :: _, [], _, _, h, _ => by
    obtain ⟨v, hv⟩ := (h k).mp ⟨v, List.mem_cons_self ..⟩
    cases hv
  | (k, v) :: l, (k', v') :: l', s, s', h, hq => by
    rw [List.map_cons, List.pairwise_cons] at s s'
    obtain ⟨s1, s2⟩ := s
    obtain ⟨s1', s2'⟩ := s'
    have a1 : ∀ j x, (j, x) ∈ l → k < j := fun j x hx => s1 j (List.mem_map.mpr ⟨_, hx, rfl⟩)
    have a2 : ∀ j x, (j, x) ∈ l' → k' < j := fun j x hx => s1' j (List.mem_map.mpr ⟨_, hx, rfl⟩)
    have e : k = k' := by
      obtain ⟨x, hx⟩ := (h k).mp ⟨v, List.mem_cons_self ..⟩
      obtain ⟨y, hy⟩ := (h k').mpr ⟨v', List.mem_cons_self ..⟩
      rcases List.mem_cons.mp hx with hx | hx
      · cases hx; rfl
      · rcases List.mem_cons.mp hy with hy | hy
        · cases hy; rfl
        · have := a2 _ _ hx
          have := a1 _ _ hy
          omega
    subst e
    refine .cons (hq k v v' (List.mem_cons_self ..) (List.mem_cons_self ..)) (all2_of l l' s2 s2' (fun j => ?_) fun j x y hx hy =>
      hq j x y (List.mem_cons_of_mem _ hx) (List.mem_cons_of_mem _ hy))
    constructor
    · rintro ⟨x, hx⟩
      have hj := a1 _ _ hx
      obtain ⟨y, hy⟩ := (h j).mp ⟨x, List.mem_cons_of_mem _ hx⟩
      rcases List.mem_cons.mp hy with hy | hy
      · cases hy; omega
      · exact ⟨y, hy⟩
    · rintro ⟨x, hx⟩
      have hj := a2 _ _ hx
      obtain ⟨y, hy⟩ := (h j).mpr ⟨x, List.mem_cons_of_mem _ hx⟩
      rcases List.mem_cons.mp hy with hy | hy
      · cases hy; omega
      · exact ⟨y, hy⟩

/-- The same trips for each colour. -/
abbrev SameCols : List (Nat × List Ref) → List (Nat × List Ref) → Prop := All2 fun ts ts' => ∀ x, x ∈ ts ↔ x ∈ ts'

theorem refs_same {m m' : Refs} (w : Wf m) (w' : Wf m') (h : ∀ r c x, In m r c x ↔ In m' r c x) : All2 SameCols m m' := by
  have uniq : ∀ {W : Type} {l : List (Nat × W)}, (l.map (·.1)).Pairwise (· < ·) → ∀ k v v', (k, v) ∈ l → (k, v') ∈ l → v = v' := by
    intro W l hl k v v' hv hv'
    obtain ⟨a, ha⟩ := List.getElem?_of_mem hv
    obtain ⟨b, hb⟩ := List.getElem?_of_mem hv'
    have e1 : (l.map (·.1))[a]? = some k := by rw [List.getElem?_map, ha]; rfl
    have e2 : (l.map (·.1))[b]? = some k := by rw [List.getElem?_map, hb]; rfl
    have nd : (l.map (·.1)).Nodup := hl.imp fun h => Nat.ne_of_lt h
    have := (List.getElem?_inj (List.getElem?_eq_some_iff.mp e1).1 nd).mp (e1.trans e2.symm)
    subst this
    rw [ha] at hb
    cases hb
    rfl
  have half : ∀ {p q : Refs}, Wf p → (∀ r c x, In p r c x → In q r c x) → ∀ r cs, (r, cs) ∈ p → ∀ c us, (c, us) ∈ cs → ∃ cs' us', (r, cs') ∈ q ∧ (c, us') ∈ cs' := by
    intro p q w h r cs hr c us hc
    cases hu : us with
    | nil => exact absurd hu (w.nonempty _ hr _ hc)
    | cons x us' =>
      obtain ⟨cs', us'', h1, h2, _⟩ := h r c x ⟨cs, us, hr, hc, by rw [hu]; exact List.mem_cons_self ..⟩
      exact ⟨cs', us'', h1, h2⟩
  have key : ∀ {p q : Refs}, Wf p → (∀ r c x, In p r c x → In q r c x) → ∀ r, (∃ v, (r, v) ∈ p) → ∃ v, (r, v) ∈ q := by
    rintro p q w h r ⟨cs, hr⟩
    cases hc : cs with
    | nil => exact absurd hc (w.colne _ hr)
    | cons a cs' =>
      obtain ⟨cs'', _, h1, _⟩ := half w h r cs hr a.1 a.2 (by rw [hc]; exact List.mem_cons_self ..)
      exact ⟨cs'', h1⟩
  refine all2_of m m' w.routes w'.routes (fun r => ⟨key w (fun r c x => (h r c x).mp) r, key w' (fun r c x => (h r c x).mpr) r⟩) ?_
  intro r cs cs' hr hr'
  refine all2_of cs cs' (w.colors _ hr) (w'.colors _ hr') (fun c => ⟨?_, ?_⟩) ?_
  · rintro ⟨us, hu⟩
    obtain ⟨cs2, us2, h1, h2⟩ := half w (fun r c x => (h r c x).mp) r cs hr c us hu
    rw [uniq w'.routes r cs' cs2 hr' h1]
    exact ⟨us2, h2⟩
  · rintro ⟨us, hu⟩
    obtain ⟨cs2, us2, h1, h2⟩ := half w' (fun r c x => (h r c x).mpr) r cs' hr' c us hu
    rw [uniq w.routes r cs cs2 hr h1]
    exact ⟨us2, h2⟩
  · intro c us us' hu hu' x
    constructor
    · intro hx
      obtain ⟨cs2, us2, h1, h2, h3⟩ := (h r c x).mp ⟨cs, us, hr, hu, hx⟩
      have := uniq w'.routes r cs' cs2 hr' h1
      subst this
      rw [uniq (w'.colors _ hr') c us' us2 hu' h2]
      exact h3
    · intro hx
      obtain ⟨cs2, us2, h1, h2, h3⟩ := (h r c x).mpr ⟨cs', us', hr', hu', hx⟩
      have := uniq w.routes r cs cs2 hr h1
      subst this
      rw [uniq (w.colors _ hr) c us us2 hu h2]
      exact h3

theorem setTrips_live {j : Nat} : ∀ (ts : List Ref) trips trips', setTrips j ts trips = some trips' → ∀ x ∈ ts, ∃ t, x = Ref.live t ∧ t < trips.length
  | [], _, _, _ => fun _ h => by cases h
  | .dangling :: _, _, _, h => by cases h
  | .live t :: ts, trips, trips', h => by
    rw [setTrips] at h
    split at h
    · rename_i ht
      intro x hx
      rcases List.mem_cons.mp hx with rfl | hx
      · exact ⟨t, rfl, ht⟩
      · obtain ⟨u, h1, h2⟩ := setTrips_live ts _ _ h x hx
        exact ⟨u, h1, by rwa [List.length_set] at h2⟩
    · cases h

theorem setTrips_same {j : Nat} {ts ts' : List Ref} {trips : List Nat} (h : ∀ x, x ∈ ts ↔ x ∈ ts') : setTrips j ts trips = setTrips j ts' trips := by
  cases h1 : setTrips j ts trips with
  | none =>
    cases h2 : setTrips j ts' trips with
    | none => rfl
    | some b =>
      obtain ⟨a, ha⟩ := setTrips_some (j := j) ts trips fun x hx => setTrips_live ts' _ _ h2 x ((h x).mp hx)
      rw [ha] at h1
      cases h1
  | some a =>
    obtain ⟨b, hb⟩ := setTrips_some (j := j) ts' trips fun x hx => setTrips_live ts _ _ h1 x ((h x).mpr hx)
    rw [hb]
    congr 1
    apply List.ext_getElem?
    intro t
    obtain ⟨p1, p2⟩ := setTrips_get ts _ _ h1 t
    obtain ⟨q1, q2⟩ := setTrips_get ts' _ _ hb t
    by_cases ht : Ref.live t ∈ ts
    · rw [p1 ht, q1 ((h _).mp ht)]
    · rw [p2 ht, q2 fun hh => ht ((h _).mpr hh)]

theorem splitGo_same {tc : Nat → Nat} {r : Nat} {rules : List (Nat × Rule B)} {cs cs' : List (Nat × List Ref)} (h : SameCols cs cs') :
    ∀ F : Feed A B, splitGo tc r rules cs F = splitGo tc r rules cs' F := by
  induction h with
  | nil => intro F; rfl
  | cons hq _ ih =>
    intro F
    simp only [splitGo, ih, setTrips_same hq]

theorem updRoute_same {noColor : Nat} {tc : Nat → Nat} {r : Nat} {cs cs' : List (Nat × List Ref)} (h : SameCols cs cs') (F : Feed A B) :
    updRoute noColor tc r cs F = updRoute noColor tc r cs' F := by
  have hs := splitGo_same (tc := tc) (r := r) (rules := rulesOf r F.fares) h F
  cases h with
  | nil => rfl
  | cons hq h =>
    cases h with
    | nil => rfl
    | cons hq' h => exact hs

theorem update_same {noColor : Nat} {tc : Nat → Nat} {m m' : Refs} (h : All2 SameCols m m') :
    ∀ F : Feed A B, updateRouteColors noColor tc m F = updateRouteColors noColor tc m' F := by
  induction h with
  | nil => intro F; rfl
  | cons hq _ ih =>
    intro F
    rw [updateRouteColors, updateRouteColors, updRoute_same hq]
    simp only [ih]

/-- The colours of the routes do not depend on which thread has which leafs, nor on their order. -/
theorem colorRoutes_same (noColor : Nat) (tc : Nat → Nat) (w : Bool) (keep : Nat → Bool) {ths ths' : List (List (Nat × List Nat))} {F : Feed A B} (ok : FeedOk F)
    (h : ths.flatten.Perm ths'.flatten) (hb : ∀ l ∈ ths.flatten, ∀ t ∈ l.2, t < F.trips.length) :
    colorRoutes noColor tc w keep ths F = colorRoutes noColor tc w keep ths' F := by
  obtain ⟨m0, e0, w0, _⟩ := collect0_spec (keep := keep) ok.trips (List.range F.trips.length) [] (fun t ht => List.mem_range.mp ht)
    ⟨.nil, (fun _ h => nomatch h), (fun _ h => nomatch h), (fun _ h => nomatch h)⟩
  obtain ⟨m1, e1, w1, i1⟩ := collectAll_spec (noColor := noColor) (w := w) ok.trips ths m0
    (fun ls hls l hl => hb l (List.mem_flatten.mpr ⟨ls, hls, hl⟩)) w0
  obtain ⟨m2, e2, w2, i2⟩ := collectAll_spec (noColor := noColor) (w := w) ok.trips ths' m0
    (fun ls hls l hl => hb l (h.mem_iff.mpr (List.mem_flatten.mpr ⟨ls, hls, hl⟩))) w0
  have hm : All2 SameCols m1 m2 := by
    refine refs_same w1 w2 fun r c x => ?_
    rw [i1, i2]
    have : ∀ (q : List (List (Nat × List Nat))), (∃ ls ∈ q, ∃ l ∈ ls, LeafIn F noColor w l.1 l.2 r c x) ↔ ∃ l ∈ q.flatten, LeafIn F noColor w l.1 l.2 r c x := by
      intro q
      constructor
      · rintro ⟨ls, hls, l, hl, hx⟩
        exact ⟨l, List.mem_flatten.mpr ⟨ls, hls, hl⟩, hx⟩
      · rintro ⟨l, hl, hx⟩
        obtain ⟨ls, hls, hl⟩ := List.mem_flatten.mp hl
        exact ⟨ls, hls, l, hl, hx⟩
    rw [this ths, this ths']
    have e : (∃ l ∈ ths.flatten, LeafIn F noColor w l.1 l.2 r c x) ↔ ∃ l ∈ ths'.flatten, LeafIn F noColor w l.1 l.2 r c x := by
      constructor
      · rintro ⟨l, hl, hx⟩; exact ⟨l, h.mem_iff.mp hl, hx⟩
      · rintro ⟨l, hl, hx⟩; exact ⟨l, h.mem_iff.mpr hl, hx⟩
    rw [e]
  rw [colorRoutes, colorRoutes, e0]
  simp only [e1, e2]
  exact update_same hm F

/-- The same trips are kept, and the same leafs are given to other threads. -/
inductive SamePaints : List Paint → List Paint → Prop
  | nil : SamePaints [] []
  | cons {p p' : Paint} {ps ps' : List Paint} : p.keep = p'.keep → p.threads.flatten.Perm p'.threads.flatten → SamePaints ps ps' →
      SamePaints (p :: ps) (p' :: ps')

/-- **C48 (threads).** Routes, trips and fare rules after all mode configurations do not depend on which thread has found which colour, nor on the order
in which the threads worked. -/
theorem C48_threads (noColor : Nat) (tc : Nat → Nat) (w : Bool) {ps ps' : List Paint} (h : SamePaints ps ps') :
    ∀ F : Feed A B, FeedOk F → PaintsOk ps F.trips.length → colorRuns noColor tc w ps F = colorRuns noColor tc w ps' F := by
  induction h with
  | nil => intro F _ _; rfl
  | @cons p p' ps ps' hk hp _ ih =>
    intro F ok hps
    obtain ⟨h1, h2⟩ := hps p (List.mem_cons_self ..)
    obtain ⟨F1, e1, s1⟩ := C48_split noColor tc w p.keep p.threads F ok h1 h2
    have ok1 := C48_again noColor tc w p.keep p.threads F F1 ok h1 h2 e1
    have e2 := colorRoutes_same noColor tc w p.keep ok hp h1
    rw [e1, hk] at e2
    rw [colorRuns, colorRuns, e1, ← e2]
    exact ih F1 ok1 fun q hq => by rw [s1.trips]; exact hps q (List.mem_cons_of_mem _ hq)

/-- The hypotheses hold for a feed with a route that is split: the leafs of its trips are given to one thread, or to two in another order. -/
example : SamePaints exPaints [⟨fun t => t = 2, [[(11, [1])], [(10, [0])]]⟩, ⟨fun _ => false, [[], [(12, [4])]]⟩] ∧ FeedOk exFeed ∧
    PaintsOk exPaints exFeed.trips.length :=
  ⟨.cons rfl (.swap ..) (.cons rfl (.refl _) .nil), ⟨by decide, by decide, by decide⟩, by unfold PaintsOk; decide⟩

end Verif.Color
