import Verif.Threads.Spec
import Verif.Build.Props

/-!
# The result does not depend on threads and schedules: lemmas
-/

namespace Verif.Threads
open Verif.Trie (Trie needsShape)
open Verif.Line (Geo GeoOk ShpPt)
open Verif.Content (TripRow)
open Verif.Out (StRow)
open Verif.Result (Lines rowsOf IsLine Found)
open Verif.Dists (MRun Given Measured)
open Verif.Build (Mode ModeOk cluster items forestItems trieItems leafItem Item mrun mruns Apart EncOk StopsOk trips_iff leaf_iff runs_ok)

variable {E C Pt D S P A X S' : Type}

theorem Like.c {m m' : Mode E C Pt D S P A} (h : Like m m') : m'.c = m.c := by rw [h]

/-- The forests do not depend on the threads. -/
theorem cluster_like {m m' : Mode E C Pt D S P A} {n : Nat} (h : Like m m') (ok : ModeOk m n) (ok' : Returns m' n) : cluster m' n = cluster m n := by
  have one : ∀ (q : Mode E C Pt D S P A), (∀ p, q.c.near p p = true) → Trie.StrictWeak q.c.lt → Returns q n →
      ∃ fs, cluster q n = some fs ∧ fs.length = (Trie.groupTrips q.c (List.range n)).length ∧
      ∀ (g : Nat) key ts, (Trie.groupTrips q.c (List.range n))[g]? = some (key, ts) → fs[g]? = ts.foldlM (Trie.clusterTrip q.c key) [] := by
    intro q hnear hlt ok
    obtain ⟨s, h1, h2⟩ := Trie.C12_each_trip_once q.c hnear hlt (List.range n) q.thr ok.thr
    obtain ⟨s', h3, h4⟩ := h2 q.csched
    obtain ⟨t, k1, k2⟩ := Trie.C12_schedule_independent q.c hnear (List.range n) q.thr ok.thr
    rw [h1] at k1; cases k1
    obtain ⟨t', k3, k4⟩ := k2 q.csched (ok.done s h1)
    rw [h3] at k3; cases k3
    exact ⟨s'.forests, by rw [cluster, h1]; simp only [h3, Option.map_some], (h4 (ok.done s h1)).2.1, k4⟩
  obtain ⟨fs, e1, e2, e3⟩ := one m ok.near ok.lt ⟨ok.thr, ok.done⟩
  obtain ⟨fs', e1', e2', e3'⟩ := one m' (by rw [h.c]; exact ok.near) (by rw [h.c]; exact ok.lt) ok'
  rw [h.c] at e2' e3'
  rw [e1, e1']
  congr 1
  apply List.ext_getElem?
  intro g
  by_cases hg : g < (Trie.groupTrips m.c (List.range n)).length
  · have := List.getElem?_eq_getElem hg
    rw [e3' g _ _ this, e3 g _ _ this]
  · rw [List.getElem?_eq_none (by omega), List.getElem?_eq_none (by omega)]

theorem after_like {m m' : Mode E C Pt D S P A} (h : Like m m') {pre : List (Trie.Trie Nat P A)} {s : S} (ha : Build.After m' pre s) : Build.After m pre s := by
  induction ha with
  | start =>
    have : m'.cache = m.cache := by rw [h]
    rw [this]
    exact .start
  | @next f s tr ecm _ he ih =>
    have e1 : m'.gen = m.gen := by rw [h]
    have e2 : m'.env = m.env := by rw [h]
    rw [e1] at he
    rw [e2]
    exact .next ih he

/-- The conditions on the network and the router do not depend on the threads. -/
theorem ok_like {m m' : Mode E C Pt D S P A} {n : Nat} (h : Like m m') (ok : ModeOk m n) (ok' : Returns m' n) : ModeOk m' n := by
  have hc := cluster_like h ok ok'
  have hthr := ok'.thr
  have hdone := ok'.done
  have htimes := ok.times
  have hforward := ok.forward
  rw [← hc] at htimes hforward
  have hr : Build.RouteOk m' := by rw [h]; exact ⟨ok.near, ok.ecm, ok.laws, ok.finite, ok.cands, ok.progr, ok.geom, ok.paths⟩
  have e1 : m'.gen = m.gen := by rw [h]
  have e2 : m'.env = m.env := by rw [h]
  refine { hr with lt := by rw [h.c]; exact ok.lt, thr := hthr, done := hdone, times := ?_, forward := ?_ }
  · rw [e1]; exact htimes
  · rw [e1, e2]
    intro fs hfs pre tr post hf ecm he s ha
    exact hforward fs hfs pre tr post hf ecm he s (after_like h ha)

section
variable [DecidableEq E] {geo : Geo Pt}

theorem forest_like {m m' : Mode E C Pt D S P A} (h : Like m m') : ∀ (f : List (Trie Nat P A)) (s : S), forestItems geo m' f s = forestItems geo m f s
  | [], _ => rfl
  | tr :: f, s => by
    have e : trieItems geo m' tr s = trieItems geo m tr s := by rw [h]; rfl
    rw [forestItems, forestItems, e]
    cases trieItems geo m tr s with
    | none => rfl
    | some p => simp only [forest_like h f]

/-- What is found does not depend on the threads. -/
theorem items_like {m m' : Mode E C Pt D S P A} {n : Nat} (h : Like m m') (ok : ModeOk m n) (ok' : ModeOk m' n) : items geo m' n = items geo m n := by
  have ec : m'.cache = m.cache := by rw [h]
  rw [items, items, cluster_like h ok ⟨ok'.thr, ok'.done⟩, ec]
  cases cluster m n with
  | none => rfl
  | some fs =>
    simp only
    congr 1
    funext f
    exact forest_like h f _

/-- The leafs and the distances of a run. -/
def core (r : MRun (List Nat)) : List (List Shapes.Workers.Leaf) × (Nat → List (List Nat)) := (r.run.jobs, r.dists)

theorem mruns_like {enc : ShpPt Pt → Shapes.Point} {encD : Rat → List Nat} {n : Nat} {ms ms' : List (Mode E C Pt D S P A)} (h : LikeAll ms ms') :
    (∀ m ∈ ms, ModeOk m n) → (∀ m ∈ ms', ModeOk m n) → ∀ rs rs', mruns geo enc encD n ms = some rs → mruns geo enc encD n ms' = some rs' →
    rs'.map core = rs.map core := by
  induction h with
  | nil => intro _ _ rs rs' h h'; cases h; cases h'; rfl
  | @cons m m' ms ms' hl _ ih =>
    intro ok ok' rs rs' h h'
    have ei := items_like (geo := geo) hl (ok m (List.mem_cons_self ..)) (ok' m' (List.mem_cons_self ..))
    rw [mruns, Content.collect] at h h'
    rw [ei] at h'
    cases hi : items geo m n with
    | none => rw [hi] at h; cases h
    | some its =>
      rw [hi] at h h'
      cases hc : Content.collect (fun m => (items geo m n).map (mrun enc encD m)) ms with
      | none => simp only [Option.map_some, hc] at h; cases h
      | some r =>
        cases hc' : Content.collect (fun m => (items geo m n).map (mrun enc encD m)) ms' with
        | none => simp only [Option.map_some, hc'] at h'; cases h'
        | some r' =>
          simp only [Option.map_some, hc] at h
          simp only [Option.map_some, hc'] at h'
          cases h
          cases h'
          rw [List.map_cons, List.map_cons, ih (fun x hx => ok x (List.mem_cons_of_mem _ hx)) (fun x hx => ok' x (List.mem_cons_of_mem _ hx)) r r' hc hc']
          rfl
end

theorem jobs_core (rs : List (MRun (List Nat))) : (rs.map (·.run)).flatMap (·.jobs) = (rs.map core).flatMap (·.1) := by
  rw [List.flatMap_map, List.flatMap_map]
  rfl

theorem given_core {rs : List (MRun (List Nat))} {k : Nat} {ds : List (List Nat)} :
    Given rs k ds ↔ ∃ x ∈ rs.map core, (∃ j ∈ x.1, ∃ l ∈ j, k ∈ l.trips) ∧ x.2 k = ds := by
  constructor
  · rintro ⟨r, hr, h⟩
    exact ⟨core r, List.mem_map.mpr ⟨r, hr, rfl⟩, h⟩
  · rintro ⟨x, hx, h⟩
    obtain ⟨r, hr, rfl⟩ := List.mem_map.mp hx
    exact ⟨r, hr, h⟩

theorem LikeAll.mem {ms ms' : List (Mode E C Pt D S P A)} (h : LikeAll ms ms') : ∀ m' ∈ ms', ∃ m ∈ ms, Like m m' := by
  induction h with
  | nil => intro _ h; cases h
  | @cons m m' ms ms' hl _ ih =>
    intro x hx
    rcases List.mem_cons.mp hx with e | hx
    · exact ⟨m, List.mem_cons_self .., e ▸ hl⟩
    · obtain ⟨y, hy, e⟩ := ih x hx
      exact ⟨y, List.mem_cons_of_mem _ hy, e⟩

theorem ok_all {ms ms' : List (Mode E C Pt D S P A)} {n : Nat} (h : LikeAll ms ms') (ok : ∀ m ∈ ms, ModeOk m n) (ok' : ∀ m ∈ ms', Returns m n) :
    ∀ m ∈ ms', ModeOk m n := by
  intro m hm
  obtain ⟨y, hy, e⟩ := h.mem m hm
  exact ok_like e (ok y hy) (ok' m hm)

theorem apart_like {ms ms' : List (Mode E C Pt D S P A)} (h : LikeAll ms ms') : Apart ms → Apart ms' := by
  unfold Apart
  induction h with
  | nil => exact id
  | @cons m m' ms ms' hl hs ih =>
    intro h
    obtain ⟨h1, h2⟩ := List.pairwise_cons.mp h
    refine List.pairwise_cons.mpr ⟨fun x hx => ?_, ih h2⟩
    obtain ⟨y, hy, e⟩ := hs.mem x hx
    rw [hl.c, e.c]
    exact h1 y hy

theorem stops_like {ms ms' : List (Mode E C Pt D S P A)} (h : LikeAll ms ms') {trips : List (TripRow X)} {rows : List (StRow (List Nat) S')}
    (hs : StopsOk ms trips rows) : StopsOk ms' trips rows := by
  intro m hm
  obtain ⟨y, hy, e⟩ := h.mem m hm
  rw [e.c]
  exact hs y hy

theorem enc_like [DecidableEq E] {geo : Geo Pt} {enc : ShpPt Pt → Shapes.Point} {encD : Rat → List Nat} {w : Shapes.Widths} {n : Nat}
    {ms ms' : List (Mode E C Pt D S P A)} (h : LikeAll ms ms') (ok : ∀ m ∈ ms, ModeOk m n) (ok' : ∀ m ∈ ms', ModeOk m n)
    (he : EncOk geo enc encD w n ms) : EncOk geo enc encD w n ms' := by
  refine ⟨he.dist, he.width, fun m hm its hi => ?_⟩
  obtain ⟨y, hy, e⟩ := h.mem m hm
  rw [items_like e (ok y hy) (ok' m hm)] at hi
  exact he.small y hy its hi

/-- Two outputs for the same leafs. -/
theorem agree_of {jobs : List (List Shapes.Workers.Leaf)} {ms : List (Mode E C Pt D S P A)} {trips trips1 trips2 : List (TripRow X)}
    (hk : ∀ k, k < trips.length → ((∃ m ∈ ms, needsShape m.c k) ↔ ∃ j ∈ jobs, ∃ l ∈ j, k ∈ l.trips)) {ex1 ex2 : Prop} {src out1 out2 : List Shapes.Row}
    (h1 : Lines jobs ex1 trips trips1 src out1) (h2 : Lines jobs ex2 trips trips2 src out2) : Agree ms trips trips1 trips2 out1 out2 := by
  have lt : ∀ (k : Nat) t, trips[k]? = some t → k < trips.length := fun k t h => (List.getElem?_eq_some_iff.mp h).1
  constructor
  · intro k t ht u1 hu1 u2 hu2 e1 e2
    by_cases hf : ∃ pts, Found jobs k pts
    · obtain ⟨pts, hf⟩ := hf
      have a1 := h1.line k t pts ht hf u1 hu1 e1
      have a2 := h2.line k t pts ht hf u2 hu2 e2
      unfold IsLine at a1 a2
      rw [a1, a2, List.map_map, List.map_map]
      rfl
    · obtain ⟨b1, c1⟩ := h1.old k t ht hf u1 hu1 e1
      obtain ⟨b2, c2⟩ := h2.old k t ht hf u2 hu2 e2
      rw [b1, b2, c1, c2]
  · intro k t ht hn u1 hu1 u2 hu2 e1 e2
    have hf : ¬ ∃ pts, Found jobs k pts := by
      rintro ⟨pts, j, hj, l, hl, hkl, _⟩
      obtain ⟨m, hm, h⟩ := (hk k (lt k t ht)).mpr ⟨j, hj, l, hl, hkl⟩
      exact hn m hm h
    rw [(h1.old k t ht hf u1 hu1 e1).1, (h2.old k t ht hf u2 hu2 e2).1]
  · intro k k' t t' ht ht' n1 n2 u1 hu1 v1 hv1 u2 hu2 v2 hv2 e1 f1 e2 f2
    obtain ⟨j, hj, l, hl, hkl⟩ := (hk k (lt k t ht)).mp n1
    obtain ⟨j', hj', l', hl', hkl'⟩ := (hk k' (lt k' t' ht')).mp n2
    constructor
    · intro e
      have := h1.apart l l' ⟨j, hj, hl⟩ ⟨j', hj', hl'⟩ k k' hkl hkl' t t' ht ht' u1 hu1 v1 hv1 e1 f1 e
      exact h2.together l ⟨j, hj, hl⟩ k k' hkl this t t' ht ht' u2 hu2 v2 hv2 e2 f2
    · intro e
      have := h2.apart l l' ⟨j, hj, hl⟩ ⟨j', hj', hl'⟩ k k' hkl hkl' t t' ht ht' u2 hu2 v2 hv2 e2 f2 e
      exact h1.together l ⟨j, hj, hl⟩ k k' hkl this t t' ht ht' u1 hu1 v1 hv1 e1 f1

/-- The same distances give the same rows. -/
theorem rows_eq {rs rs' : List (MRun (List Nat))} (hc : rs'.map core = rs.map core) {trips : List (TripRow X)} {rows rows1 rows2 : List (StRow (List Nat) S')}
    (hknown : ∀ r ∈ rows, ∃ (k : Nat) (t : TripRow X), trips[k]? = some t ∧ t.id = r.trip) (h1 : Measured rs trips rows rows1)
    (h2 : Measured rs' trips rows rows2) : rows1 = rows2 := by
  have hg : ∀ k ds, Given rs' k ds ↔ Given rs k ds := fun k ds => by rw [given_core, given_core, hc]
  apply List.ext_getElem?
  intro i
  by_cases hi : i < rows.length
  · have a0 := List.getElem?_eq_getElem hi
    obtain ⟨x, a1⟩ : ∃ x, rows1[i]? = some x := ⟨_, List.getElem?_eq_getElem (by rw [h1.length]; exact hi)⟩
    obtain ⟨y, a2⟩ : ∃ y, rows2[i]? = some y := ⟨_, List.getElem?_eq_getElem (by rw [h2.length]; exact hi)⟩
    obtain ⟨k, t, ht, e⟩ := hknown _ (List.getElem_mem hi)
    have b1 := h1.row i _ _ a0 a1
    have b2 := h2.row i _ _ a0 a2
    have d : x.dist = y.dist := by
      by_cases hf : ∃ ds, Given rs k ds
      · obtain ⟨ds, hf⟩ := hf
        have c1 := h1.new i _ _ a0 a1 k t ds ht e hf
        have c2 := h2.new i _ _ a0 a2 k t ds ht e ((hg k ds).mpr hf)
        rw [c1] at c2
        exact Option.some.inj c2
      · rw [h1.old i _ _ a0 a1 k t ht e hf, h2.old i _ _ a0 a2 k t ht e (fun ⟨ds, h⟩ => hf ⟨ds, (hg k ds).mp h⟩)]
    rw [a1, a2]
    congr 1
    obtain ⟨p1, p2, p3⟩ := b1
    obtain ⟨q1, q2, q3⟩ := b2
    cases x
    cases y
    simp only at p1 p2 p3 q1 q2 q3 d
    rw [p1, p2, p3, q1, q2, q3, d]
  · rw [List.getElem?_eq_none (by rw [h1.length]; omega), List.getElem?_eq_none (by rw [h2.length]; omega)]

end Verif.Threads
