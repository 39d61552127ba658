import Verif.More.Spec
import Verif.Threads.Props

/-!
# Further trips do not change the shapes of the others: lemmas
-/

namespace Verif.More
open Verif.Trie (needsShape mapAdd groupTrips StrictWeak CEnv)
open Verif.Line (Geo GeoOk ShpPt)
open Verif.Content (TripRow)
open Verif.Out (StRow)
open Verif.Result (Lines rowsOf IsLine Found)
open Verif.Dists (MRun Given Measured placeOf)
open Verif.Build (Mode ModeOk cluster items forestItems Item mrun mruns distsOf)
open Verif.Threads (Like LikeAll)

variable {E C Pt D S P A X S' T : Type}

theorem mapAdd_keep {lt : A → A → Bool} {a : A} {t : T} {k : A} {ts : List T} (h : lt k a = true ∨ lt a k = true) :
    ∀ (m : List (A × List T)), (k, ts) ∈ m → (k, ts) ∈ mapAdd lt a t m
  | [], hm => by cases hm
  | (k', ts') :: m, hm => by
    rw [mapAdd]
    split
    · exact List.mem_cons_of_mem _ hm
    · rename_i h1
      split
      · rcases List.mem_cons.mp hm with e | hm
        · rw [e]; exact List.mem_cons_self ..
        · exact List.mem_cons_of_mem _ (mapAdd_keep h m hm)
      · rename_i h2
        rcases List.mem_cons.mp hm with e | hm
        · cases e
          rcases h with h | h
          · exact absurd h h2
          · exact absurd h h1
        · exact List.mem_cons_of_mem _ hm

/-- A group stays as it is if the further trips have other keys. -/
theorem group_keep {c : CEnv T P A} (feed more : List T) {k : A} {ts : List T} (hm : (k, ts) ∈ groupTrips c feed)
    (h : ∀ t ∈ more, needsShape c t → c.lt k (c.rAttrs t) = true ∨ c.lt (c.rAttrs t) k = true) : (k, ts) ∈ groupTrips c (feed ++ more) := by
  rw [Trie.groupTrips_eq] at hm ⊢
  rw [List.filter_append, List.foldl_append]
  generalize (feed.filter fun t => decide (needsShape c t)).foldl (fun m t => mapAdd c.lt (c.rAttrs t) t m) [] = m0 at hm ⊢
  have h' : ∀ t ∈ more.filter fun t => decide (needsShape c t), c.lt k (c.rAttrs t) = true ∨ c.lt (c.rAttrs t) k = true := by
    intro t ht
    obtain ⟨h1, h2⟩ := List.mem_filter.mp ht
    exact h t h1 (of_decide_eq_true h2)
  generalize (more.filter fun t => decide (needsShape c t)) = l at h'
  induction l generalizing m0 with
  | nil => exact hm
  | cons t l ih =>
    rw [List.foldl_cons]
    exact ih _ (mapAdd_keep (h' t (List.mem_cons_self ..)) _ hm) fun x hx => h' x (List.mem_cons_of_mem _ hx)

/-- The forests, group by group. -/
theorem forests_of {q : Mode E C Pt D S P A} {n : Nat} (ok : ModeOk q n) :
    ∃ fs, cluster q n = some fs ∧ fs.length = (groupTrips q.c (List.range n)).length ∧
      ∀ (g : Nat) key ts, (groupTrips q.c (List.range n))[g]? = some (key, ts) → fs[g]? = ts.foldlM (Trie.clusterTrip q.c key) [] := by
  obtain ⟨s, h1, h2⟩ := Trie.C12_each_trip_once q.c ok.near ok.lt (List.range n) q.thr ok.thr
  obtain ⟨s', h3, h4⟩ := h2 q.csched
  obtain ⟨t, k1, k2⟩ := Trie.C12_schedule_independent q.c ok.near (List.range n) q.thr ok.thr
  rw [h1] at k1; cases k1
  obtain ⟨t', k3, k4⟩ := k2 q.csched (ok.done s h1)
  rw [h3] at k3; cases k3
  exact ⟨s'.forests, by rw [cluster, h1]; simp only [h3, Option.map_some], (h4 (ok.done s h1)).2.1, k4⟩

/-- A key of a group is unlike the attributes of other trips. -/
theorem key_apart {m : Mode E C Pt D S P A} {n n' : Nat} (ok : ModeOk m n)
    (ho : ∀ k k', k < n → n ≤ k' → k' < n' → needsShape m.c k → needsShape m.c k' →
      m.c.lt (m.c.rAttrs k) (m.c.rAttrs k') = true ∨ m.c.lt (m.c.rAttrs k') (m.c.rAttrs k) = true)
    {key : A} {ts : List Nat} (hg : (key, ts) ∈ groupTrips m.c (List.range n)) (k' : Nat) (h1 : n ≤ k') (h2 : k' < n') (hk' : needsShape m.c k') :
    m.c.lt key (m.c.rAttrs k') = true ∨ m.c.lt (m.c.rAttrs k') key = true := by
  obtain ⟨t, ts', e1, e2⟩ := (Trie.groups_inv m.c ok.lt (List.range n)).first _ hg
  simp only at e1 e2
  have ht : t ∈ (groupTrips m.c (List.range n)).flatMap (·.2) := List.mem_flatMap.mpr ⟨_, hg, by rw [e1]; exact List.mem_cons_self ..⟩
  have ht := (Trie.groups_perm m.c (List.range n)).mem_iff.mp ht
  obtain ⟨a, b⟩ := List.mem_filter.mp ht
  rw [e2]
  exact ho t k' (List.mem_range.mp a) h1 h2 (of_decide_eq_true b) hk'

/-- What is found for the trips of a forest is found in the larger feed, too. -/
theorem items_more [DecidableEq E] {geo : Geo Pt} {m m' : Mode E C Pt D S P A} {n n' : Nat} (hn : n ≤ n') (h : Like m m') (ok : ModeOk m n) (ok' : ModeOk m' n')
    (ho : ∀ k k', k < n → n ≤ k' → k' < n' → needsShape m.c k → needsShape m.c k' →
      m.c.lt (m.c.rAttrs k) (m.c.rAttrs k') = true ∨ m.c.lt (m.c.rAttrs k') (m.c.rAttrs k) = true)
    {its its' : List (List (Item E Pt))} (hi : items geo m n = some its) (hi' : items geo m' n' = some its') : ∀ f ∈ its, f ∈ its' := by
  obtain ⟨fs, e1, e2, e3⟩ := forests_of ok
  obtain ⟨fs', e1', e2', e3'⟩ := forests_of ok'
  rw [h.c] at e2' e3'
  have sub : ∀ f ∈ fs, f ∈ fs' := by
    intro f hf
    obtain ⟨g, hg⟩ := List.getElem?_of_mem hf
    have hlt : g < (groupTrips m.c (List.range n)).length := by rw [← e2]; exact (List.getElem?_eq_some_iff.mp hg).1
    have hget := List.getElem?_eq_getElem hlt
    rw [e3 g _ _ hget] at hg
    have hmem := List.mem_of_getElem? hget
    have er : List.range n' = List.range n ++ (List.range' n (n' - n)) := by
      have := @List.range'_append_1 0 n (n' - n)
      rw [Nat.zero_add, show n + (n' - n) = n' by omega] at this
      rw [List.range_eq_range', List.range_eq_range', this]
    have hk := group_keep (c := m.c) (List.range n) (List.range' n (n' - n)) hmem fun t ht hs => by
      obtain ⟨a, b⟩ := List.mem_range'_1.mp ht
      exact key_apart ok ho hmem t a (by omega) hs
    rw [← er] at hk
    obtain ⟨g', hg'⟩ := List.getElem?_of_mem hk
    have := e3' g' _ _ hg'
    rw [hg] at this
    exact List.mem_of_getElem? this
  rw [items, e1] at hi
  rw [items, e1'] at hi'
  simp only at hi hi'
  have ec : m'.cache = m.cache := by rw [h]
  intro f hf
  obtain ⟨x, hx, e⟩ := Content.collect_mem hi hf
  obtain ⟨g, hg⟩ := List.getElem?_of_mem (sub x hx)
  obtain ⟨y, y1, y2⟩ := (Content.collect_get hi').2 g x hg
  rw [ec, Threads.forest_like h] at y2
  rw [e] at y2
  cases y2
  exact List.mem_of_getElem? y1

theorem like_to {ms ms' : List (Mode E C Pt D S P A)} (h : LikeAll ms ms') : ∀ m ∈ ms, ∃ m' ∈ ms', Like m m' := by
  induction h with
  | nil => intro _ h; cases h
  | @cons m m' ms ms' hl _ ih =>
    intro x hx
    rcases List.mem_cons.mp hx with e | hx
    · exact ⟨m', List.mem_cons_self .., e ▸ hl⟩
    · obtain ⟨y, hy, e⟩ := ih x hx
      exact ⟨y, List.mem_cons_of_mem _ hy, e⟩

/-- The leafs of the smaller feed are leafs of the larger one. -/
theorem leafs_more [DecidableEq E] {geo : Geo Pt} {enc : ShpPt Pt → Shapes.Point} {encD : Rat → List Nat} {ms ms' : List (Mode E C Pt D S P A)} {n n' : Nat}
    (hn : n ≤ n') (h : LikeAll ms ms') (ok : ∀ m ∈ ms, ModeOk m n) (ok' : ∀ m ∈ ms', ModeOk m n') (ho : Others n n' ms) {rs rs' : List (MRun (List Nat))}
    (hr : mruns geo enc encD n ms = some rs) (hr' : mruns geo enc encD n' ms' = some rs') {l : Shapes.Workers.Leaf}
    (hl : ∃ j ∈ (rs.map (·.run)).flatMap (·.jobs), l ∈ j) : ∃ j ∈ (rs'.map (·.run)).flatMap (·.jobs), l ∈ j := by
  obtain ⟨j, hj, hl⟩ := hl
  obtain ⟨x, hx, hj⟩ := List.mem_flatMap.mp hj
  obtain ⟨r, hrm, rfl⟩ := List.mem_map.mp hx
  obtain ⟨m, hm, its, hi, rfl⟩ := (Build.runs_ok hr).of r hrm
  obtain ⟨m', hm', e⟩ := like_to h m hm
  obtain ⟨its', hi', hrm'⟩ := (Build.runs_ok hr').to m' hm'
  obtain ⟨f, hf, it, hit, rfl⟩ := Build.leaf_iff.mp ⟨j, hj, hl⟩
  have hf' := items_more hn e (ok m hm) (ok' m' hm') (ho m hm) hi hi' f hf
  obtain ⟨j', hj', hl'⟩ := (Build.leaf_iff (enc := enc) (encD := encD) (m := m')).mpr ⟨f, hf', it, hit, rfl⟩
  exact ⟨j', List.mem_flatMap.mpr ⟨_, List.mem_map.mpr ⟨_, hrm', rfl⟩, hj'⟩, hl'⟩

theorem unique_of {α β : Type} {g : α → List β} : ∀ {l : List α}, (l.flatMap g).Nodup → ∀ {a b : α} {k : β}, a ∈ l → b ∈ l → k ∈ g a → k ∈ g b → a = b
  | [], _, _, _, _, ha, _, _, _ => by cases ha
  | x :: l, h, a, b, k, ha, hb, hka, hkb => by
    rw [List.flatMap_cons, List.nodup_append] at h
    obtain ⟨_, h2, h3⟩ := h
    rcases List.mem_cons.mp ha with ea | ha
    · rcases List.mem_cons.mp hb with eb | hb
      · rw [ea, eb]
      · rw [ea] at hka
        exact absurd rfl (h3 k hka k (List.mem_flatMap.mpr ⟨b, hb, hkb⟩))
    · rcases List.mem_cons.mp hb with eb | hb
      · rw [eb] at hkb
        exact absurd rfl (h3 k hkb k (List.mem_flatMap.mpr ⟨a, ha, hka⟩))
      · exact unique_of h2 ha hb hka hkb

/-- The distances are the same. -/
theorem dists_more {encD : Rat → List Nat} {its its' : List (List (Item E Pt))} (hs : ∀ f ∈ its, f ∈ its')
    (hn : (its'.flatMap fun f => f.flatMap (·.trips)).Nodup) {k : Nat} (hk : ∃ f ∈ its, ∃ it ∈ f, k ∈ it.trips) : distsOf encD its' k = distsOf encD its k := by
  obtain ⟨f, hf, it, hit, hkt, e⟩ := Build.dists_of (encD := encD) hk
  obtain ⟨f', hf', it', hit', hkt', e'⟩ := Build.dists_of (encD := encD) (its := its') ⟨f, hs f hf, it, hit, hkt⟩
  have hn' : (its'.flatten.flatMap (·.trips)).Nodup := by
    rw [← List.flatMap_id, List.flatMap_assoc]
    exact hn
  have := unique_of hn' (List.mem_flatten.mpr ⟨f, hs f hf, hit⟩) (List.mem_flatten.mpr ⟨f', hf', hit'⟩) hkt hkt'
  rw [e, e', this]

/-- The same distances are given to a trip in both runs. -/
theorem given_more [DecidableEq E] {geo : Geo Pt} {pt : List Pt → Rat → Pt} (gok : GeoOk geo pt) {enc : ShpPt Pt → Shapes.Point} {encD : Rat → List Nat}
    {ms ms' : List (Mode E C Pt D S P A)} {n n' : Nat}
    (hn : n ≤ n') (h : LikeAll ms ms') (ok : ∀ m ∈ ms, ModeOk m n) (ok' : ∀ m ∈ ms', ModeOk m n') (ho : Others n n' ms) {rs rs' : List (MRun (List Nat))}
    (hr : mruns geo enc encD n ms = some rs) (hr' : mruns geo enc encD n' ms' = some rs') {k : Nat} (hk : k < n) (hs : ∃ m ∈ ms, needsShape m.c k) :
    ∃ ds, Given rs k ds ∧ Given rs' k ds := by
  obtain ⟨m, hm, hs⟩ := hs
  obtain ⟨m', hm', e⟩ := like_to h m hm
  obtain ⟨its, hi, hrm⟩ := (Build.runs_ok hr).to m hm
  obtain ⟨its', hi', hrm'⟩ := (Build.runs_ok hr').to m' hm'
  have hx := (Build.trips_iff gok (ok m hm) hi).mpr ⟨hk, hs⟩
  have hsub := items_more hn e (ok m hm) (ok' m' hm') (ho m hm) hi hi'
  have ed := dists_more (encD := encD) hsub (Build.nodup_of gok (ok' m' hm') hi') hx
  obtain ⟨f, hf, it, hit, hkt⟩ := hx
  obtain ⟨j, hj, hl⟩ := (Build.leaf_iff (enc := enc) (encD := encD) (m := m)).mpr ⟨f, hf, it, hit, rfl⟩
  obtain ⟨j', hj', hl'⟩ := (Build.leaf_iff (enc := enc) (encD := encD) (m := m')).mpr ⟨f, hsub f hf, it, hit, rfl⟩
  exact ⟨_, ⟨_, hrm, ⟨j, hj, _, hl, hkt⟩, rfl⟩, ⟨_, hrm', ⟨j', hj', _, hl', hkt⟩, ed⟩⟩

theorem place_eq {rows rows' : List (StRow (List Nat) S')} {id : List Nat} (h : (rows.filter fun r => r.trip = id) = rows'.filter fun r => r.trip = id)
    {r r' : StRow (List Nat) S'} (h1 : r.trip = id) (h2 : r'.trip = id) (h3 : r.seq = r'.seq) : placeOf rows r = placeOf rows' r' := by
  have one : ∀ l : List (StRow (List Nat) S'), (l.filter fun q => decide (q.trip = id ∧ q.seq < r'.seq)) =
      (l.filter fun q => decide (q.trip = id)).filter fun q => decide (q.seq < r'.seq) := by
    intro l
    rw [List.filter_filter]
    congr 1
    funext q
    rw [Bool.decide_and, Bool.and_comm]
  unfold placeOf
  rw [h1, h2, h3, one, one, h]

/-- A stop of a trip gets the same distance in both runs. -/
theorem dist_eq {rs rs' : List (MRun (List Nat))} {trips trips' : List (TripRow X)} {rows rows' rows1 rows2 : List (StRow (List Nat) S')}
    (h1 : Measured rs trips rows rows1) (h2 : Measured rs' trips' rows' rows2) {k : Nat} {t : TripRow X} (ht : trips[k]? = some t) (ht' : trips'[k]? = some t)
    {ds : List (List Nat)} (g1 : Given rs k ds) (g2 : Given rs' k ds) (he : (rows.filter fun r => r.trip = t.id) = rows'.filter fun r => r.trip = t.id)
    {r1 r2 : StRow (List Nat) S'} (m1 : r1 ∈ rows1) (m2 : r2 ∈ rows2) (e1 : r1.trip = t.id) (e2 : r2.trip = t.id) (e3 : r1.seq = r2.seq) :
    r1.dist = r2.dist := by
  obtain ⟨i, a⟩ := List.getElem?_of_mem m1
  obtain ⟨j, b⟩ := List.getElem?_of_mem m2
  have ha : i < rows.length := by rw [← h1.length]; exact (List.getElem?_eq_some_iff.mp a).1
  have hb : j < rows'.length := by rw [← h2.length]; exact (List.getElem?_eq_some_iff.mp b).1
  have a0 := List.getElem?_eq_getElem ha
  have b0 := List.getElem?_eq_getElem hb
  obtain ⟨p1, p2, _⟩ := h1.row i _ _ a0 a
  obtain ⟨q1, q2, _⟩ := h2.row j _ _ b0 b
  have c1 := h1.new i _ _ a0 a k t ds ht (by rw [← e1, p1]) g1
  have c2 := h2.new j _ _ b0 b k t ds ht' (by rw [← e2, q1]) g2
  rw [place_eq he (by rw [← p1, e1]) (by rw [← q1, e2]) (by rw [← p2, ← q2, e3]), c2] at c1
  exact (Option.some.inj c1).symm

/-- Two outputs, the second one with further leafs. -/
theorem keeps_of {jobs jobs' : List (List Shapes.Workers.Leaf)} {ms : List (Mode E C Pt D S P A)} {trips trips' trips1 trips2 : List (TripRow X)}
    (hk : ∀ k, k < trips.length → ((∃ m ∈ ms, needsShape m.c k) ↔ ∃ j ∈ jobs, ∃ l ∈ j, k ∈ l.trips))
    (hk' : ∀ k, k < trips.length → (∃ j ∈ jobs', ∃ l ∈ j, k ∈ l.trips) → ∃ m ∈ ms, needsShape m.c k)
    (hj : ∀ l, (∃ j ∈ jobs, l ∈ j) → ∃ j ∈ jobs', l ∈ j) (hg : ∀ (k : Nat) t, trips[k]? = some t → trips'[k]? = some t)
    {rs rs' : List (MRun (List Nat))} {rows rows' rows1 rows2 : List (StRow (List Nat) S')}
    (hd : ∀ k, k < trips.length → (∃ m ∈ ms, needsShape m.c k) → ∃ ds, Given rs k ds ∧ Given rs' k ds)
    (m1 : Measured rs trips rows rows1) (m2 : Measured rs' trips' rows' rows2)
    {ex1 ex2 : Prop} {src src' out1 out2 : List Shapes.Row}
    (h1 : Lines jobs ex1 trips trips1 src out1) (h2 : Lines jobs' ex2 trips' trips2 src' out2) :
    Keeps ms trips trips1 trips2 src src' out1 out2 rows rows' rows1 rows2 := by
  have lt : ∀ (k : Nat) t, trips[k]? = some t → k < trips.length := fun k t h => (List.getElem?_eq_some_iff.mp h).1
  constructor
  · intro k t ht hn u1 hu1 u2 hu2 e1 e2
    obtain ⟨j, hjm, l, hl, hkl⟩ := (hk k (lt k t ht)).mp hn
    obtain ⟨j', hjm', hl'⟩ := hj l ⟨j, hjm, hl⟩
    have a1 := h1.line k t l.pts ht ⟨j, hjm, l, hl, hkl, rfl⟩ u1 hu1 e1
    have a2 := h2.line k t l.pts (hg k t ht) ⟨j', hjm', l, hl', hkl, rfl⟩ u2 hu2 e2
    unfold IsLine at a1 a2
    rw [a1, a2, List.map_map, List.map_map]
    rfl
  · intro k t ht hn u1 hu1 u2 hu2 e1 e2
    have f1 : ¬ ∃ pts, Found jobs k pts := by
      rintro ⟨pts, j, hjm, l, hl, hkl, _⟩
      obtain ⟨m, hm, h⟩ := (hk k (lt k t ht)).mpr ⟨j, hjm, l, hl, hkl⟩
      exact hn m hm h
    have f2 : ¬ ∃ pts, Found jobs' k pts := by
      rintro ⟨pts, j, hjm, l, hl, hkl, _⟩
      obtain ⟨m, hm, h⟩ := hk' k (lt k t ht) ⟨j, hjm, l, hl, hkl⟩
      exact hn m hm h
    obtain ⟨b1, c1⟩ := h1.old k t ht f1 u1 hu1 e1
    obtain ⟨b2, c2⟩ := h2.old k t (hg k t ht) f2 u2 hu2 e2
    exact ⟨by rw [b1, b2], fun e => by rw [b1, b2, c1, c2, e]⟩
  · intro k k' t t' ht ht' n1 n2 u1 hu1 v1 hv1 u2 hu2 v2 hv2 e1 f1 e2 f2
    obtain ⟨j, hjm, l, hl, hkl⟩ := (hk k (lt k t ht)).mp n1
    obtain ⟨i, him, l', hl', hkl'⟩ := (hk k' (lt k' t' ht')).mp n2
    have b := hj l ⟨j, hjm, hl⟩
    have b' := hj l' ⟨i, him, hl'⟩
    constructor
    · intro e
      have := h1.apart l l' ⟨j, hjm, hl⟩ ⟨i, him, hl'⟩ k k' hkl hkl' t t' ht ht' u1 hu1 v1 hv1 e1 f1 e
      exact h2.together l b k k' hkl this t t' (hg k t ht) (hg k' t' ht') u2 hu2 v2 hv2 e2 f2
    · intro e
      have := h2.apart l l' b b' k k' hkl hkl' t t' (hg k t ht) (hg k' t' ht') u2 hu2 v2 hv2 e2 f2 e
      exact h1.together l ⟨j, hjm, hl⟩ k k' hkl this t t' ht ht' u1 hu1 v1 hv1 e1 f1
  · intro k t ht hn he r1 hr1 r2 hr2 e1 e2 e3
    obtain ⟨ds, g1, g2⟩ := hd k (lt k t ht) hn
    exact dist_eq m1 m2 ht (hg k t ht) g1 g2 he hr1 hr2 e1 e2 e3

end Verif.More
