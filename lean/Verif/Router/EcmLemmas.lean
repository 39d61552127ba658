import Verif.Router.Ecm
import Verif.Trie.Root

namespace Verif.Router
open Verif.Trie (Nd WF OneRoot lt_of_get get_of_lt nextArr)
variable {E C X P A : Type}

/-- The candidate of an arrival node (and of node 1) for a candidate of its stop. -/
def arrCand (g : Gen E C X) (n : Nd P A) (c : Cand0 E C X) : Cand E C (X × Int) :=
  ⟨c.e, g.add c.pen (g.timePen (avgTime n) (avgTime n)), (c.x, avgTime n), []⟩

/-- The k-th candidate of the departure node `n` below the arrival node `p`. -/
def depCand' (g : Gen E C X) (p n : Nd P A) (k : Nat) (c : Cand0 E C X) : Cand E C (X × Int) :=
  ⟨c.e, g.timePen (avgTime p) (avgTime n), (c.x, avgTime p + (if avgTime n - avgTime p < 0 then 0
    else avgTime n - avgTime p)), [k]⟩

theorem timeExpand_eq (g : Gen E C X) (n : Nd P A) (c : Cand0 E C X) :
    timeExpand g c (avgTime n) = [arrCand g n c] := by
  simp [timeExpand, arrCand, List.range_succ]

theorem depCand_eq (g : Gen E C X) (p n : Nd P A) (k : Nat) (c : Cand0 E C X) :
    depCand g [arrCand g p c] k (avgTime p) (avgTime n) (arrCand g p c) = depCand' g p n k c := by
  have : avgTime p ≤ avgTime p + (if avgTime n - avgTime p < 0 then 0 else avgTime n - avgTime p) := by
    split <;> omega
  simp [depCand, depCand', arrCand, List.range_succ, this]

theorem ecmChilds_spec (g : Gen E C X) {nds : List (Nd P A)} (w : WF nds) {nid : Nat} {p : Nd P A}
    (hp : nds[nid]? = some p) (h1 : nid ≠ 1) (c : Cand0 E C X) : ∀ (cs : List Nat) (ecm : Ecm E C X), cs.Nodup →
    (∀ x ∈ cs, x ∈ p.childs) →
    ∀ i, ecmChilds g nds nid (avgTime p) [arrCand g p c] ecm cs i =
      if i ∈ cs then
        match nds[i]? with
        | none => ecm i
        | some n => ecm i ++ [depCand' g p n (ecm nid).length c]
      else ecm i := by
  intro cs
  induction cs with
  | nil => intro ecm _ _ i; simp [ecmChilds]
  | cons x cs ih =>
    intro ecm hnd hch i
    obtain ⟨hlt, n, hn, _⟩ := w.chi nid p x hp (hch x (by simp))
    have hnd' := List.nodup_cons.mp hnd
    have := ih (fun i => if i = x then ecm x ++ [depCand' g p n (ecm nid).length c] else ecm i) hnd'.2
      (fun y hy => hch y (by simp [hy])) i
    have hx : nid ≠ x := by omega
    simp only [ecmChilds, if_neg h1, List.foldl_cons, hn] at this ⊢
    simp only [List.map_cons, List.map_nil, depCand_eq] at this ⊢
    rw [this]
    simp only [hx, if_false]
    by_cases hix : i = x
    · subst hix
      simp [hnd'.1, hn]
    · simp [hix]

theorem ecmCand_spec (g : Gen E C X) {nds : List (Nd P A)} (w : WF nds) {nid : Nat} {p : Nd P A}
    (hp : nds[nid]? = some p) (h1 : nid ≠ 1) (c : Cand0 E C X) (ecm : Ecm E C X) (i : Nat) :
    ecmCand g nds nid p ecm c i =
      if i = nid then ecm nid ++ [arrCand g p c]
      else if i ∈ p.childs then
        match nds[i]? with
        | none => ecm i
        | some n => ecm i ++ [depCand' g p n (ecm nid).length c]
      else ecm i := by
  have hn : nid ∉ p.childs := by
    intro h
    have := (w.chi nid p nid hp h).1
    omega
  simp only [ecmCand, timeExpand_eq]
  rw [ecmChilds_spec g w hp h1 c p.childs ecm (w.nod nid p hp) (fun _ h => h) nid,
    ecmChilds_spec g w hp h1 c p.childs ecm (w.nod nid p hp) (fun _ h => h) i]
  simp only [hn, if_false]

theorem ecmCand_first (g : Gen E C X) {nds : List (Nd P A)} {p : Nd P A} (c : Cand0 E C X) (ecm : Ecm E C X)
    (i : Nat) : ecmCand g nds 1 p ecm c i = if i = 1 then ecm 1 ++ [arrCand g p c] else ecm i := by
  simp [ecmCand, timeExpand_eq, ecmChilds]

theorem foldl_first (g : Gen E C X) {nds : List (Nd P A)} {p : Nd P A} : ∀ (cs : List (Cand0 E C X))
    (ecm : Ecm E C X) (i : Nat), cs.foldl (ecmCand g nds 1 p) ecm i =
      if i = 1 then ecm 1 ++ cs.map (arrCand g p) else ecm i := by
  intro cs
  induction cs with
  | nil => intro ecm i; by_cases h : i = 1 <;> simp [h]
  | cons c cs ih =>
    intro ecm i
    simp only [List.foldl_cons, ih, ecmCand_first, if_true, List.map_cons]
    by_cases h : i = 1
    · simp [h]
    · simp [h]

theorem foldl_arr (g : Gen E C X) {nds : List (Nd P A)} (w : WF nds) {nid : Nat} {p : Nd P A}
    (hp : nds[nid]? = some p) (h1 : nid ≠ 1) : ∀ (cs : List (Cand0 E C X)) (ecm : Ecm E C X) (i : Nat),
    cs.foldl (ecmCand g nds nid p) ecm i =
      if i = nid then ecm nid ++ cs.map (arrCand g p)
      else if i ∈ p.childs then
        match nds[i]? with
        | none => ecm i
        | some n => ecm i ++ (cs.mapIdx fun k c => depCand' g p n ((ecm nid).length + k) c)
      else ecm i := by
  intro cs
  induction cs with
  | nil =>
    intro ecm i
    by_cases h : i = nid
    · simp [h]
    · by_cases hc : i ∈ p.childs
      · simp [h, hc]; split <;> rfl
      · simp [h, hc]
  | cons c cs ih =>
    intro ecm i
    have hn : nid ∉ p.childs := by
      intro h
      have := (w.chi nid p nid hp h).1
      omega
    simp only [List.foldl_cons, ih, ecmCand_spec g w hp h1 c ecm]
    by_cases h : i = nid
    · simp [h]
    · by_cases hc : i ∈ p.childs
      · simp only [h, hc, if_false, if_true]
        cases hi : nds[i]? with
        | none => rfl
        | some n =>
          simp only [List.mapIdx_cons, List.append_assoc, List.singleton_append, List.length_append,
            List.length_cons, List.length_nil, Nat.add_zero]
          congr 2
          apply congrArg (fun f => List.mapIdx f cs)
          funext k c'
          congr 1
          omega
      · simp [h, hc]

/-- What the finished table contains for node `i`. -/
def Entry (g : Gen E C X) (nds : List (Nd P A)) (i : Nat) (l : List (Cand E C (X × Int))) : Prop :=
  ∃ n p, nds[i]? = some n ∧ nds[n.parent]? = some p ∧
    ((i = 1 ∨ n.arr = true) → l = (g.cands i).map (arrCand g n)) ∧
    (i ≠ 1 → n.arr = false → p.arr = true ∧ l = (g.cands n.parent).mapIdx (depCand' g p n))

theorem getECM_spec (g : Gen E C X) {nds : List (Nd P A)} (w : WF nds) (one : OneRoot nds) (ecm : Ecm E C X)
    (h : getECM g nds = some ecm) (i : Nat) (h0 : i ≠ 0) (hi : i < nds.length) : Entry g nds i (ecm i) := by
  unfold getECM at h
  split at h
  · cases h
    -- the parent of every departure node but node 1 is an arrival node other than node 1
    have dep : ∀ (i : Nat) n, i ≠ 0 → i ≠ 1 → nds[i]? = some n → n.arr = false →
        ∃ p, nds[n.parent]? = some p ∧ p.arr = true ∧ n.parent < i ∧ n.parent ≠ 0 ∧ i ∈ p.childs := by
      intro i n h0 h1 hn ha
      cases i with
      | zero => exact absurd rfl h0
      | succ i =>
        obtain ⟨p, hp, hc⟩ := w.lnk i n hn
        have hpz : n.parent ≠ 0 := fun hz => h1 (by have := one i n hn hz; omega)
        have := w.alt i n hn
        rw [ha, nextArr, if_neg hpz, hp] at this
        exact ⟨p, hp, by simpa using this.symm, w.par i n hn, hpz, hc⟩
    -- node 1 is a departure node
    have fst : ∀ n, nds[1]? = some n → n.arr = false := by
      intro n hn
      have h1 := w.par 0 n hn
      have h2 := w.alt 0 n hn
      have : n.parent = 0 := by omega
      rw [h2, this]; rfl
    have key : ∀ m, m < nds.length → ∀ (i : Nat) n, i ≠ 0 → nds[i]? = some n →
        let e := (List.range' 1 m).foldl (ecmNode g nds) (fun _ => [])
        ((i = 1 ∨ n.arr = true) → if i ≤ m then e i = (g.cands i).map (arrCand g n) else e i = []) ∧
        (i ≠ 1 → n.arr = false → ∀ p, nds[n.parent]? = some p →
          if n.parent ≤ m then e i = (g.cands n.parent).mapIdx (depCand' g p n) else e i = []) := by
      intro m
      induction m with
      | zero =>
        intro _ i n h0 hn
        refine ⟨fun _ => ?_, fun h1 ha p hp => ?_⟩
        · rw [if_neg (by omega)]; rfl
        · obtain ⟨p', _, _, _, hz, _⟩ := dep i n h0 h1 hn ha
          rw [if_neg (by omega)]; rfl
      | succ m ih =>
        intro hm i n h0 hn
        have ih := ih (by omega)
        rw [List.range'_1_concat, List.foldl_append]
        simp only [List.foldl_cons, List.foldl_nil]
        generalize hee : (List.range' 1 m).foldl (ecmNode g nds) (fun _ => []) = e at ih
        obtain ⟨q, hq⟩ := get_of_lt (l := nds) (i := 1 + m) (by omega)
        have hqm : m + 1 = 1 + m := by omega
        simp only [ecmNode, hq]
        by_cases hskip : (1 + m ≠ 1 && !q.arr) = true
        · -- departure node: skipped
          rw [if_pos hskip]
          have hsk : 1 + m ≠ 1 ∧ q.arr = false := by simpa using hskip
          obtain ⟨ih1, ih2⟩ := ih i n h0 hn
          refine ⟨fun ha => ?_, fun h1 ha p hp => ?_⟩
          · have hne : i ≠ 1 + m := by
              rintro rfl
              rw [hq] at hn; cases hn
              rcases ha with ha | ha
              · exact hsk.1 ha
              · rw [hsk.2] at ha; cases ha
            have := ih1 ha
            by_cases hle : i ≤ m
            · rw [if_pos hle] at this; rw [if_pos (by omega)]; exact this
            · rw [if_neg hle] at this; rw [if_neg (by omega)]; exact this
          · have := ih2 h1 ha p hp
            obtain ⟨p', hp', hpa, _⟩ := dep i n h0 h1 hn ha
            rw [hp] at hp'; cases hp'
            have hne : n.parent ≠ 1 + m := by
              intro he
              rw [he, hq] at hp; cases hp
              rw [hsk.2] at hpa; cases hpa
            by_cases hle : n.parent ≤ m
            · rw [if_pos hle] at this; rw [if_pos (by omega)]; exact this
            · rw [if_neg hle] at this; rw [if_neg (by omega)]; exact this
        · rw [if_neg hskip]
          by_cases hm0 : 1 + m = 1
          · -- node 1
            rw [hm0] at hq ⊢
            have hm0' : m = 0 := by omega
            subst hm0'
            have he : e = fun _ => [] := by rw [← hee]; rfl
            refine ⟨fun ha => ?_, fun h1 ha p hp => ?_⟩
            · rw [foldl_first]
              by_cases hi1 : i = 1
              · subst hi1; rw [hq] at hn; cases hn
                simp [he]
              · rw [if_neg (by omega), if_neg hi1, he]
            · obtain ⟨p', hp', hpa, _, hz, _⟩ := dep i n h0 h1 hn ha
              rw [hp] at hp'; cases hp'
              have : n.parent ≠ 1 := by
                intro hz1
                rw [hz1, hq] at hp; cases hp
                rw [fst _ hq] at hpa; cases hpa
              rw [if_neg (by omega), foldl_first, if_neg h1, he]
          · -- arrival node
            have hqa : q.arr = true := by
              cases hb : q.arr with
              | true => rfl
              | false => simp [hb] at hskip; omega
            have hself : e (1 + m) = [] := by
              have := (ih (1 + m) q (by omega) hq).1 (Or.inr hqa)
              rw [if_neg (by omega)] at this; exact this
            obtain ⟨ih1, ih2⟩ := ih i n h0 hn
            have hchild : i ∈ q.childs ↔ n.parent = 1 + m := by
              constructor
              · intro h
                obtain ⟨_, n', hn', hp'⟩ := w.chi (1 + m) q i hq h
                rw [hn] at hn'; cases hn'; exact hp'
              · intro h
                cases i with
                | zero => exact absurd rfl h0
                | succ i =>
                  obtain ⟨p, hp, hc⟩ := w.lnk i n hn
                  rw [h, hq] at hp; cases hp; exact hc
            have kid : n.parent = 1 + m → i ≠ 1 → n.arr = false := by
              intro hp h1
              cases i with
              | zero => exact absurd rfl h0
              | succ i =>
                have := w.alt i n hn
                rw [this, nextArr, if_neg (by omega), hp, hq]
                simp [hqa]
            have hp1 : ∀ n', nds[1]? = some n' → n'.parent = 0 := by
              intro n' hn'
              have := w.par 0 n' hn'
              omega
            rw [foldl_arr g w hq hm0]
            refine ⟨fun ha => ?_, fun h1 ha p hp => ?_⟩
            · by_cases hi : i = 1 + m
              · subst hi; rw [hq] at hn; cases hn
                rw [if_pos (by omega), if_pos rfl, hself]; rfl
              · have hnc : i ∉ q.childs := by
                  intro hc
                  have hpar := hchild.mp hc
                  rcases ha with ha | ha
                  · subst ha; have := hp1 n hn; omega
                  · by_cases h1 : i = 1
                    · subst h1; have := hp1 n hn; omega
                    · rw [kid hpar h1] at ha; cases ha
                rw [if_neg hi, if_neg hnc]
                have := ih1 ha
                by_cases hle : i ≤ m
                · rw [if_pos hle] at this; rw [if_pos (by omega)]; exact this
                · rw [if_neg hle] at this; rw [if_neg (by omega)]; exact this
            · have hi : i ≠ 1 + m := by
                rintro rfl; rw [hq] at hn; cases hn; rw [hqa] at ha; cases ha
              rw [if_neg hi]
              have := ih2 h1 ha p hp
              by_cases hpar : n.parent = 1 + m
              · rw [if_pos (hchild.mpr hpar), if_pos (by omega)]
                rw [if_neg (by omega)] at this
                simp only [hn, this, hself, List.length_nil, Nat.zero_add, List.nil_append]
                rw [hpar, hq] at hp; cases hp
                rw [hpar]
              · rw [if_neg (fun h => hpar (hchild.mp h))]
                by_cases hle : n.parent ≤ m
                · rw [if_pos hle] at this; rw [if_pos (by omega)]; exact this
                · rw [if_neg hle] at this; rw [if_neg (by omega)]; exact this
    obtain ⟨n, hn⟩ := get_of_lt hi
    obtain ⟨k1, k2⟩ := key (nds.length - 1) (by omega) i n h0 hn
    obtain ⟨p, hp⟩ : ∃ p, nds[n.parent]? = some p := by
      cases i with
      | zero => exact absurd rfl h0
      | succ i => obtain ⟨p, hp, _⟩ := w.lnk i n hn; exact ⟨p, hp⟩
    refine ⟨n, p, hn, hp, fun ha => ?_, fun h1 ha => ?_⟩
    · have := k1 ha
      rw [if_pos (by omega)] at this; exact this
    · obtain ⟨p', hp', hpa, hlt, _⟩ := dep i n h0 h1 hn ha
      rw [hp] at hp'; cases hp'
      have := k2 h1 ha p hp
      rw [if_pos (by omega)] at this
      exact ⟨hpa, this⟩
  · cases h

end Verif.Router
