import Verif.Full.Lemmas

/-!
# C68: the route of a trip in terms of ways in the graph
-/

set_option linter.unusedSimpArgs false
set_option linter.unusedSectionVars false

namespace Verif.Full

open Verif.Trie (Nd WF lt_of_get get_of_lt Op history)
open Verif.Router
open Verif.HopCache (Cache)
open Verif.Hops (Way IsDist Travel GraphOk SearchOk FoundOk CacheOk HEnv)

variable {C X P A T : Type} [DecidableEq T]

theorem seq_withPath {e : Env Nat C X Unit (Option Cache)} {p : Nat → Nat → Nat → List Nat} {nds : List (Nd P A)}
    {ents : Nat → List (Ent Unit)} {fb : Nat → Option UInt32} {nid : Nat} {ids : List Nat} {c : C} :
    SeqCost (withPath e p) nds ents fb nid ids c ↔ SeqCost e nds ents fb nid ids c := by
  constructor
  · intro h
    induction h with
    | first nid id t cand h1 h2 h3 => exact SeqCost.first nid id t cand h1 h2 h3
    | next nid fr to f t ids c c' h1 h2 h3 _ hstep ih =>
      refine SeqCost.next nid fr to f t ids c c' h1 h2 h3 ih ?_
      cases hstep with
      | stay cand g1 g2 g3 => exact Step.stay cand g1 g2 g3
      | hop cand m g1 g2 g3 g4 g5 => exact Step.hop cand m g1 g2 g3 g4 g5
      | null mc g1 g2 g3 g4 => exact Step.null mc g1 g2 g3 g4
      | dummy mc cand j d g1 g2 g3 g4 g5 g6 g7 g8 => exact Step.dummy mc cand j d g1 g2 g3 g4 g5 g6 g7 g8
  · intro h
    induction h with
    | first nid id t cand h1 h2 h3 => exact SeqCost.first nid id t cand h1 h2 h3
    | next nid fr to f t ids c c' h1 h2 h3 _ hstep ih =>
      refine SeqCost.next nid fr to f t ids c c' h1 h2 h3 ih ?_
      cases hstep with
      | stay cand g1 g2 g3 => exact Step.stay (env := withPath e p) cand g1 g2 g3
      | hop cand m g1 g2 g3 g4 g5 => exact Step.hop (env := withPath e p) cand m g1 g2 g3 g4 g5
      | null mc g1 g2 g3 g4 => exact Step.null (env := withPath e p) mc g1 g2 g3 g4
      | dummy mc cand j d g1 g2 g3 g4 g5 g6 g7 g8 => exact Step.dummy (env := withPath e p) mc cand j d g1 g2 g3 g4 g5 g6 g7 g8

/-- **C68.** With the standard variant of the hop calculation, every filed trip with at least two stops gets the hops of a plan that no other
plan undercuts, where plans ride along ways in the graph and pay the cost of a cheapest way. The hops have the edges of a cheapest way between
their candidates; only where no plan could ride at all hops without edges occur. The cache does not matter as long as its records are true. -/
theorem C68_cheapest (tenv : Verif.Trie.Env T P A) (hnear : ∀ p, tenv.near p p = true) (ops : List (Op T A))
    (tr : Verif.Trie.Trie T P A) (log : List (Op T A × Nat)) (h : history tenv ops = some (tr, log))
    {turn : Nat → Nat → Option Nat} (n : Net C (X × Int)) (hg : GraphOk turn n.h) (L : Laws n.ops) (F : Finite n.ops) (g : Gen Nat C X)
    (pl : Placeholder n.ops g) (he : getECM g tr.nds = some n.ecm) {K : Nat} (hs : Small n K) (s : Option Cache) (hsl : n.slow = true)
    (htr : Trust turn n s) (hw : WalkOk turn n.walk) (op : Op T A) (nid : Nat) (hop : (op, nid) ∈ log)
    (hstops : 2 ≤ (tenv.stops op.t).length) :
    ∃ (top : Nat → UInt32) (lost : Nat → Bool) (ids : List Nat) (hs : List (Hop Nat (X × Int))) (cost : C),
      Limits turn n tr.nds top lost ∧ Plan turn n tr.nds top lost nid ids cost ∧ Driven turn n tr.nds lost nid ids hs ∧
      n.route tr.nds s nid = some hs ∧
      ∀ ids' c, Plan turn n tr.nds top lost nid ids' c → n.ops.lt c cost = false := by
  obtain ⟨I, _⟩ := history_facts tenv hnear ops h
  obtain ⟨ids, hops, cost, h1, h2, h3, _, h0, h5⟩ := route_total tenv hnear ops tr log h (n.env tr.nds s) L F g pl he s op nid hop hstops
  have hse : search (n.env tr.nds s) tr.nds s = search (n.base tr.nds) tr.nds s := search_withPath _ _ _ _
  rw [hse, Net.env, seq_withPath] at h1
  refine ⟨topOf n tr.nds s, lostOf n tr.nds s, ids, hops, cost, limits_ok hg I.wf L hs hsl htr, plan_of_seq hg I.wf hs htr h0 h1,
    driven_of hg I.wf hs htr hw h0 h2 h1, h3, ?_⟩
  intro ids' c hplan
  have := seq_of_plan hg I.wf hs hsl htr h0 hplan
  exact h5 ids' c (by rw [hse, Net.env, seq_withPath]; exact this)

/-- **C68.** With both variants the hops returned are those of a plan: every hop that is not a jump has the edges of a cheapest way between
its candidates, so that what the cost calculation has found is found again when the edges are collected. -/
theorem C68_found_again (tenv : Verif.Trie.Env T P A) (hnear : ∀ p, tenv.near p p = true) (ops : List (Op T A))
    (tr : Verif.Trie.Trie T P A) (log : List (Op T A × Nat)) (h : history tenv ops = some (tr, log))
    {turn : Nat → Nat → Option Nat} (n : Net C (X × Int)) (hg : GraphOk turn n.h) (L : Laws n.ops) (F : Finite n.ops) (g : Gen Nat C X)
    (pl : Placeholder n.ops g) (he : getECM g tr.nds = some n.ecm) {K : Nat} (hs : Small n K) (s : Option Cache)
    (htr : Trust turn n s) (hw : WalkOk turn n.walk) (op : Op T A) (nid : Nat) (hop : (op, nid) ∈ log)
    (hstops : 2 ≤ (tenv.stops op.t).length) :
    ∃ (top : Nat → UInt32) (lost : Nat → Bool) (ids : List Nat) (hs : List (Hop Nat (X × Int))) (cost : C),
      Plan turn n tr.nds top lost nid ids cost ∧ Driven turn n tr.nds lost nid ids hs ∧ n.route tr.nds s nid = some hs ∧
      ∀ (i : Nat) (t f : Nd P A), i ≠ 0 → tr.nds[i]? = some t → t.parent ≠ 0 → tr.nds[t.parent]? = some f → ¬ Stays f t →
        ∃ k : Nat, k < 4 ∧ (top i).toNat = (n.maxCost0 i).toNat * 2 ^ k ∧ (lost i = true → k = 3) := by
  obtain ⟨I, _⟩ := history_facts tenv hnear ops h
  obtain ⟨ids, hops, cost, h1, h2, h3, _, h0, h5⟩ := route_total tenv hnear ops tr log h (n.env tr.nds s) L F g pl he s op nid hop hstops
  have hse : search (n.env tr.nds s) tr.nds s = search (n.base tr.nds) tr.nds s := search_withPath _ _ _ _
  rw [hse, Net.env, seq_withPath] at h1
  refine ⟨topOf n tr.nds s, lostOf n tr.nds s, ids, hops, cost, plan_of_seq hg I.wf hs htr h0 h1,
    driven_of hg I.wf hs htr hw h0 h2 h1, h3, ?_⟩
  intro i t f hi ht hp hf hst
  obtain ⟨⟨l, hl⟩, _⟩ := calls_of I.wf s hi ht hp hf hst (n := n)
  have hpos := hl.pos
  have h4 := hl.four
  have hroom := hs.room i
  have htwo := hs.two i
  have htop : (topOf n tr.nds s i).toNat = (n.maxCost0 i).toNat * 2 ^ (l.length - 1) := by
    rw [hl.max]; exact doubled_toNat (n.maxCost0 i) (by omega) _ (by omega)
  exact ⟨l.length - 1, by omega, htop, fun hlost => lost_last hs htop hl hlost⟩

/-! ### the limits are determined -/

theorem plan_congr {turn : Nat → Nat → Option Nat} {n : Net C X} {nds : List (Nd P A)} (w : WF nds) {top top' : Nat → UInt32}
    {lost lost' : Nat → Bool} {N : Nat} (heq : ∀ (i : Nat) (t f : Nd P A), i < N → i ≠ 0 → nds[i]? = some t → t.parent ≠ 0 →
      nds[t.parent]? = some f → ¬ Stays f t → top i = top' i ∧ lost i = lost' i) {b : Nat} {ids : List Nat} {c : C} (hb : b < N)
    (h0 : b ≠ 0) (h : Plan turn n nds top lost b ids c) : Plan turn n nds top' lost' b ids c := by
  induction h with
  | first nid id t cand h1 h2 h3 => exact Plan.first nid id t cand h1 h2 h3
  | next nid fr to f t ids c c' h1 h2 h3 _ hm ih =>
    have := par_lt w h0 h1
    refine Plan.next nid fr to f t ids c c' h1 h2 h3 (ih (by omega) h2) ?_
    by_cases hst : Stays f t
    · cases hm with
      | stay cand g1 g2 g3 => exact Move.stay cand g1 g2 g3
      | ride _ _ g1 => exact absurd hst g1
      | null g1 => exact absurd hst g1
      | jump _ _ _ g1 => exact absurd hst g1
    · obtain ⟨e1, e2⟩ := heq nid t f hb h0 h1 h2 h3 hst
      rw [← e1, ← e2]
      exact hm

/-- **C68.** The limits and the places of the jumps are determined by the network, the candidates and the trips. -/
theorem C68_limits_unique {turn : Nat → Nat → Option Nat} {n : Net C X} {nds : List (Nd P A)} (w : WF nds) {top top' : Nat → UInt32}
    {lost lost' : Nat → Bool} (h : Limits turn n nds top lost) (h' : Limits turn n nds top' lost') :
    ∀ (nid : Nat) (t f : Nd P A), nid ≠ 0 → nds[nid]? = some t → t.parent ≠ 0 → nds[t.parent]? = some f → ¬ Stays f t →
      top nid = top' nid ∧ lost nid = lost' nid := by
  intro nid
  induction nid using Nat.strongRecOn with
  | _ nid ih =>
    intro t f h0 ht hp hf hst
    have hlt := par_lt w h0 ht
    have agree : ∀ (i : Nat) (t f : Nd P A), i < nid → i ≠ 0 → nds[i]? = some t → t.parent ≠ 0 →
        nds[t.parent]? = some f → ¬ Stays f t → top i = top' i ∧ lost i = lost' i := fun i t f hi => ih i hi t f
    have opens : ∀ m, Opens turn n nds top lost nid t m ↔ Opens turn n nds top' lost' nid t m := by
      intro m
      constructor
      · rintro ⟨fr, to, ids, c, x, cand, g, rest⟩
        exact ⟨fr, to, ids, c, x, cand, plan_congr w agree hlt hp g, rest⟩
      · rintro ⟨fr, to, ids, c, x, cand, g, rest⟩
        exact ⟨fr, to, ids, c, x, cand, plan_congr w (fun i t f hi a b c d e =>
          ⟨(agree i t f hi a b c d e).1.symm, (agree i t f hi a b c d e).2.symm⟩) hlt hp g, rest⟩
    obtain ⟨k, k1, k2, k3, k4, k5⟩ := h nid t f h0 ht hp hf hst
    obtain ⟨l, l1, l2, l3, l4, l5⟩ := h' nid t f h0 ht hp hf hst
    have kl : k = l := by
      rcases Nat.lt_trichotomy k l with hc | hc | hc
      · exfalso
        cases hb : lost nid with
        | true => have := (k5 hb).1; omega
        | false =>
          have := k4 hb
          rw [k2, opens] at this
          exact l3 k hc this
      · exact hc
      · exfalso
        cases hb : lost' nid with
        | true => have := (l5 hb).1; omega
        | false =>
          have := l4 hb
          rw [l2, ← opens] at this
          exact k3 l hc this
    subst kl
    have e : top nid = top' nid := UInt32.toNat_inj.mp (by rw [k2, l2])
    refine ⟨e, ?_⟩
    cases hb : lost nid with
    | true =>
      cases hb' : lost' nid with
      | true => rfl
      | false =>
        have h1 := (k5 hb).2
        have h2 := l4 hb'
        rw [opens, e] at h1
        exact absurd h2 h1
    | false =>
      cases hb' : lost' nid with
      | false => rfl
      | true =>
        have h1 := (l5 hb').2
        have h2 := k4 hb
        rw [opens, e] at h2
        exact absurd h2 h1

/-! ### where the candidates come from -/

/-- Every candidate of the table is one of a stop, up to time, penalty and predecessors. -/
def From (g : Gen Nat C X) (ecm : Ecm Nat C X) : Prop :=
  ∀ i, ∀ c ∈ ecm i, ∃ j, ∃ c0, c0 ∈ g.cands j ∧ c.e = c0.e ∧ c.x.1 = c0.x

theorem from_cand {g : Gen Nat C X} {nds : List (Nd P A)} {nid : Nat} {n : Nd P A} {ecm : Ecm Nat C X} (h : From g ecm) {c : Cand0 Nat C X}
    (hc : ∃ j, c ∈ g.cands j) : From g (ecmCand g nds nid n ecm c) := by
  obtain ⟨j, hj⟩ := hc
  have tes : ∀ d ∈ timeExpand g c (avgTime n), d.e = c.e ∧ d.x.1 = c.x := by
    intro d hd
    unfold timeExpand at hd
    obtain ⟨i, _, rfl⟩ := List.mem_map.mp hd
    exact ⟨rfl, rfl⟩
  have childs : ∀ (l : List Nat) (e : Ecm Nat C X), From g e → From g (l.foldl (fun ecm ch =>
      match nds[ch]? with
      | none => ecm
      | some m => fun i => if i = ch then ecm ch ++ (timeExpand g c (avgTime n)).map (depCand g (timeExpand g c (avgTime n)) (ecm nid).length
          (avgTime n) (avgTime m)) else ecm i) e) := by
    intro l
    induction l with
    | nil => intro e he; exact he
    | cons ch l ih =>
      intro e he
      rw [List.foldl_cons]
      apply ih
      split
      · exact he
      · intro i d hd
        simp only at hd
        split at hd
        · rcases List.mem_append.mp hd with hd | hd
          · exact he _ d hd
          · obtain ⟨d0, hd0, rfl⟩ := List.mem_map.mp hd
            obtain ⟨e1, e2⟩ := tes d0 hd0
            exact ⟨j, c, hj, e1, e2⟩
        · exact he _ d hd
  have h' : From g (ecmChilds g nds nid (avgTime n) (timeExpand g c (avgTime n)) ecm n.childs) := by
    unfold ecmChilds
    split
    · exact h
    · exact childs n.childs ecm h
  intro i d hd
  unfold ecmCand at hd
  split at hd
  · rcases List.mem_append.mp hd with hd | hd
    · exact h' _ d hd
    · obtain ⟨e1, e2⟩ := tes d hd
      exact ⟨j, c, hj, e1, e2⟩
  · exact h' _ d hd

theorem from_ecm {g : Gen Nat C X} {nds : List (Nd P A)} {ecm : Ecm Nat C X} (h : getECM g nds = some ecm) : From g ecm := by
  have node : ∀ (nid : Nat) (e : Ecm Nat C X), From g e → From g (ecmNode g nds e nid) := by
    intro nid e he
    unfold ecmNode
    split
    · exact he
    · next n _ =>
      split
      · exact he
      · have : ∀ (l : List (Cand0 Nat C X)), (∀ c ∈ l, c ∈ g.cands nid) → ∀ e, From g e → From g (l.foldl (ecmCand g nds nid n) e) := by
          intro l
          induction l with
          | nil => intro _ e he; exact he
          | cons c l ih =>
            intro hl e he
            rw [List.foldl_cons]
            exact ih (fun c hc => hl c (by simp [hc])) _ (from_cand he ⟨nid, hl c (by simp)⟩)
        exact this _ (fun _ hc => hc) e he
  have all : ∀ (l : List Nat) (e : Ecm Nat C X), From g e → From g (l.foldl (ecmNode g nds) e) := by
    intro l
    induction l with
    | nil => intro e he; exact he
    | cons i l ih => intro e he; rw [List.foldl_cons]; exact ih _ (node i e he)
  unfold getECM at h
  split at h
  · cases h
    exact all _ _ (by intro i c hc; cases hc)
  · cases h

/-- The conditions on the sizes, from conditions on the candidates of the stops. -/
theorem small_of {n : Net C (X × Int)} {g : Gen Nat C X} {nds : List (Nd P A)} (h : getECM g nds = some n.ecm) {K : Nat} (pr : X → Rat)
    (hpr : ∀ x, n.progr x = pr x.1) (h0 : ∀ j, ∀ c ∈ g.cands j, 0 ≤ pr c.x ∧ pr c.x ≤ 1)
    (hc : ∀ j, ∀ c ∈ g.cands j, ∀ e : Nat, c.e = some e → ((n.h.cost e).toNat : Rat) * pr c.x ≤ (K : Rat))
    (hroom : ∀ nid, 8 * (n.maxCost0 nid).toNat + 2 * K < 4294967295) (htwo : ∀ nid, 2 ≤ (n.maxCost0 nid).toNat) : Small n K := by
  have hf := from_ecm h
  refine ⟨?_, ?_, ?_, hroom, htwo⟩
  · intro i c hi
    obtain ⟨j, c0, hj, _, e⟩ := hf i c hi
    rw [hpr, e]; exact (h0 j c0 hj).1
  · intro i c hi
    obtain ⟨j, c0, hj, _, e⟩ := hf i c hi
    rw [hpr, e]; exact (h0 j c0 hj).2
  · intro i c hi d hd
    obtain ⟨j, c0, hj, e, e2⟩ := hf i c hi
    rw [e] at hd
    rw [hpr, e2]
    exact hc j c0 hj d hd

/-! ### non-vacuity -/

/-- candidates on the chain: stop D lies behind the others -/
def exCands (i : Nat) : List (Cand0 Nat (Option Nat) Rat) :=
  ⟨none, some 0, 0⟩ :: match i with
    | 1 => [⟨some 3, some 3, 1/2⟩, ⟨some 5, some 0, 0⟩]
    | 2 => [⟨some 4, some 0, 1/5⟩, ⟨some 9, some 1, 0⟩]
    | 4 => [⟨some 9, some 0, 1/2⟩]
    | _ => [⟨some 0, some 0, 1⟩]

def exG : Gen Nat (Option Nat) Rat := { cands := exCands, timePen := fun _ _ => some 0, add := exCost.add }

theorem exG_placeholder : Placeholder exCost exG := ⟨rfl, fun _ => ⟨_, _, rfl, rfl, rfl⟩, fun _ _ => rfl⟩

def exWalk (a b : Nat) (m : UInt32) : UInt32 × List Nat :=
  if a ≤ b ∧ 10 * (b - a) < m.toNat then (UInt32.ofNat (10 * (b - a)), ((List.range (b - a + 1)).map fun i => a + i).reverse) else (m, [])

theorem exWalk_ok : WalkOk Hops.Chain.turn exWalk := by
  have trail : ∀ a k : Nat, Trail Hops.Chain.turn a (a + k) ((List.range (k + 1)).map fun i => a + i).reverse (10 * k) := by
    intro a k
    induction k with
    | zero => exact Trail.one a
    | succ k ih =>
      have := Trail.more (c := a + (k + 1)) (y := 10) ih (by simp [Hops.Chain.turn]; omega)
      rw [List.range_succ, List.map_append, List.reverse_append]
      have e : 10 * k + 10 = 10 * (k + 1) := by omega
      rw [e] at this
      exact this
  constructor
  · intro a b m
    unfold exWalk
    split
    · next h =>
      intro _
      have := m.toNat_lt
      have e : (UInt32.ofNat (10 * (b - a))).toNat = 10 * (b - a) := by
        rw [UInt32.toNat_ofNat', Nat.mod_eq_of_lt (by omega)]
      simp only [e]
      refine ⟨(Hops.Chain.dist_iff a b _).mpr ⟨h.1, rfl⟩, ?_⟩
      have := trail a (b - a)
      rw [show a + (b - a) = b from by omega] at this
      exact this
    · intro h; exact absurd h (UInt32.lt_irrefl _)
  · intro a b m
    unfold exWalk
    split
    · next h =>
      intro hle
      have := m.toNat_lt
      rw [UInt32.le_iff_toNat_le, UInt32.toNat_ofNat', Nat.mod_eq_of_lt (by omega)] at hle
      omega
    · next h =>
      intro _ y hy
      rw [Hops.Chain.way_iff] at hy
      omega

def exNet (ecm : Ecm Nat (Option Nat) Rat) (slow : Bool) : Net (Option Nat) (Rat × Int) where
  h := Hops.Chain.env
  ops := exCost
  ecm := ecm
  progr := fun x => x.1
  maxCost0 := fun _ => 8
  weight := fun _ _ _ c => some c.toNat
  raw := fun c => c.map fun x => (x : Rat)
  slow := slow
  needDist := false
  walk := exWalk

theorem exNet_small {ecm : Ecm Nat (Option Nat) Rat} {slow : Bool} {nds : List (Nd P A)} (h : getECM exG nds = some ecm) :
    Small (exNet ecm slow) 10 := by
  have h01 : ∀ j, ∀ c ∈ exG.cands j, 0 ≤ c.x ∧ c.x ≤ 1 := by
    intro j c hc
    simp only [exG, exCands] at hc
    rcases List.mem_cons.mp hc with rfl | hc
    · decide +kernel
    · split at hc
      all_goals
        simp only [List.mem_cons, List.not_mem_nil, or_false] at hc
        first
        | (rcases hc with rfl | rfl <;> decide +kernel)
        | (subst hc; decide +kernel)
  refine small_of (n := exNet ecm slow) h (fun x => x) (fun _ => rfl) h01 ?_
    (fun _ => (by decide : 8 * (8 : UInt32).toNat + 2 * 10 < 4294967295)) (fun _ => (by decide : 2 ≤ (8 : UInt32).toNat))
  intro j c hc e _
  have := (h01 j c hc).2
  show ((10 : Nat) : Rat) * c.x ≤ ((10 : Nat) : Rat)
  grind

theorem exNet_trust (ecm : Ecm Nat (Option Nat) Rat) (slow : Bool) : Trust Hops.Chain.turn (exNet ecm slow) none := by
  cases slow with
  | true => exact ⟨Hops.Chain.searchOk, fun x h => by cases h⟩
  | false => exact Hops.Chain.bestOk.toFoundOk

def exRoutes (g : Gen Nat (Option Nat) Rat) (slow : Bool) (nid : Nat) : Option (List (List Nat × (Option Nat × Rat) × (Option Nat × Rat))) :=
  match history Verif.Trie.exEnv Verif.Trie.exOps with
  | none => none
  | some r => match getECM g r.1.nds with
    | none => none
    | some ecm => ((exNet ecm slow).route r.1.nds none nid).map fun hs => hs.map fun h => (h.edges, h.fr.place, h.to.place)

/-- `C68_cheapest` and `C68_found_again` apply to the trips of the example. -/
example (slow : Bool) : ∃ r ecm, history Verif.Trie.exEnv Verif.Trie.exOps = some r ∧ getECM exG r.1.nds = some ecm ∧
    Small (exNet ecm slow) 10 ∧ GraphOk Hops.Chain.turn (exNet ecm slow).h ∧ Trust Hops.Chain.turn (exNet ecm slow) none ∧
    WalkOk Hops.Chain.turn (exNet ecm slow).walk ∧ Laws (exNet ecm slow).ops ∧ Finite (exNet ecm slow).ops ∧
    Placeholder (exNet ecm slow).ops exG := by
  have h1 : (history Verif.Trie.exEnv Verif.Trie.exOps).isSome = true := by decide +kernel
  obtain ⟨r, hr⟩ := Option.isSome_iff_exists.mp h1
  have h2 : ((history Verif.Trie.exEnv Verif.Trie.exOps).bind fun r => getECM exG r.1.nds).isSome = true := by decide +kernel
  rw [hr, Option.bind_some] at h2
  obtain ⟨ecm, he⟩ := Option.isSome_iff_exists.mp h2
  exact ⟨r, ecm, hr, he, exNet_small he, Hops.Chain.graphOk, exNet_trust ecm slow, exWalk_ok, exCost_laws, exCost_finite, exG_placeholder⟩

-- the second hop needs the limit to be doubled three times
example : exRoutes exG true 4 = some [([9, 8, 7, 6, 5, 4], (some 4, 1/5), (some 9, 1/2)), ([4, 3], (some 3, 1/2), (some 4, 1/5))] := by
  decide +kernel

-- no way leads to stop D: a jump
example : exRoutes exG true 5 = some [([], (some 4, 1/5), (some 0, 1)), ([4, 3], (some 3, 1/2), (some 4, 1/5))] := by decide +kernel

example : exRoutes exG false 5 = some [([], (some 4, 1/5), (some 0, 1)), ([4, 3], (some 3, 1/2), (some 4, 1/5))] := by decide +kernel

/-- stops A and B lie on one edge, in the wrong order -/
def exBack : Gen Nat (Option Nat) Rat :=
  { exG with cands := fun i => ⟨none, some 9, 0⟩ :: match i with
      | 1 => [⟨some 5, some 0, 3/4⟩]
      | 2 => [⟨some 5, some 0, 1/4⟩]
      | _ => [⟨some 6, some 0, 1⟩] }

/-- **C68** (limit). A jump between two positions of one edge, the second before the first, gets the edge as its way, although no ride is
possible: the search for the edges does not look at the positions. -/
theorem C68_limit_backwards : exRoutes exBack true 4 = some [([6, 5], (some 5, 1/4), (some 6, 1)), ([5], (some 5, 3/4), (some 5, 1/4))] ∧
    ∀ c : Nat, ¬ Travel Hops.Chain.turn Hops.Chain.env.cost ⟨some 5, 3/4⟩ ⟨some 5, 1/4⟩ c := by
  refine ⟨by decide +kernel, ?_⟩
  rintro c ⟨ef, et, h1, h2, h⟩
  cases h1
  cases h2
  rcases h with ⟨_, h, _⟩ | ⟨h, _⟩
  · exact absurd h (by decide +kernel)
  · exact absurd rfl h

end Verif.Full
