import Verif.Full.Spec
import Verif.Router.Props
import Verif.Hops.Fast

set_option linter.unusedSimpArgs false

namespace Verif.Full

open Verif.Trie (Nd WF lt_of_get get_of_lt)
open Verif.Router
open Verif.HopCache (Cache addNonOverflow)
open Verif.Hops (Way IsDist Travel GraphOk SearchOk FoundOk CacheOk HEnv Sizes)

variable {C X P A : Type}

/-! ### the search does not read the edges -/

theorem tryLoop_withPath (e : Env Nat C X Unit (Option Cache)) (p : Nat → Nat → Nat → List Nat) (par : List C) (nid : Nat) :
    ∀ (n : Nat) (s : Option Cache) (l : Layer C) (costM : List (Ent Unit)) (a b : UInt32),
      tryLoop (withPath e p) par nid n s l costM a b = tryLoop e par nid n s l costM a b := by
  intro n
  induction n with
  | zero => intros; rfl
  | succ n ih =>
    intro s l costM a b
    simp only [tryLoop, ih]
    rfl

theorem child_withPath (e : Env Nat C X Unit (Option Cache)) (p : Nat → Nat → Nat → List Nat) (nds : List (Nd P A)) (fr : Nat)
    (st : St C Unit (Option Cache)) (to : Nat) : child (withPath e p) nds fr st to = child e nds fr st to := by
  unfold child
  simp only [tryLoop_withPath]
  rfl

theorem loop_withPath (e : Env Nat C X Unit (Option Cache)) (p : Nat → Nat → Nat → List Nat) (nds : List (Nd P A)) :
    ∀ (n : Nat) (q : St C Unit (Option Cache) × List Nat), loop (withPath e p) nds n q = loop e nds n q := by
  intro n
  induction n with
  | zero => intro q; rfl
  | succ n ih =>
    intro q
    obtain ⟨st, stack⟩ := q
    cases stack with
    | nil => rfl
    | cons fr stack =>
      simp only [loop]
      rw [ih]
      have : pop (withPath e p) nds fr (st, stack) = pop e nds fr (st, stack) := by
        unfold pop
        split
        · rfl
        · simp only [child_withPath]
      rw [this]

theorem search_withPath (e : Env Nat C X Unit (Option Cache)) (p : Nat → Nat → Nat → List Nat) (nds : List (Nd P A)) (s : Option Cache) :
    search (withPath e p) nds s = search e nds s := by
  unfold search
  simp only [loop_withPath]
  rfl

/-! ### sizes -/

theorem doubled_toNat (m : UInt32) (h : 8 * m.toNat < 4294967295) : ∀ k : Nat, k < 4 → (doubled m k).toNat = m.toNat * 2 ^ k := by
  have dbl : ∀ x : UInt32, x.toNat ≤ 2147483647 → (double x).toNat = x.toNat * 2 := by
    intro x hx
    have : x ≤ 2147483647 := UInt32.le_iff_toNat_le.mpr hx
    rw [double, if_pos this, UInt32.toNat_mul]
    show x.toNat * 2 % 2 ^ 32 = _
    omega
  intro k
  induction k with
  | zero => intro _; simp [doubled]
  | succ k ih =>
    intro hk
    have e := ih (by omega)
    have h3 : m.toNat * 2 ^ k ≤ m.toNat * 2 ^ 2 := Nat.mul_le_mul_left _ (Nat.pow_le_pow_right (by omega) (by omega))
    rw [doubled, dbl _ (by omega), e, Nat.pow_succ, Nat.mul_assoc]

theorem sizes_of {n : Net C X} {K : Nat} (hs : Small n K) (p nid k : Nat) (hk : k < 4) :
    Sizes n.h (n.cands p) (n.cands nid) (doubled (n.maxCost0 nid) k) K := by
  have mem : ∀ (q : Nat) (c : Hops.Cand), c ∈ n.cands q → ∃ d, d ∈ n.ecm q ∧ c.e = d.e ∧ c.progr = n.progr d.x := by
    intro q c hc
    obtain ⟨d, hd, rfl⟩ := List.mem_map.mp hc
    exact ⟨d, hd, rfl, rfl⟩
  have hr := hs.room nid
  have hd := doubled_toNat (n.maxCost0 nid) (by omega) k hk
  have h1 : (n.maxCost0 nid).toNat * 2 ^ k ≤ (n.maxCost0 nid).toNat * 2 ^ 3 :=
    Nat.mul_le_mul_left _ (Nat.pow_le_pow_right (by omega) (by omega))
  have h2 : (n.maxCost0 nid).toNat * 1 ≤ (n.maxCost0 nid).toNat * 2 ^ k := Nat.mul_le_mul_left _ Nat.one_le_two_pow
  have h3 := hs.two nid
  constructor
  · intro c hc; obtain ⟨d, hd, _, e⟩ := mem _ c hc; rw [e]; exact hs.zero _ d hd
  · intro c hc; obtain ⟨d, hd, _, e⟩ := mem _ c hc; rw [e]; exact hs.one _ d hd
  · intro c hc; obtain ⟨d, hd, _, e⟩ := mem _ c hc; rw [e]; exact hs.zero _ d hd
  · intro c hc; obtain ⟨d, hd, _, e⟩ := mem _ c hc; rw [e]; exact hs.one _ d hd
  · intro c hc g hg; obtain ⟨d, hd, e, e2⟩ := mem _ c hc; rw [e] at hg; rw [e2]; exact hs.cost _ d hd g hg
  · intro c hc g hg; obtain ⟨d, hd, e, e2⟩ := mem _ c hc; rw [e] at hg; rw [e2]; exact hs.cost _ d hd g hg
  · omega
  · omega

theorem cands_get (n : Net C X) (nid i : Nat) (c : Hops.Cand) :
    (n.cands nid)[i]? = some c ↔ ∃ d, (n.ecm nid)[i]? = some d ∧ c = ⟨d.e, n.progr d.x⟩ := by
  unfold Net.cands
  rw [List.getElem?_map, Option.map_eq_some_iff]
  constructor
  · rintro ⟨d, h, rfl⟩; exact ⟨d, h, rfl⟩
  · rintro ⟨d, h, rfl⟩; exact ⟨d, h, rfl⟩

/-! ### what the calls return -/

/-- The records of the cache stay true. -/
theorem reach_cache {turn : Nat → Nat → Option Nat} {n : Net C X} {nds : List (Nd P A)} {K : Nat} (hg : GraphOk turn n.h)
    (hs : Small n K) (hslow : n.slow = true) (hse : SearchOk turn n.h) {s0 s : Option Cache}
    (hc : ∀ x, s0 = some x → CacheOk turn x) (h : Reach (n.base nds) s0 s) : ∀ x, s = some x → CacheOk turn x := by
  induction h with
  | init => exact hc
  | call s nid par k _ hk ih =>
    have := (Hops.C67_hops_exact hg hse n.needDist (n.cands (parent nds nid)) (n.cands nid) s ih (doubled (n.maxCost0 nid) k) K
      (sizes_of hs _ _ k hk)).2
    simp only [Net.base, Net.hops, hslow, if_true]
    exact this

/-- Every entry returned is a ride for less than the maximum cost. -/
theorem call_sound {turn : Nat → Nat → Option Nat} {n : Net C X} {nds : List (Nd P A)} {K : Nat} (hg : GraphOk turn n.h)
    (hs : Small n K) {s0 s : Option Cache} (htr : Trust turn n s0) (h : Reach (n.base nds) s0 s) {nid : Nat} {t : Nd P A}
    (ht : nds[nid]? = some t) (par : List C) (k : Nat) (hk : k < 4) (e : Ent Unit)
    (he : e ∈ ((n.base nds).hops s nid par (doubled (n.maxCost0 nid) k)).1) :
    Ride turn n nid t e.fr e.to e.c ∧ e.c < doubled (n.maxCost0 nid) k := by
  have hp : parent nds nid = t.parent := by simp [parent, ht]
  simp only [Net.base, Net.hops, hp] at he
  obtain ⟨y, hy, rfl⟩ := List.mem_map.mp he
  obtain ⟨⟨i, j⟩, c⟩ := y
  simp only
  cases hsl : n.slow with
  | true =>
    rw [Trust, if_pos hsl] at htr
    rw [if_pos hsl] at hy
    obtain ⟨fr, to, h1, h2, h3, h4⟩ := ((Hops.C67_hops_exact hg htr.1 n.needDist _ _ s (reach_cache hg hs hsl htr.1 htr.2 h) _ K
      (sizes_of hs t.parent nid k hk)).1 i j c).mp hy
    rw [cands_get] at h1 h2
    obtain ⟨a, ha, rfl⟩ := h1
    obtain ⟨b, hb, rfl⟩ := h2
    exact ⟨⟨a, b, ha, hb, h3⟩, h4⟩
  | false =>
    rw [Trust, if_neg (by simp [hsl])] at htr
    rw [if_neg (by simp [hsl])] at hy
    have hsz := sizes_of hs t.parent nid k hk
    have hsz' : Sizes n.h (((n.cands t.parent).zip (par.map n.raw)).map (·.1)) (n.cands nid) (doubled (n.maxCost0 nid) k) K := by
      have sub : ∀ c, c ∈ ((n.cands t.parent).zip (par.map n.raw)).map (·.1) → c ∈ n.cands t.parent := by
        intro c hc
        obtain ⟨p, hp, rfl⟩ := List.mem_map.mp hc
        exact (List.of_mem_zip (a := p.1) (b := p.2) hp).1
      exact ⟨fun c hc => hsz.from0 c (sub c hc), fun c hc => hsz.from1 c (sub c hc), hsz.to0, hsz.to1,
        fun c hc => hsz.fromK c (sub c hc), hsz.toK, hsz.room, hsz.two⟩
    obtain ⟨fr, to, raw, h1, h2, h3, h4⟩ := Hops.C67_fast_sound_partial hg htr _ _ s _ K hsz' i j c hy
    have h1' : (n.cands t.parent)[i]? = some fr := by
      rw [List.getElem?_zip_eq_some] at h1
      exact h1.1
    rw [cands_get] at h1' h2
    obtain ⟨a, ha, rfl⟩ := h1'
    obtain ⟨b, hb, rfl⟩ := h2
    exact ⟨⟨a, b, ha, hb, h3⟩, h4⟩

/-- The standard variant returns all of them. -/
theorem call_complete {turn : Nat → Nat → Option Nat} {n : Net C X} {nds : List (Nd P A)} {K : Nat} (hg : GraphOk turn n.h)
    (hs : Small n K) {s0 s : Option Cache} (hsl : n.slow = true) (htr : Trust turn n s0) (h : Reach (n.base nds) s0 s) {nid : Nat} {t : Nd P A}
    (ht : nds[nid]? = some t) (par : List C) (k : Nat) (hk : k < 4) (fr to : Nat) (x : UInt32)
    (hr : Ride turn n nid t fr to x) (hx : x < doubled (n.maxCost0 nid) k) :
    (⟨fr, to, x, ()⟩ : Ent Unit) ∈ ((n.base nds).hops s nid par (doubled (n.maxCost0 nid) k)).1 := by
  have hp : parent nds nid = t.parent := by simp [parent, ht]
  simp only [Net.base, Net.hops, hp]
  rw [Trust, if_pos hsl] at htr
  rw [if_pos hsl]
  obtain ⟨a, b, ha, hb, htv⟩ := hr
  refine List.mem_map.mpr ⟨((fr, to), x), ?_, rfl⟩
  exact ((Hops.C67_hops_exact hg htr.1 n.needDist _ _ s (reach_cache hg hs hsl htr.1 htr.2 h) _ K
      (sizes_of hs t.parent nid k hk)).1 fr to x).mpr
    ⟨_, _, (cands_get n _ _ _).mpr ⟨a, ha, rfl⟩, (cands_get n _ _ _).mpr ⟨b, hb, rfl⟩, htv, hx⟩

/-! ### the entries of a node -/

/-- The limits and the jumps of the search. -/
def topOf (n : Net C X) (nds : List (Nd P A)) (s : Option Cache) : Nat → UInt32 := (search (n.base nds) nds s).mc
def lostOf (n : Net C X) (nds : List (Nd P A)) (s : Option Cache) (nid : Nat) : Bool := ((search (n.base nds) nds s).fb nid).isSome

theorem calls_of {n : Net C X} {nds : List (Nd P A)} (w : WF nds) (s0 : Option Cache) {nid : Nat} {t f : Nd P A} (h0 : nid ≠ 0)
    (ht : nds[nid]? = some t) (hp : t.parent ≠ 0) (hf : nds[t.parent]? = some f) (hst : ¬ Stays f t) :
    (∃ l, CallsOK (n.base nds) s0 nid ((search (n.base nds) nds s0).layers t.parent).costs ((search (n.base nds) nds s0).ents nid)
      (topOf n nds s0 nid) (lostOf n nds s0 nid) l) ∧
    ∀ m, (search (n.base nds) nds s0).fb nid = some m → m = topOf n nds s0 nid :=
  (search_spec (n.base nds) w s0 nid t h0 ht).calls hp f hf (by rw [stays_iff]; exact hst)

theorem ents_sound {turn : Nat → Nat → Option Nat} {n : Net C X} {nds : List (Nd P A)} {K : Nat} (hg : GraphOk turn n.h) (w : WF nds)
    (hs : Small n K) {s0 : Option Cache} (htr : Trust turn n s0) {nid : Nat} {t f : Nd P A} (h0 : nid ≠ 0)
    (ht : nds[nid]? = some t) (hp : t.parent ≠ 0) (hf : nds[t.parent]? = some f) (hst : ¬ Stays f t) (e : Ent Unit)
    (he : e ∈ (search (n.base nds) nds s0).ents nid) :
    Ride turn n nid t e.fr e.to e.c ∧ e.c < topOf n nds s0 nid := by
  obtain ⟨⟨l, hl⟩, _⟩ := calls_of w s0 h0 ht hp hf hst (n := n)
  rw [hl.res, List.mem_flatMap] at he
  obtain ⟨c, hc, he⟩ := he
  obtain ⟨i, hi⟩ := List.mem_iff_getElem?.mp hc
  obtain ⟨hr, hm⟩ := hl.call i c hi
  have hil := (List.getElem?_eq_some_iff.mp hi).1
  have h4 := hl.four
  rw [hm] at he
  obtain ⟨r1, r2⟩ := call_sound hg hs htr hr ht _ i (by omega) e he
  refine ⟨r1, ?_⟩
  rw [UInt32.lt_iff_toNat_lt] at r2 ⊢
  rw [hl.max]
  have hroom := hs.room nid
  simp only [Net.base] at hm ⊢
  rw [doubled_toNat _ (by omega) _ (by omega)] at r2 ⊢
  have : (n.maxCost0 nid).toNat * 2 ^ i ≤ (n.maxCost0 nid).toNat * 2 ^ (l.length - 1) :=
    Nat.mul_le_mul_left _ (Nat.pow_le_pow_right (by omega) (by omega))
  omega

theorem ents_complete {turn : Nat → Nat → Option Nat} {n : Net C X} {nds : List (Nd P A)} {K : Nat} (hg : GraphOk turn n.h) (w : WF nds)
    (hs : Small n K) {s0 : Option Cache} (hsl : n.slow = true) (htr : Trust turn n s0) {nid : Nat} {t f : Nd P A} (h0 : nid ≠ 0)
    (ht : nds[nid]? = some t) (hp : t.parent ≠ 0) (hf : nds[t.parent]? = some f) (hst : ¬ Stays f t) (fr to : Nat) (x : UInt32)
    (hr : Ride turn n nid t fr to x) (hx : x < topOf n nds s0 nid) :
    (⟨fr, to, x, ()⟩ : Ent Unit) ∈ (search (n.base nds) nds s0).ents nid := by
  obtain ⟨⟨l, hl⟩, _⟩ := calls_of w s0 h0 ht hp hf hst (n := n)
  have hpos := hl.pos
  have h4 := hl.four
  obtain ⟨c, hc⟩ : ∃ c, l[l.length - 1]? = some c := ⟨_, List.getElem?_eq_getElem (by omega)⟩
  obtain ⟨hre, hm⟩ := hl.call _ c hc
  rw [hl.max] at hx
  rw [hl.res, List.mem_flatMap]
  refine ⟨c, List.mem_of_getElem? hc, ?_⟩
  rw [hm]
  exact call_complete hg hs hsl htr hre ht _ _ (by omega) fr to x hr hx

/-! ### plans -/

theorem plan_of_seq {turn : Nat → Nat → Option Nat} {n : Net C X} {nds : List (Nd P A)} {K : Nat} (hg : GraphOk turn n.h) (w : WF nds)
    (hs : Small n K) {s0 : Option Cache} (htr : Trust turn n s0) {nid : Nat} {ids : List Nat} {c : C} (h0 : nid ≠ 0)
    (h : SeqCost (n.base nds) nds (search (n.base nds) nds s0).ents (search (n.base nds) nds s0).fb nid ids c) :
    Plan turn n nds (topOf n nds s0) (lostOf n nds s0) nid ids c := by
  induction h with
  | first nid id t cand ht hp hc => exact Plan.first nid id t cand ht hp hc
  | next nid fr to f t ids c c' ht hp hf _ hstep ih =>
    refine Plan.next nid fr to f t ids c c' ht hp hf (ih hp) ?_
    cases hstep with
    | stay cand h1 h2 h3 => exact Move.stay cand h1 h2 h3
    | hop cand m h1 h2 h3 h4 h5 =>
      obtain ⟨r1, r2⟩ := ents_sound hg w hs htr h0 ht hp hf h1 m h2
      subst h3 h4
      exact Move.ride cand m.c h1 r1 r2 h5
    | null mc h1 h2 h3 h4 =>
      have := (calls_of w s0 h0 ht hp hf h1 (n := n)).2 mc h2
      subst this
      exact Move.null h1 (by simp [lostOf, h2]) h3 h4
    | dummy mc cand j d h1 h2 h3 h4 h5 h6 h7 h8 => exact Move.jump cand j d h1 (by simp [lostOf, h2]) h3 h4 h5 h6 h7 h8

theorem seq_of_plan {turn : Nat → Nat → Option Nat} {n : Net C X} {nds : List (Nd P A)} {K : Nat} (hg : GraphOk turn n.h) (w : WF nds)
    (hs : Small n K) {s0 : Option Cache} (hsl : n.slow = true) (htr : Trust turn n s0) {nid : Nat} {ids : List Nat} {c : C} (h0 : nid ≠ 0)
    (h : Plan turn n nds (topOf n nds s0) (lostOf n nds s0) nid ids c) :
    SeqCost (n.base nds) nds (search (n.base nds) nds s0).ents (search (n.base nds) nds s0).fb nid ids c := by
  induction h with
  | first nid id t cand ht hp hc => exact SeqCost.first nid id t cand ht hp hc
  | next nid fr to f t ids c c' ht hp hf _ hstep ih =>
    refine SeqCost.next nid fr to f t ids c c' ht hp hf (ih hp) ?_
    have hfb : lostOf n nds s0 nid = true → ¬ Stays f t → (search (n.base nds) nds s0).fb nid = some (topOf n nds s0 nid) := by
      intro hl hst
      unfold lostOf at hl
      cases hb : (search (n.base nds) nds s0).fb nid with
      | none => rw [hb] at hl; cases hl
      | some m => rw [(calls_of w s0 h0 ht hp hf hst (n := n)).2 m hb]
    cases hstep with
    | stay cand h1 h2 h3 => exact Step.stay cand h1 h2 h3
    | ride cand x h1 h2 h3 h4 =>
      exact Step.hop (env := n.base nds) cand ⟨fr, to, x, ()⟩ h1 (ents_complete hg w hs hsl htr h0 ht hp hf h1 fr to x h2 h3) rfl rfl h4
    | null h1 h2 h3 h4 => exact Step.null (env := n.base nds) _ h1 (hfb h2 h1) h3 h4
    | jump cand j d h1 h2 h3 h4 h5 h6 h7 h8 => exact Step.dummy (env := n.base nds) _ cand j d h1 (hfb h2 h1) h3 h4 h5 h6 h7 h8

/-! ### the limits -/

theorem not_opens_of {turn : Nat → Nat → Option Nat} {n : Net C X} {nds : List (Nd P A)} {K : Nat} (hg : GraphOk turn n.h) (w : WF nds)
    (L : Laws n.ops) (hs : Small n K) {s0 : Option Cache} (hsl : n.slow = true) (htr : Trust turn n s0) {nid : Nat} {t f : Nd P A}
    (hp : t.parent ≠ 0) (hf : nds[t.parent]? = some f) (m : Nat)
    (h : ∀ (fr to : Nat) (x : UInt32), Ride turn n nid t fr to x → x.toNat < m →
      NoGain (n.base nds) nid ((search (n.base nds) nds s0).layers t.parent).costs ⟨fr, to, x, ()⟩) :
    ¬ Opens turn n nds (topOf n nds s0) (lostOf n nds s0) nid t m := by
  rintro ⟨fr, to, ids, c, x, cand, hpl, hr, hx, hc, hlt⟩
  have hseq := seq_of_plan hg w hs hsl htr hp hpl
  obtain ⟨a, _, ha, _, _⟩ := id hr
  have hlen := layer_len w s0 hp hf (env := n.base nds)
  have hfr : fr < ((search (n.base nds) nds s0).layers t.parent).length := by
    rw [hlen]; exact (List.getElem?_eq_some_iff.mp ha).1
  obtain ⟨⟨y, q⟩, hy⟩ : ∃ z, ((search (n.base nds) nds s0).layers t.parent)[fr]? = some z := ⟨_, List.getElem?_eq_getElem hfr⟩
  have hle := (search_opt (env := n.base nds) L w s0 t.parent f hp hf fr y q hy).2 ids c hseq
  have hno := h fr to x hr hx y cand (by simp [Layer.costs, hy]) hc
  have : n.ops.lt (n.ops.add (n.ops.add c cand.pen) (n.weight nid fr to x)) n.ops.inf = false :=
    L.trans _ _ _ hno (L.mono _ _ (n.weight nid fr to x) (L.mono _ _ cand.pen hle))
  rw [this] at hlt
  cases hlt

/-- A jump takes place after the last doubling only. -/
theorem lost_last {n : Net C X} {nds : List (Nd P A)} {K : Nat} (hs : Small n K) {s0 : Option Cache} {nid : Nat} {par : List C}
    {ents : List (Ent Unit)} {mc : UInt32} {l : List (Option Cache × UInt32)} {lost : Bool}
    (htop : mc.toNat = (n.maxCost0 nid).toNat * 2 ^ (l.length - 1)) (hl : CallsOK (n.base nds) s0 nid par ents mc lost l)
    (hlost : lost = true) : l.length - 1 = 3 := by
  obtain ⟨_, g2⟩ := hl.last hlost
  have hpos := hl.pos
  have h4 := hl.four
  have hroom := hs.room nid
  have htwo := hs.two nid
  rcases g2 with g2 | g2
  · omega
  · exfalso
    have h1 : (n.maxCost0 nid).toNat * 2 ^ (l.length - 1) ≤ (n.maxCost0 nid).toNat * 2 ^ 3 :=
      Nat.mul_le_mul_left _ (Nat.pow_le_pow_right (by omega) (by omega))
    have h2 : (n.maxCost0 nid).toNat * 1 ≤ (n.maxCost0 nid).toNat * 2 ^ (l.length - 1) := Nat.mul_le_mul_left _ Nat.one_le_two_pow
    have := congrArg UInt32.toNat g2
    unfold double at this
    split at this
    · rw [UInt32.toNat_mul] at this
      change mc.toNat * 2 % 2 ^ 32 = _ at this
      omega
    · change 4294967295 = mc.toNat at this
      omega

theorem limits_ok {turn : Nat → Nat → Option Nat} {n : Net C X} {nds : List (Nd P A)} {K : Nat} (hg : GraphOk turn n.h) (w : WF nds)
    (L : Laws n.ops) (hs : Small n K) {s0 : Option Cache} (hsl : n.slow = true) (htr : Trust turn n s0) :
    Limits turn n nds (topOf n nds s0) (lostOf n nds s0) := by
  intro nid t f h0 ht hp hf hst
  obtain ⟨⟨l, hl⟩, _⟩ := calls_of w s0 h0 ht hp hf hst (n := n)
  have hpos := hl.pos
  have h4 := hl.four
  have hroom := hs.room nid
  have htwo := hs.two nid
  have htop : (topOf n nds s0 nid).toNat = (n.maxCost0 nid).toNat * 2 ^ (l.length - 1) := by
    rw [hl.max]; exact doubled_toNat (n.maxCost0 nid) (by omega) _ (by omega)
  refine ⟨l.length - 1, by omega, htop, ?_, ?_, ?_⟩
  · intro k' hk'
    apply not_opens_of hg w L hs hsl htr hp hf
    intro fr to x hr hx
    obtain ⟨c, hc⟩ : ∃ c, l[k']? = some c := ⟨_, List.getElem?_eq_getElem (by omega)⟩
    obtain ⟨hre, hm⟩ := hl.call _ c hc
    apply hl.again k' c hc (by omega)
    rw [hm]
    apply call_complete hg hs hsl htr hre ht _ _ (by omega) fr to x hr
    rw [UInt32.lt_iff_toNat_lt, doubled_toNat (n.maxCost0 nid) (by omega) _ (by omega)]
    exact hx
  · intro hlost
    have hfb : (search (n.base nds) nds s0).fb nid = none := by
      unfold lostOf at hlost
      cases hb : (search (n.base nds) nds s0).fb nid with
      | none => rfl
      | some m => rw [hb] at hlost; cases hlost
    obtain ⟨hn1, hn2⟩ := (search_spec (n.base nds) w s0 nid t h0 ht).next hp f hf
    have hflag := hn2 (by rw [stays_iff]; exact hst) hfb
    obtain ⟨k, c, p, hk, hfin⟩ := relaxAll_found (ops := (n.base nds).ops) L _ _ _ hflag
    rw [← hn1] at hk
    obtain ⟨ids, _, hseq, _⟩ := (search_opt (env := n.base nds) L w s0 nid t h0 ht k c p hk).1 hfin
    cases hseq with
    | first _ _ t' _ ht' hp' => rw [ht] at ht'; cases ht'; exact absurd hp' hp
    | next _ fr _ f' t' ids' c0 _ ht' _ hf' hseq' hstep =>
      rw [ht] at ht'; cases ht'
      rw [hf] at hf'; cases hf'
      cases hstep with
      | stay _ h1 => exact absurd h1 hst
      | null _ _ h2 => rw [hfb] at h2; cases h2
      | dummy _ _ _ _ _ h2 => rw [hfb] at h2; cases h2
      | hop cand m h1 h2 h3 h4 h5 =>
        obtain ⟨r1, r2⟩ := ents_sound hg w hs htr h0 ht hp hf h1 m h2
        subst h3 h4
        exact ⟨m.fr, m.to, ids', c0, m.c, cand, plan_of_seq hg w hs htr hp hseq', r1, UInt32.lt_iff_toNat_lt.mp r2, h5, hfin⟩
  · intro hlost
    obtain ⟨g1, _⟩ := hl.last hlost
    constructor
    · exact lost_last hs htop hl hlost
    · apply not_opens_of hg w L hs hsl htr hp hf
      intro fr to x hr hx
      exact g1 _ (ents_complete hg w hs hsl htr h0 ht hp hf hst fr to x hr (UInt32.lt_iff_toNat_lt.mpr hx))

/-! ### the edges of the hops -/

theorem bound_spec {n : Net C X} {nds : List (Nd P A)} {K : Nat} {nid : Nat} {m : UInt32} {tos : List Hops.Cand}
    (hs : Sizes n.h (n.cands (parent nds nid)) tos m K) :
    n.bound nds m nid = addNonOverflow m (Hops.trunc (Hops.maxProgr n.h (n.cands (parent nds nid)))) := by
  obtain ⟨h1, h2⟩ := Hops.inf_spec hs
  obtain ⟨g1, g2, _⟩ := Hops.maxProgr_spec hs
  have hr := hs.room
  apply UInt32.toNat_inj.mp
  rw [h1]
  generalize hpp : Hops.maxProgr n.h (n.cands (parent nds nid)) = p at *
  have hb : (m.toNat : Rat) + p ≤ ((m.toNat + K : Nat) : Rat) := by
    rw [Rat.natCast_add]; grind
  have hlt : ¬ (4294967295 : Rat) ≤ (m.toNat : Rat) + p := by
    intro h
    have hle : ((4294967295 : Nat) : Rat) ≤ ((m.toNat + K : Nat) : Rat) := by
      have e : ((4294967295 : Nat) : Rat) = (4294967295 : Rat) := rfl
      rw [e]; grind
    have : 4294967295 ≤ m.toNat + K := by exact_mod_cast hle
    omega
  have hbnd : n.bound nds m nid = Hops.trunc ((m.toNat : Rat) + Hops.maxProgr n.h (n.cands (parent nds nid))) := by
    unfold Net.bound
    simp only
    rw [if_neg (by rw [hpp]; exact hlt)]
  have hfl : ((m.toNat : Rat) + p).floor = (m.toNat : Int) + p.floor := by
    have l := Rat.floor_le p
    have u := Rat.lt_floor_add_one p
    have e : (((m.toNat : Int) + p.floor : Int) : Rat) = (m.toNat : Rat) + (p.floor : Rat) := by
      rw [Rat.intCast_add]; rfl
    apply Int.le_antisymm
    · apply Int.le_of_lt_add_one
      apply Int.not_le.mp
      intro h
      have h := Rat.le_floor_iff.mp h
      rw [Rat.intCast_add, e] at h
      rw [Rat.intCast_add] at u
      grind
    · apply Rat.le_floor_iff.mpr
      rw [e]; grind
  rw [hbnd, hpp, Hops.trunc_toNat (n := m.toNat + K) (by omega) hb, hfl]
  have := Hops.floor_toNat g1
  omega

theorem driven_of {turn : Nat → Nat → Option Nat} {n : Net C X} {nds : List (Nd P A)} {K : Nat} (hg : GraphOk turn n.h) (w : WF nds)
    (hs : Small n K) {s0 : Option Cache} (htr : Trust turn n s0) (hw : WalkOk turn n.walk) {nid : Nat} {ids : List Nat}
    {hops : List (Hop Nat X)} {c : C} (h0 : nid ≠ 0) (h : HopsOf (n.env nds s0) nds nid ids hops)
    (hseq : SeqCost (n.base nds) nds (search (n.base nds) nds s0).ents (search (n.base nds) nds s0).fb nid ids c) :
    Driven turn n nds (lostOf n nds s0) nid ids hops := by
  induction h generalizing c with
  | first nid id t ht hp => exact Driven.first nid id t ht hp
  | stay nid fr to f t ids hs ht hp hf hst _ ih =>
    cases hseq with
    | next _ _ _ f' t' _ c0 _ ht' _ hf' hseq' _ =>
      rw [ht] at ht'; cases ht'
      exact Driven.stay nid fr to f t ids hs ht hp hf hst (ih hp hseq')
  | hop nid fr to f t ids hs' a b h ht hp hf hst ha hb hj _ ih =>
    cases hseq with
    | next _ _ _ f' t' _ c0 _ ht' _ hf' hseq' hstep =>
      rw [ht] at ht'; cases ht'
      rw [hf] at hf'; cases hf'
      refine Driven.hop nid fr to f t ids hs' a b h ht hp hf hst ha hb ?_ (ih hp hseq')
      obtain ⟨j1, j2, j3, j4, j5, j6⟩ := hj
      obtain ⟨⟨l, hl⟩, _⟩ := calls_of w s0 h0 ht hp hf hst (n := n)
      have hpos := hl.pos
      have h4 := hl.four
      have hpar : parent nds nid = t.parent := by simp [parent, ht]
      have hsz : Sizes n.h (n.cands (parent nds nid)) (n.cands nid) (topOf n nds s0 nid) K := by
        rw [hl.max]; exact sizes_of hs _ _ _ (by omega)
      have hbd := bound_spec hsz
      -- a ride, unless this is a jump
      have hride : lostOf n nds s0 nid = false → ∃ x : UInt32, Ride turn n nid t fr to x ∧ x < topOf n nds s0 nid := by
        intro hno
        have hfb : (search (n.base nds) nds s0).fb nid = none := by
          unfold lostOf at hno
          cases hb : (search (n.base nds) nds s0).fb nid with
          | none => rfl
          | some m => rw [hb] at hno; cases hno
        cases hstep with
        | stay _ h1 => exact absurd h1 hst
        | null _ _ h2 => rw [hfb] at h2; cases h2
        | dummy _ _ _ _ _ h2 => rw [hfb] at h2; cases h2
        | hop cand m h1 h2 h3 h4 h5 =>
          obtain ⟨r1, r2⟩ := ents_sound hg w hs htr h0 ht hp hf h1 m h2
          subst h3 h4
          exact ⟨m.c, r1, r2⟩
      have hedge : lostOf n nds s0 nid = false → ∃ ea eb x : Nat, a.e = some ea ∧ b.e = some eb ∧ IsDist turn ea eb x ∧
          x < (n.bound nds (topOf n nds s0 nid) nid).toNat := by
        intro hno
        obtain ⟨x, ⟨a', b', ha', hb', htv⟩, hx⟩ := hride hno
        have ha'' : (n.ecm t.parent)[fr]? = some a := ha
        have hb'' : (n.ecm nid)[to]? = some b := hb
        rw [ha''] at ha'; cases ha'
        rw [hb''] at hb'; cases hb'
        obtain ⟨ea, eb, he, he', _⟩ := id htv
        obtain ⟨d, hd, hlt⟩ := Hops.travel_bound hsz
          (List.mem_of_getElem? ((cands_get n (parent nds nid) fr _).mpr ⟨a, by rw [hpar]; exact ha'', rfl⟩)) he he' htv
          (UInt32.lt_iff_toNat_lt.mp hx)
        exact ⟨ea, eb, d, he, he', hd, by rw [hbd]; exact hlt⟩
      refine ⟨j1, j2, j3, j4, ?_, ?_⟩
      · intro hn
        refine ⟨?_, j6 hn⟩
        cases hlost : lostOf n nds s0 nid with
        | true => rfl
        | false =>
          obtain ⟨ea, eb, _, g1, g2, _⟩ := hedge hlost
          rcases hn with hn | hn
          · rw [g1] at hn; cases hn
          · rw [g2] at hn; cases hn
      · intro e e' he he'
        have hed : h.edges = n.edges nds (topOf n nds s0) nid e e' := j5 e e' he he'
        rw [hed]
        unfold Net.edges
        simp only
        by_cases hlt : (n.walk e e' (n.bound nds (topOf n nds s0 nid) nid)).1 < n.bound nds (topOf n nds s0 nid) nid
        · rw [if_pos hlt]
          obtain ⟨g1, g2⟩ := hw.found _ _ _ hlt
          exact Or.inl ⟨_, g1, g2⟩
        · rw [if_neg hlt]
          right
          refine ⟨?_, rfl⟩
          cases hlost : lostOf n nds s0 nid with
          | true => rfl
          | false =>
            obtain ⟨ea, eb, x, g1, g2, g3, g4⟩ := hedge hlost
            rw [he] at g1; cases g1
            rw [he'] at g2; cases g2
            have := hw.lost _ _ _ (UInt32.not_lt.mp hlt) x g3.1
            omega

end Verif.Full
