import Verif.Whole.Raw
import Verif.Payload.NodeProps

/-!
# The markers of nodes and the file
-/

set_option linter.unusedSectionVars false
set_option linter.unusedSimpArgs false

namespace Verif.Whole
open Verif.Osm Verif.Collapse Verif.Payload Verif.Snap

variable {P S T D : Type}

/-! ### which nodes are there -/

theorem ndFor_known (nohup box : Nat → Bool) (s : GSt P) (nid i : Nat) :
    ((∃ g, NodeOf (ndFor nohup box s nid).2 i g) ↔ (∃ g, NodeOf s i g) ∨ (i = nid ∧ (nohup nid || box nid) = true)) := by
  unfold ndFor
  by_cases hu : nohup nid = true
  · rw [if_pos hu]
    simp only [NodeOf, pushTo, FMap.get_put, hu, Bool.true_or, and_true]
    constructor
    · rintro ⟨g, h | ⟨l, h, hg⟩⟩
      · exact Or.inl ⟨g, Or.inl h⟩
      · by_cases hi : i = nid
        · exact Or.inr hi
        · rw [if_neg hi] at h
          exact Or.inl ⟨g, Or.inr ⟨l, h, hg⟩⟩
    · rintro (⟨g, h | ⟨l, h, hg⟩⟩ | h)
      · exact ⟨g, Or.inl h⟩
      · by_cases hi : i = nid
        · subst hi
          exact ⟨s.next, Or.inr ⟨_, by rw [if_pos rfl], by simp⟩⟩
        · exact ⟨g, Or.inr ⟨l, by rw [if_neg hi]; exact h, hg⟩⟩
      · exact ⟨s.next, Or.inr ⟨_, by rw [if_pos h], by simp⟩⟩
  · rw [if_neg hu]
    have hu' : nohup nid = false := by simpa using hu
    cases hn : s.nodes.get nid with
    | some n =>
      simp only
      constructor
      · exact Or.inl
      · rintro (h | ⟨rfl, _⟩)
        · exact h
        · exact ⟨n, Or.inl hn⟩
    | none =>
      simp only
      by_cases hb : box nid = true
      · rw [if_pos hb]
        simp only [NodeOf, FMap.get_put, hb, Bool.or_true, and_true]
        constructor
        · rintro ⟨g, h | h⟩
          · by_cases hi : i = nid
            · exact Or.inr hi
            · rw [if_neg hi] at h
              exact Or.inl ⟨g, Or.inl h⟩
          · exact Or.inl ⟨g, Or.inr h⟩
        · rintro (⟨g, h | h⟩ | h)
          · by_cases hi : i = nid
            · exact ⟨s.next, Or.inl (by rw [if_pos hi])⟩
            · exact ⟨g, Or.inl (by rw [if_neg hi]; exact h)⟩
          · exact ⟨g, Or.inr h⟩
          · exact ⟨s.next, Or.inl (by rw [if_pos h])⟩
      · rw [if_neg hb]
        simp only
        constructor
        · exact Or.inl
        · rintro (h | ⟨_, h⟩)
          · exact h
          · rw [hu'] at h; simp at h; exact absurd h hb

theorem edgesGo_known (nohup box : Nat → Bool) (w : Way) (nids : List Nat) (s : GSt P) (last : Option Nat) (i : Nat) :
    ((∃ g, NodeOf (edgesGo nohup box w nids s last) i g) ↔ (∃ g, NodeOf s i g) ∨ (i ∈ nids ∧ (nohup i || box i) = true)) ∧
    (edgesGo nohup box w nids s last).orphans = s.orphans ∧ (edgesGo nohup box w nids s last).geom = s.geom := by
  induction nids generalizing s last with
  | nil => exact ⟨by simp [edgesGo], rfl, rfl⟩
  | cons nid nids ih =>
    have hk := ndFor_known nohup box s nid i
    have ho : (ndFor nohup box s nid).2.orphans = s.orphans ∧ (ndFor nohup box s nid).2.geom = s.geom := by
      unfold ndFor
      split
      · exact ⟨rfl, rfl⟩
      · split
        · split <;> exact ⟨rfl, rfl⟩
        · exact ⟨rfl, rfl⟩
    have fin : ∀ (s1 : GSt P) (l1 : Option Nat), ((∃ g, NodeOf s1 i g) ↔ ∃ g, NodeOf (ndFor nohup box s nid).2 i g) →
        s1.orphans = (ndFor nohup box s nid).2.orphans → s1.geom = (ndFor nohup box s nid).2.geom →
        ((∃ g, NodeOf (edgesGo nohup box w nids s1 l1) i g) ↔ (∃ g, NodeOf s i g) ∨ (i ∈ nid :: nids ∧ (nohup i || box i) = true)) ∧
        (edgesGo nohup box w nids s1 l1).orphans = s.orphans ∧ (edgesGo nohup box w nids s1 l1).geom = s.geom := by
      intro s1 l1 h1 h2 h3
      obtain ⟨i1, i2, i3⟩ := ih s1 l1
      refine ⟨?_, i2.trans (h2.trans ho.1), i3.trans (h3.trans ho.2)⟩
      rw [i1, h1, hk, List.mem_cons]
      constructor
      · rintro ((h | ⟨rfl, h⟩) | ⟨h, h'⟩)
        · exact Or.inl h
        · exact Or.inr ⟨Or.inl rfl, h⟩
        · exact Or.inr ⟨Or.inr h, h'⟩
      · rintro (h | ⟨rfl | h, h'⟩)
        · exact Or.inl (Or.inl h)
        · exact Or.inl (Or.inr ⟨rfl, h'⟩)
        · exact Or.inr ⟨h, h'⟩
    unfold edgesGo
    cases hr : ndFor nohup box s nid with
    | mk r s1 =>
      rw [hr] at fin
      cases r with
      | none => exact fin s1 last Iff.rfl rfl rfl
      | some n =>
        cases last with
        | none => exact fin s1 (some n) Iff.rfl rfl rfl
        | some l => exact fin { s1 with edges := s1.edges ++ [⟨l, n, w⟩] } (some n) Iff.rfl rfl rfl

theorem addWays_known (nohup box : Nat → Bool) (ws : List Way) (s : GSt P) (i : Nat) :
    ((∃ g, NodeOf (ws.foldl (addWay nohup box) s) i g) ↔ (∃ g, NodeOf s i g) ∨ ((∃ w ∈ ws, i ∈ w.nodes) ∧ (nohup i || box i) = true)) ∧
    (ws.foldl (addWay nohup box) s).orphans = s.orphans := by
  induction ws generalizing s with
  | nil => exact ⟨by simp, rfl⟩
  | cons w ws ih =>
    obtain ⟨h1, h2, _⟩ := edgesGo_known nohup box w w.nodes s none i
    obtain ⟨i1, i2⟩ := ih (addWay nohup box s w)
    rw [List.foldl_cons]
    refine ⟨?_, i2.trans h2⟩
    rw [i1]
    unfold addWay
    rw [h1]
    constructor
    · rintro ((h | ⟨h, h'⟩) | ⟨⟨x, hx, h⟩, h'⟩)
      · exact Or.inl h
      · exact Or.inr ⟨⟨w, by simp, h⟩, h'⟩
      · exact Or.inr ⟨⟨x, by simp [hx], h⟩, h'⟩
    · rintro (h | ⟨⟨x, hx, h⟩, h'⟩)
      · exact Or.inl (Or.inl h)
      · rcases List.mem_cons.1 hx with rfl | hx
        · exact Or.inl (Or.inr ⟨h, h'⟩)
        · exact Or.inr ⟨⟨x, hx, h⟩, h'⟩

/-! ### markers -/

/-- The marker of a node of the file. -/
def kindOf (p : Par P S T D) (nd : Nod P) : Kind S :=
  if fStation p.o nd.attrs ≠ 0 then
    match p.info nd with
    | some s => .station s
    | none => .plain
  else if fBlocker p.o nd.attrs ≠ 0 then .blocker
  else if fTurnCycle p.o nd.attrs ≠ 0 then .turnCycle
  else .plain

def put (k : Nat → Kind S) (n : Nat) (x : Kind S) : Nat → Kind S := fun m => if m = n then x else k m

/-- State and markers. -/
structure Both (pl : NState Nat S) (k : Nat → Kind S) : Prop where
  inv : NInv pl k pl.infos.length
  un : Unshared pl k

theorem Both.exec {pl : NState Nat S} {k : Nat → Kind S} (h : Both pl k) (op : NOp Nat S) (hc : op.isCopy = false)
    (hb : op.isSet = true → pl.infos.length + 1 < u32max - 1) : Both (pl.exec op) (vstep k op) := by
  have h1 := NInv.step h.inv op hb (fun _ => h.un)
  have h2 := Unshared.step h.inv h.un op hb hc
  refine ⟨?_, h2⟩
  rw [h1.len]
  exact h1

theorem mark_len (p : Par P S T D) (nd : Nod P) (pl : NState Nat S) (n : Nat) : pl.infos.length ≤ (mark p nd pl n).infos.length := by
  unfold mark
  split
  · split
    · simp [NState.exec, NState.write]
    · exact Nat.le_refl _
  · split
    · exact Nat.le_refl _
    · split <;> exact Nat.le_refl _

theorem marks_len (p : Par P S T D) (nd : Nod P) (ns : List Nat) (pl : NState Nat S) : pl.infos.length ≤ (ns.foldl (mark p nd) pl).infos.length := by
  induction ns generalizing pl with
  | nil => exact Nat.le_refl _
  | cons n ns ih => exact Nat.le_trans (mark_len p nd pl n) (ih _)

theorem payNode_len (p : Par P S T D) (g : GSt P) (pl : NState Nat S) (nd : Nod P) : pl.infos.length ≤ (payNode p g pl nd).infos.length := by
  unfold payNode
  split
  · exact mark_len ..
  · split
    · exact marks_len ..
    · split
      · split
        · simp [NState.exec, NState.write]
        · exact Nat.le_refl _
      · exact Nat.le_refl _

theorem nodeSteps_len (p : Par P S T D) (nds : List (Nod P)) (c : GSt P × NState Nat S) :
    c.2.infos.length ≤ (nds.foldl (nodeStep p) c).2.infos.length := by
  induction nds generalizing c with
  | nil => exact Nat.le_refl _
  | cons nd nds ih => exact Nat.le_trans (payNode_len p c.1 c.2 nd) (ih (nodeStep p c nd))

theorem mark_both (p : Par P S T D) (nd : Nod P) {pl : NState Nat S} {k : Nat → Kind S} (h : Both pl k) (n : Nat)
    (hk : k n = .plain ∨ k n = kindOf p nd) (hb : (mark p nd pl n).infos.length < u32max - 1) : Both (mark p nd pl n) (put k n (kindOf p nd)) := by
  have same : ∀ x, k n = x → put k n x = k := by
    intro x hx
    funext m
    unfold put
    split
    · next e => rw [e, hx]
    · rfl
  unfold mark at hb ⊢
  unfold kindOf at hk ⊢
  by_cases h1 : fStation p.o nd.attrs ≠ 0
  · rw [if_pos h1] at hk hb ⊢
    rw [if_pos h1]
    cases hi : p.info nd with
    | some s =>
      rw [hi] at hb
      exact h.exec (.setSI n s) rfl (fun _ => by simpa [NState.exec, NState.write] using hb)
    | none =>
      rw [hi] at hk
      simp only
      rw [same _ (by simpa using hk)]
      exact h
  · rw [if_neg h1] at hk hb ⊢
    rw [if_neg h1]
    by_cases h2 : fBlocker p.o nd.attrs ≠ 0
    · rw [if_pos h2, if_pos h2]
      exact h.exec (.blocker n) rfl (fun h => by cases h)
    · rw [if_neg h2] at hk ⊢
      rw [if_neg h2]
      by_cases h3 : fTurnCycle p.o nd.attrs ≠ 0
      · rw [if_pos h3, if_pos h3]
        exact h.exec (.turnCycle n) rfl (fun h => by cases h)
      · rw [if_neg h3] at hk ⊢
        rw [if_neg h3, same _ (by simpa using hk)]
        exact h

theorem marks_both (p : Par P S T D) (nd : Nod P) (ns : List Nat) {pl : NState Nat S} {k : Nat → Kind S} (h : Both pl k)
    (hk : ∀ n ∈ ns, k n = .plain ∨ k n = kindOf p nd) (hb : (ns.foldl (mark p nd) pl).infos.length < u32max - 1) :
    Both (ns.foldl (mark p nd) pl) (fun m => if m ∈ ns then kindOf p nd else k m) := by
  induction ns generalizing pl k with
  | nil => simpa using h
  | cons n ns ih =>
    rw [List.foldl_cons] at hb ⊢
    have h1 := mark_both p nd h n (hk n (by simp)) (Nat.lt_of_le_of_lt (marks_len p nd ns _) hb)
    have h2 := ih h1 (fun m hm => by
      unfold put
      split
      · exact Or.inr rfl
      · exact hk m (by simp [hm])) hb
    have : (fun m => if m ∈ ns then kindOf p nd else put k n (kindOf p nd) m) = fun m => if m ∈ n :: ns then kindOf p nd else k m := by
      funext m
      unfold put
      by_cases e1 : m ∈ ns
      · simp [e1]
      · by_cases e2 : m = n <;> simp [e1, e2]
    rw [this] at h2
    exact h2

/-- What has been done with the nodes `done`. -/
structure MInv (p : Par P S T D) (own : List Place) (s0 : GSt P) (done : List (Nod P)) (c : GSt P × NState Nat S) (k : Nat → Kind S) : Prop where
  both : Both c.2 k
  nodes : c.1.nodes = s0.nodes
  multi : c.1.multi = s0.multi
  next : own.length ≤ c.1.next
  hit : ∀ (u : Nat) (q : Place), own[u]? = some q → ∀ nd ∈ done, nd.id = q.node → k u = kindOf p nd
  miss : ∀ (u : Nat) (q : Place), own[u]? = some q → (∀ nd ∈ done, nd.id ≠ q.node) → k u = .plain
  far : ∀ u, c.1.next ≤ u → k u = .plain
  orph : ∀ u, own.length ≤ u → u < c.1.next → ∃ nd ∈ done, (∀ (v : Nat) (q : Place), own[v]? = some q → q.node ≠ nd.id) ∧ fStation p.o nd.attrs ≠ 0 ∧
    k u = kindOf p nd ∧ c.1.geom.get u = some nd.pos
  found : ∀ nd ∈ done, (∀ (v : Nat) (q : Place), own[v]? = some q → q.node ≠ nd.id) → fStation p.o nd.attrs ≠ 0 →
    ∃ u, own.length ≤ u ∧ u < c.1.next ∧ k u = kindOf p nd ∧ c.1.geom.get u = some nd.pos
  list : ∀ u, u ∈ c.1.orphans ↔ own.length ≤ u ∧ u < c.1.next ∧ ∃ s, k u = .station s

theorem minv_step {p : Par P S T D} {own : List Place} {nohup box : Nat → Bool} {k0 : Nat} {s0 : GSt P} (hP : PInv nohup box own k0 0 s0)
    {done : List (Nod P)} {c : GSt P × NState Nat S} {k : Nat → Kind S} (h : MInv p own s0 done c k) (nd : Nod P)
    (hne0 : ∀ i, s0.multi.get i ≠ some []) (hnew : ∀ x ∈ done, x.id ≠ nd.id) (hb : (nodeStep p c nd).2.infos.length < u32max - 1) :
    ∃ k', MInv p own s0 (done ++ [nd]) (nodeStep p c nd) k' := by
  have hlt : ∀ u q, own[u]? = some q → u < own.length := fun u q hq => (List.getElem?_eq_some_iff.1 hq).1
  -- a node with graph nodes
  have case1 : ∀ (ns : List Nat) (pl' : NState Nat S) (geom' : FMap Nat P), (∀ u q, own[u]? = some q → (u ∈ ns ↔ q.node = nd.id)) →
      (∀ u ∈ ns, ∃ q, own[u]? = some q) → ns ≠ [] →
      (∀ u, u ∉ ns → geom'.get u = c.1.geom.get u) → Both pl' (fun m => if m ∈ ns then kindOf p nd else k m) →
      MInv p own s0 (done ++ [nd]) ({ c.1 with geom := geom' }, pl') (fun m => if m ∈ ns then kindOf p nd else k m) := by
    intro ns pl' geom' hns hown hne hgeom hboth
    have hout : ∀ u, own.length ≤ u → u ∉ ns := by
      intro u hu hm
      obtain ⟨q, hq⟩ := hown u hm
      have := hlt u q hq
      omega
    obtain ⟨u0, hu0⟩ := List.exists_mem_of_ne_nil ns hne
    obtain ⟨q0, hq0⟩ := hown u0 hu0
    have hid := (hns u0 q0 hq0).1 hu0
    refine ⟨hboth, h.nodes, h.multi, h.next, ?_, ?_, ?_, ?_, ?_, ?_⟩
    · intro u q hq x hx hxq
      rcases List.mem_append.1 hx with hx | hx
      · have : u ∉ ns := fun hm => hnew x hx (hxq.trans ((hns u q hq).1 hm))
        simp only [this, if_false]
        exact h.hit u q hq x hx hxq
      · rw [List.mem_singleton] at hx
        subst hx
        have : u ∈ ns := (hns u q hq).2 hxq.symm
        simp [this]
    · intro u q hq hall
      have : u ∉ ns := fun hm => hall nd (by simp) ((hns u q hq).1 hm).symm
      simp only [this, if_false]
      exact h.miss u q hq fun x hx => hall x (by simp [hx])
    · intro u hu
      have : u ∉ ns := hout u (Nat.le_trans h.next hu)
      simp only [this, if_false]
      exact h.far u hu
    · intro u h1 h2
      have : u ∉ ns := hout u h1
      obtain ⟨x, hx, x1, x2, x3, x4⟩ := h.orph u h1 h2
      refine ⟨x, by simp [hx], x1, x2, by simp [this, x3], ?_⟩
      show geom'.get u = _
      rw [hgeom u this]; exact x4
    · intro x hx x1 x2
      rcases List.mem_append.1 hx with hx | hx
      · obtain ⟨u, u1, u2, u3, u4⟩ := h.found x hx x1 x2
        have : u ∉ ns := hout u u1
        refine ⟨u, u1, u2, by simp [this, u3], ?_⟩
        show geom'.get u = _
        rw [hgeom u this]; exact u4
      · rw [List.mem_singleton] at hx
        subst hx
        exact absurd hid (x1 u0 q0 hq0)
    · intro u
      show u ∈ c.1.orphans ↔ _
      rw [h.list u]
      constructor
      · rintro ⟨a, b, s, hs⟩
        exact ⟨a, b, s, by simp [hout u a, hs]⟩
      · rintro ⟨a, b, s, hs⟩
        exact ⟨a, b, s, by simpa [hout u a] using hs⟩
  have plainOr : ∀ u q, own[u]? = some q → q.node = nd.id → k u = .plain ∨ k u = kindOf p nd := fun u q hq he =>
    Or.inl (h.miss u q hq fun x hx hxq => hnew x hx (hxq.trans he))
  have mul : ∀ l, s0.multi.get nd.id = some l → ∀ u ∈ l, ∃ k j, own[u]? = some (.alone nd.id k j) := fun l hl => hP.mu nd.id l hl
  have e1 : c.1.nodes.get nd.id = s0.nodes.get nd.id := by rw [h.nodes]
  have e2 : c.1.multi.get nd.id = s0.multi.get nd.id := by rw [h.multi]
  have hstep : ∀ st pl, addNode (fun n => fStation p.o n.attrs != 0) (fun n => (p.info n).isSome) c.1 nd = st → payNode p c.1 c.2 nd = pl →
      nodeStep p c nd = (st, pl) := by
    rintro _ _ rfl rfl; rfl
  cases hn : s0.nodes.get nd.id with
  | some n =>
    rw [hn] at e1
    rw [hstep { c.1 with geom := c.1.geom.put n nd.pos } (mark p nd c.2 n) (by unfold addNode; rw [e1]) (by unfold payNode; rw [e1])] at hb ⊢
    have ho := (hP.nd nd.id n).1 hn
    have hns : ∀ u q, own[u]? = some q → (u ∈ [n] ↔ q.node = nd.id) := by
      intro u q hq
      rw [List.mem_singleton]
      constructor
      · rintro rfl; rw [ho] at hq; cases hq; rfl
      · intro hq'
        cases q with
        | shared i =>
          have : i = nd.id := hq'
          subst this
          exact hP.inj _ _ _ hq ho
        | alone i k' j' =>
          have : i = nd.id := hq'
          subst this
          have h1 := (hP.al _ _ _ _ hq).1
          rw [(hP.sh _ _ ho).1] at h1
          cases h1
    have hB : Both (mark p nd c.2 n) (fun m => if m ∈ [n] then kindOf p nd else k m) := by
      have := mark_both p nd h.both n (plainOr n _ ho rfl) hb
      have e : put k n (kindOf p nd) = fun m => if m ∈ [n] then kindOf p nd else k m := by
        funext m; simp [put]
      rw [← e]; exact this
    refine ⟨_, case1 [n] _ _ hns ?_ (by simp) ?_ hB⟩
    · intro u hu; rw [List.mem_singleton] at hu; subst hu; exact ⟨_, ho⟩
    · intro u hu
      rw [FMap.get_put, if_neg (by simpa using hu)]
  | none =>
    rw [hn] at e1
    cases hl : s0.multi.get nd.id with
    | some l =>
      rw [hl] at e2
      rw [hstep { c.1 with geom := l.foldl (fun g n => g.put n nd.pos) c.1.geom } (l.foldl (mark p nd) c.2)
        (by unfold addNode; rw [e1]; simp only; rw [e2]) (by unfold payNode; rw [e1]; simp only; rw [e2])] at hb ⊢
      have hne : l ≠ [] := fun e => hne0 _ (e ▸ hl)
      have hns : ∀ u q, own[u]? = some q → (u ∈ l ↔ q.node = nd.id) := by
        intro u q hq
        constructor
        · intro hu
          obtain ⟨k', j', h1⟩ := mul l hl u hu
          rw [h1] at hq
          cases hq; rfl
        · intro he
          cases q with
          | shared i =>
            have : i = nd.id := he
            subst this
            rw [(hP.nd _ _).2 hq] at hn
            cases hn
          | alone i k' j' =>
            have : i = nd.id := he
            subst this
            obtain ⟨_, _, l', h1, h2⟩ := hP.al _ _ _ _ hq
            rw [hl] at h1
            cases h1
            exact h2
      refine ⟨_, case1 l _ _ hns ?_ hne ?_ (marks_both p nd l h.both ?_ hb)⟩
      · intro u hu; obtain ⟨k', j', h1⟩ := mul l hl u hu; exact ⟨_, h1⟩
      · intro u hu
        rw [get_putAll, if_neg hu]
      · intro u hu
        obtain ⟨k', j', h1⟩ := mul l hl u hu
        exact plainOr u _ h1 rfl
    | none =>
      rw [hl] at e2
      have hno : ∀ (v : Nat) (q : Place), own[v]? = some q → q.node ≠ nd.id := by
        intro v q hq he
        cases q with
        | shared i =>
          have : i = nd.id := he
          subst this
          rw [(hP.nd _ _).2 hq] at hn
          cases hn
        | alone i k' j' =>
          have : i = nd.id := he
          subst this
          obtain ⟨_, _, l', h1, h2⟩ := hP.al _ _ _ _ hq
          rw [hl] at h1
          cases h1
      by_cases hs : fStation p.o nd.attrs ≠ 0
      · have hs' : (fStation p.o nd.attrs != 0) = true := by simpa using hs
        rw [hstep { c.1 with
            next := c.1.next + 1
            geom := c.1.geom.put c.1.next nd.pos
            orphans := if (p.info nd).isSome then c.1.orphans ++ [c.1.next] else c.1.orphans } (mark p nd c.2 c.1.next)
          (by unfold addNode; rw [e1]; simp only; rw [e2]; simp only; rw [if_pos hs'])
          (by unfold payNode mark; rw [e1]; simp only; rw [e2]; simp only; rw [if_pos hs, if_pos hs])] at hb ⊢
        have hB := mark_both p nd h.both c.1.next (Or.inl (h.far _ (Nat.le_refl _))) hb
        have other : ∀ u, u ≠ c.1.next → put k c.1.next (kindOf p nd) u = k u := fun u hu => by unfold put; rw [if_neg hu]
        have self : put k c.1.next (kindOf p nd) c.1.next = kindOf p nd := by unfold put; rw [if_pos rfl]
        have hx := h.next
        refine ⟨_, hB, h.nodes, h.multi, Nat.le_succ_of_le h.next, ?_, ?_, ?_, ?_, ?_, ?_⟩
        · intro u q hq x hx hxq
          have := hlt u q hq
          rw [other u (by omega)]
          rcases List.mem_append.1 hx with hx | hx
          · exact h.hit u q hq x hx hxq
          · rw [List.mem_singleton] at hx
            subst hx
            exact absurd hxq.symm (hno u q hq)
        · intro u q hq hall
          have := hlt u q hq
          rw [other u (by omega)]
          exact h.miss u q hq fun x hx => hall x (by simp [hx])
        · intro u hu
          have hu : c.1.next + 1 ≤ u := hu
          rw [other u (by omega)]
          exact h.far u (by omega)
        · intro u h1 h2
          have h2 : u < c.1.next + 1 := h2
          by_cases hu : u = c.1.next
          · subst hu
            refine ⟨nd, by simp, hno, hs, self, ?_⟩
            show (c.1.geom.put c.1.next nd.pos).get c.1.next = _
            rw [FMap.get_put, if_pos rfl]
          · obtain ⟨x, hx, x1, x2, x3, x4⟩ := h.orph u h1 (by omega)
            refine ⟨x, by simp [hx], x1, x2, by rw [other u hu]; exact x3, ?_⟩
            show (c.1.geom.put c.1.next nd.pos).get u = _
            rw [FMap.get_put, if_neg hu]; exact x4
        · intro x hx' x1 x2
          rcases List.mem_append.1 hx' with hx' | hx'
          · obtain ⟨u, u1, u2, u3, u4⟩ := h.found x hx' x1 x2
            have hu : u ≠ c.1.next := by omega
            refine ⟨u, u1, Nat.lt_succ_of_lt u2, by rw [other u hu]; exact u3, ?_⟩
            show (c.1.geom.put c.1.next nd.pos).get u = _
            rw [FMap.get_put, if_neg hu]; exact u4
          · rw [List.mem_singleton] at hx'
            subst hx'
            refine ⟨c.1.next, h.next, Nat.lt_succ_self _, self, ?_⟩
            show (c.1.geom.put c.1.next x.pos).get c.1.next = _
            rw [FMap.get_put, if_pos rfl]
        · intro u
          have hkind : (∃ s, kindOf p nd = .station s) ↔ (p.info nd).isSome = true := by
            unfold kindOf
            rw [if_pos hs]
            cases p.info nd <;> simp
          show u ∈ (if (p.info nd).isSome = true then c.1.orphans ++ [c.1.next] else c.1.orphans) ↔ own.length ≤ u ∧ u < c.1.next + 1 ∧ _
          by_cases hu : u = c.1.next
          · subst hu
            rw [self, hkind]
            have : c.1.next ∉ c.1.orphans := fun hm => absurd ((h.list _).1 hm).2.1 (Nat.lt_irrefl _)
            by_cases hi : (p.info nd).isSome = true
            · rw [if_pos hi]; simp [hi, hx]
            · rw [if_neg hi]; simp [hi, this]
          · rw [other u hu]
            have : u ∈ (if (p.info nd).isSome = true then c.1.orphans ++ [c.1.next] else c.1.orphans) ↔ u ∈ c.1.orphans := by
              split <;> simp [hu]
            rw [this, h.list u]
            constructor
            · rintro ⟨a, b, c⟩; exact ⟨a, by omega, c⟩
            · rintro ⟨a, b, c⟩; exact ⟨a, by omega, c⟩
      · have hs' : ¬ (fStation p.o nd.attrs != 0) = true := by simpa using hs
        rw [hstep c.1 c.2 (by unfold addNode; rw [e1]; simp only; rw [e2]; simp only; rw [if_neg hs'])
          (by unfold payNode; rw [e1]; simp only; rw [e2]; simp only; rw [if_neg hs])]
        refine ⟨k, h.both, h.nodes, h.multi, h.next, ?_, ?_, h.far, ?_, ?_, h.list⟩
        · intro u q hq x hx hxq
          rcases List.mem_append.1 hx with hx | hx
          · exact h.hit u q hq x hx hxq
          · rw [List.mem_singleton] at hx
            subst hx
            exact absurd hxq.symm (hno u q hq)
        · intro u q hq hall
          exact h.miss u q hq fun x hx => hall x (by simp [hx])
        · intro u h1 h2
          obtain ⟨x, hx, h3⟩ := h.orph u h1 h2
          exact ⟨x, by simp [hx], h3⟩
        · intro x hx x1 x2
          rcases List.mem_append.1 hx with hx | hx
          · exact h.found x hx x1 x2
          · rw [List.mem_singleton] at hx
            subst hx
            exact absurd x2 hs

theorem minv_run {p : Par P S T D} {own : List Place} {nohup box : Nat → Bool} {k0 : Nat} {s0 : GSt P} (hP : PInv nohup box own k0 0 s0)
    (hne0 : ∀ i, s0.multi.get i ≠ some []) (nds : List (Nod P)) {done : List (Nod P)} {c : GSt P × NState Nat S} {k : Nat → Kind S}
    (h : MInv p own s0 done c k) (hnew : ((done ++ nds).map (·.id)).Nodup)
    (hb : (nds.foldl (nodeStep p) c).2.infos.length < u32max - 1) :
    ∃ k', MInv p own s0 (done ++ nds) (nds.foldl (nodeStep p) c) k' := by
  induction nds generalizing done c k with
  | nil => rw [List.append_nil]; exact ⟨k, h⟩
  | cons nd nds ih =>
    rw [List.foldl_cons] at hb ⊢
    have hn : ∀ x ∈ done, x.id ≠ nd.id := by
      intro x hx he
      rw [List.map_append, List.nodup_append] at hnew
      exact hnew.2.2 x.id (List.mem_map.2 ⟨x, hx, rfl⟩) nd.id (by simp) he
    obtain ⟨k1, h1⟩ := minv_step hP h nd hne0 hn (Nat.lt_of_le_of_lt (nodeSteps_len p nds _) hb)
    have := ih h1 (by simpa using hnew) hb
    simpa using this

theorem ndFor_nonempty (nohup box : Nat → Bool) (s : GSt P) (nid : Nat) (h : ∀ i, s.multi.get i ≠ some []) :
    ∀ i, (ndFor nohup box s nid).2.multi.get i ≠ some [] := by
  unfold ndFor
  split
  · intro i
    show (FMap.get (pushTo s.multi nid s.next) i) ≠ _
    unfold pushTo
    rw [FMap.get_put]
    split
    · simp
    · exact h i
  · split
    · split <;> exact h
    · exact h

theorem edgesGo_nonempty (nohup box : Nat → Bool) (w : Way) (nids : List Nat) (s : GSt P) (last : Option Nat) (h : ∀ i, s.multi.get i ≠ some []) :
    ∀ i, (edgesGo nohup box w nids s last).multi.get i ≠ some [] := by
  induction nids generalizing s last with
  | nil => exact h
  | cons nid nids ih =>
    have hn := ndFor_nonempty nohup box s nid h
    unfold edgesGo
    cases hr : ndFor nohup box s nid with
    | mk r s1 =>
      rw [hr] at hn
      cases r with
      | none => exact ih s1 last hn
      | some n =>
        cases last with
        | none => exact ih s1 (some n) hn
        | some l => exact ih { s1 with edges := s1.edges ++ [⟨l, n, w⟩] } (some n) hn

theorem addWays_nonempty (nohup box : Nat → Bool) (ws : List Way) (s : GSt P) (h : ∀ i, s.multi.get i ≠ some []) :
    ∀ i, (ws.foldl (addWay nohup box) s).multi.get i ≠ some [] := by
  induction ws generalizing s with
  | nil => exact h
  | cons w ws ih => exact ih _ (edgesGo_nonempty nohup box w w.nodes s none h)

end Verif.Whole
