import Verif.Journey.Lemmas

/-!
# C80: the route of a trip is a cheapest drive through the map of the file
-/

set_option linter.unusedSectionVars false

namespace Verif.Journey
open Verif.Osm Verif.Collapse Verif.Whole
open Verif.Finish (Fin)
open Verif.Weights (FactorsOK)
open Verif.Hops (Way IsDist GraphOk SearchOk)
open Verif.Full
open Verif.Trie (Nd history)
open Verif.Router (Gen Laws Finite Placeholder getECM Hop)
open Verif.HopCache (Cache)

variable {P S T D : Type} [DecidableEq P]

theorem factors (g : Fin P S Nat) {r : Fare P} (ok : FareOk r) : FactorsOK (costEnv g r) := ⟨ok.1, ok.2.1, ok.2.2⟩

/-- C80. The router goes on from one edge to another exactly where the second begins at the end of the first, and pays the exact cost; it does
not where this cost is the highest number. -/
theorem C80_turn (g : Fin P S Nat) (r : Fare P) (ok : FareOk r) (i j x : Nat) :
    turn g r i j = some x ↔ ∃ e f, g.es[i]? = some e ∧ g.es[j]? = some f ∧ Pays g r e f x :=
  turn_spec g r (factors g ok) i j x

/-- C80. The cost of an edge alone, of which the router takes parts for candidates within the edge, is the exact cost with regard to the lines
of the trip; the highest number if it does not fit. -/
theorem C80_edge {C X : Type} (g : Fin P S Nat) (comp : Nat → Nat) (r : Fare P) (ok : FareOk r) (n : Net C X) (i : Nat) (e : Edg Nat P)
    (hi : g.es[i]? = some e) (s : Names.LineSim) (hs : Best r e s) :
    (Fits r s (e.a.cost % 4294967296) → ((onGraph g comp r n).h.cost i).toNat = min 4294967295 (lineToll r s (e.a.cost % 4294967296))) ∧
    (¬ Fits r s (e.a.cost % 4294967296) → ((onGraph g comp r n).h.cost i).toNat = 4294967295) :=
  edgeCost_spec g r (factors g ok) i e hi s hs

/-- There is exactly one answer to how well the lines of an edge match. -/
theorem C80_best (g : Fin P S Nat) (r : Fare P) (e : Edg Nat P) : ∃ s, Best r e s ∧ ∀ s', Best r e s' → s' = s :=
  ⟨_, Weights.C16_best_line (costEnv g r) e, fun s' h => Weights.C16_best_unique (costEnv g r) e s' _ h (Weights.C16_best_line (costEnv g r) e)⟩

theorem leg {g : Fin P S Nat} {r : Fare P} (ok : FactorsOK (costEnv g r)) (hu : Uniq g.es) {C X : Type} {a b : Router.Cand Nat C X}
    {h : Hop Nat X} {lost : Bool} (hj : Joined (turn g r) lost a b h) (ha : ∀ e, a.e = some e → e < g.es.length) :
    (lost = true ∧ h.edges = []) ∨ ∃ l x, Drives g.es h l ∧ Cheapest g r l x := by
  cases hae : a.e with
  | none => exact Or.inl (hj.none (Or.inl hae))
  | some i =>
    cases hbe : b.e with
    | none => exact Or.inl (hj.none (Or.inr hbe))
    | some j =>
      rcases hj.way i j hae hbe with ⟨x, hd, ht⟩ | k
      · right
        obtain ⟨l, h1, h2, h3, h4⟩ := trail_toll ok ht (ha i hae)
        refine ⟨l, x, ⟨h1, ⟨i, a.x, hj.frEdge i hae, h3⟩, ⟨j, b.x, hj.toEdge j hbe, h4⟩⟩, ?_, h2, ?_⟩
        · intro e he
          have : some e ∈ l.map some := List.mem_map_of_mem he
          rw [← h1] at this
          obtain ⟨k, _, hk⟩ := List.mem_map.1 this
          exact List.mem_of_getElem? hk
        · intro l' y hl' ht' hh hlast
          exact hd.2 y (toll_way ok hu ht' hl' i j (hh.trans h3) (hlast.trans h4))
      · exact Or.inl k

theorem legs {g : Fin P S Nat} {r : Fare P} (ok : FactorsOK (costEnv g r)) (hu : Uniq g.es) {C X P' A : Type} {n : Net C X} {nds : List (Nd P' A)}
    {lost : Nat → Bool} {nid : Nat} {ids : List Nat} {hs : List (Hop Nat X)} (h : Driven (turn g r) n nds lost nid ids hs)
    (hc : ∀ nid, ∀ c ∈ n.ecm nid, ∀ e, c.e = some e → e < g.es.length) :
    ∀ h ∈ hs, (h.edges = [] ∧ ∃ i, lost i = true) ∨ ∃ l x, Drives g.es h l ∧ Cheapest g r l x := by
  induction h with
  | first => intro h hh; cases hh
  | stay nid fr to f t ids hs _ _ _ _ _ ih => exact ih
  | hop nid fr to f t ids hs a b h _ _ _ _ ha _ hj _ ih =>
    intro k hk
    rcases List.mem_cons.1 hk with rfl | hk
    · rcases leg ok hu hj (fun e he => hc _ a (List.mem_of_getElem? ha) e he) with ⟨h1, h2⟩ | h
      · exact Or.inl ⟨h2, _, h1⟩
      · exact Or.inr h
    · exact ih k hk

/-- C80. The ends of an edge of the routing graph are in one component. -/
theorem Base.comp {p : Par P S T D} (ho : FlaggedOpts p.o) (hord : ∀ x l, (p.cfg.snap.order x l).Perm l)
    (hn : ∀ n u, u ∈ p.cfg.nds n ↔ u < n) {d : Doc P} {ways : List Way} {own : List Place} (h : Base p d ways own)
    (ht : Tidy p d (mapSegs p d ways)) (speed : Edg Nat P → Rat) :
    (∀ e ∈ (build p d.tags).es, fileComps p speed d.tags e.src = fileComps p speed d.tags e.dst) ∧
    (∀ e ∈ (build p d.tags).es, e.src ∈ (build p d.tags).nds ∧ e.dst ∈ (build p d.tags).nds) ∧ Uniq (build p d.tags).es := by
  have hs := h.sane ht.self
  have hm := h.ties.marks ho ht.sense
  have hm' : ∀ e ∈ (raw p d.tags).es, ∀ f ∈ (raw p d.tags).es, (e.src = f.src ∨ e.src = f.dst ∨ e.dst = f.src ∨ e.dst = f.dst) →
    e.a.oneWay ≠ 0 → f.a.oneWay ≠ 0 → e.a.oneWay = f.a.oneWay := fun e he f hf => hm e f he hf
  have hb := h.build ho ht
  have hg := h.gaps ho ht
  have G := Finish.C74_graph { p.cfg with orphans := p.orphOrder (readMap p d.tags).1.orphans } hord hn (raw p d.tags) hs hm'
  have hcomp : fileComps p speed d.tags = comps { p.cfg with orphans := p.orphOrder (readMap p d.tags).1.orphans } speed (raw p d.tags) := by
    unfold fileComps
    dsimp only
    rw [hg]
  rw [hb]
  refine ⟨fun e he => ?_, G.1, G.2.2.1⟩
  rw [hcomp]
  exact comps_edge { p.cfg with orphans := p.orphOrder (readMap p d.tags).1.orphans } hord hn (raw p d.tags) hs hm' speed e he

/-- **C80.** Every filed trip with at least two stops, routed on the graph made from a tidy map file, gets the hops of a plan that no other plan
undercuts. Consecutive hops meet. A hop without edges is a jump, only for lack of any ride. Every other hop drives along edges of the graph, which are
lines of ways of the file, from the edge of its first candidate to that of its second; no other drive between these edges costs less; where no
edge is driven against a one-way street, the ways of the file permit it; and the penalty for a refused turn is paid exactly for the turns that
turn restrictions of the file refuse. (Driving against a one-way street, or a refused turn, is possible at the cost configured for it.) -/
theorem C80_route_partial (p : Par P S T D) (hf : p.f.Ok) (ho : FlaggedOpts p.o) (hord : ∀ x l, (p.cfg.snap.order x l).Perm l)
    (hn : ∀ n u, u ∈ p.cfg.nds n ↔ u < n) (hsi : ∀ l, (p.cfg.simplify l).head? = l.head? ∧ (p.cfg.simplify l).getLast? = l.getLast?)
    (d : Doc P) (hd : d.Ok) (hw : d.ways ≠ []) (hz : ∀ x ∈ d.rels, ∀ t, ∀ m ∈ kidMembers t x.kids, m.1 ≠ 0)
    (speed : Edg Nat P → Rat) (r : Fare P) (hr : FareOk r)
    {T' P' A C X : Type} [DecidableEq T'] (tenv : Verif.Trie.Env T' P' A) (hnear : ∀ q, tenv.near q q = true) (ops : List (Verif.Trie.Op T' A))
    (tr : Verif.Trie.Trie T' P' A) (log : List (Verif.Trie.Op T' A × Nat)) (h : history tenv ops = some (tr, log))
    (n0 n : Net C (X × Int)) (hnet : n = onGraph (build p d.tags) (fileComps p speed d.tags) r n0) (L : Laws n.ops) (F : Finite n.ops)
    (gen : Gen Nat C X) (pl : Placeholder n.ops gen) (he : getECM gen tr.nds = some n.ecm)
    (hcand : ∀ j, ∀ c ∈ gen.cands j, ∀ e, c.e = some e → e < (build p d.tags).es.length) {K : Nat} (hsm : Small n K)
    (s : Option Cache) (hsl : n.slow = true) (htr : Trust (turn (build p d.tags) r) n s) (hwk : WalkOk (turn (build p d.tags) r) n.walk)
    (op : Verif.Trie.Op T' A) (nid : Nat) (hop : (op, nid) ∈ log) (hstops : 2 ≤ (tenv.stops op.t).length) :
    ∃ (ways : List Way) (at_ : Nat → Option Place) (br : DElem P → Rel) (refuse : Place × Place → Place × Place → Place → Bool),
      Kept p d ways ∧ (∀ u v q, at_ u = some q → at_ v = some q → u = v) ∧ (∀ x, ReadsRel p.keysR x (br x)) ∧
      Obeys p.o d.rels br (fun x => RelWanted p.f (br x)) (mapSegs p d ways) refuse ∧
      (Tidy p d (mapSegs p d ways) →
        Shows p d (mapSegs p d ways) at_ (build p d.tags) ∧
        ∃ (top : Nat → UInt32) (lost : Nat → Bool) (ids : List Nat) (hs : List (Hop Nat (X × Int))) (cost : C),
          n.route tr.nds s nid = some hs ∧
          Limits (turn (build p d.tags) r) n tr.nds top lost ∧ Plan (turn (build p d.tags) r) n tr.nds top lost nid ids cost ∧
          Driven (turn (build p d.tags) r) n tr.nds lost nid ids hs ∧
          (∀ ids' c, Plan (turn (build p d.tags) r) n tr.nds top lost nid ids' c → n.ops.lt c cost = false) ∧
          Router.Meet hs ∧
          (∀ h ∈ hs, (h.edges = [] ∧ ∃ i, lost i = true) ∨ ∃ l x, Drives (build p d.tags).es h l ∧
            Cheapest (build p d.tags) r l x ∧ OnMap p (mapSegs p d ways) at_ (build p d.tags) l) ∧
          ((∀ s ∈ mapSegs p d ways, ∀ t ∈ mapSegs p d ways, ¬ (t.a = s.b ∧ t.b = s.a)) →
            ∃ arr lea, Turned p (mapSegs p d ways) at_ (build p d.tags) refuse arr lea ∧
              ∀ l x, (∀ e ∈ l, e ∈ (build p d.tags).es) → Toll (build p d.tags) r l x →
                Paid (build p d.tags) (mapSegs p d ways) at_ refuse arr lea l)) := by
  obtain ⟨ways, own, hb⟩ := base hf d hd
  obtain ⟨br, hbr, hh⟩ := Turns.C70_turns_partial hf ho (fun _ g => (g.src, g.dst)) p.keysW p.keysR p.box p.hup p.bbox (fNohup p.o) d hd hw hz
    (turns p d.tags) rfl
  refine ⟨ways, fun u => own[u]?, br, refused p d own, hb.kept, fun u v q => hb.ties.inj u v q, hbr, hb.obeys hh, fun ht => ?_⟩
  have hshow := hb.shows ho ht hord hn hsi
  obtain ⟨c1, c2, c3⟩ := Base.comp ho hord hn hb ht speed
  have hg : GraphOk (turn (build p d.tags) r) n.h := by
    rw [hnet]; exact graphOk _ _ _ _ c1
  obtain ⟨top, lost, ids, hs, cost, k1, k2, k3, k4, k5⟩ := C68_cheapest tenv hnear ops tr log h n hg L F gen pl he hsm s hsl htr hwk op nid hop hstops
  obtain ⟨hs', m1, m2⟩ := Router.C57_hops_meet tenv hnear ops tr log h (n.env tr.nds s) L F gen pl he s op nid hop hstops
  have hc : ∀ nid, ∀ c ∈ n.ecm nid, ∀ e, c.e = some e → e < (build p d.tags).es.length := by
    intro i c hi e hce
    obtain ⟨j, c0, hj, e1, _⟩ := from_ecm he i c hi
    rw [e1] at hce
    exact hcand j c0 hj e hce
  refine ⟨hshow, top, lost, ids, hs, cost, k4, k1, k2, k3, k5, ?_, fun h hh => ?_, ?_⟩
  · have : some hs' = some hs := m1.symm.trans k4
    cases this
    exact m2
  · exact (legs (factors _ hr) c3 k3 hc h hh).imp id fun ⟨l, x, l1, l2⟩ => ⟨l, x, l1, l2, onMap hshow c2 r l2.1 l2.2.1⟩
  · intro hopp
    obtain ⟨arr, lea, hT⟩ := hb.turned ho ht hord hn hopp
    exact ⟨arr, lea, hT, fun l x hl htoll => paid hT c2 r hl htoll⟩

/-! ### non-vacuity -/

/-- A way has a trail. -/
theorem way_trail {turn : Nat → Nat → Option Nat} {a b x : Nat} (h : Way turn a b x) : ∃ es, Trail turn a b es x := by
  have pre : ∀ {b c : Nat} {es : List Nat} {y : Nat}, Trail turn b c es y → ∀ a x, turn a b = some x → ∃ es', Trail turn a c es' (x + y) := by
    intro b c es y h
    induction h with
    | one => intro a x hx; exact ⟨_, by have := Trail.more (Trail.one a) hx; rwa [Nat.zero_add] at this⟩
    | more _ ht ih =>
      intro a x hx
      obtain ⟨es', k⟩ := ih a x hx
      exact ⟨_, by have := Trail.more k ht; rwa [Nat.add_assoc] at this⟩
  induction h with
  | here a => exact ⟨_, .one a⟩
  | step ht _ ih =>
    obtain ⟨es, k⟩ := ih
    exact pre k _ _ ht

open Classical in
/-- A search as it is assumed. -/
noncomputable def idealWalk (turn : Nat → Nat → Option Nat) (a b : Nat) (m : UInt32) : UInt32 × List Nat :=
  if h : ∃ x es, x < m.toNat ∧ IsDist turn a b x ∧ Trail turn a b es x then (UInt32.ofNat h.choose, h.choose_spec.choose) else (m, [])

open Classical in
noncomputable def idealSearch (turn : Nat → Nat → Option Nat) (a : Nat) (rem : List Nat) (m : UInt32) : List (Nat × UInt32 × Bool) :=
  rem.map fun t => (t, (idealWalk turn a t m).1, decide ((idealWalk turn a t m).1 < m))

theorem idealWalk_ok (turn : Nat → Nat → Option Nat) : WalkOk turn (idealWalk turn) := by
  have key : ∀ a b (m : UInt32), (idealWalk turn a b m).1 < m → IsDist turn a b (idealWalk turn a b m).1.toNat ∧
      Trail turn a b (idealWalk turn a b m).2 (idealWalk turn a b m).1.toNat := by
    intro a b m
    unfold idealWalk
    split
    · rename_i h
      intro _
      obtain ⟨h1, h2, h3⟩ := h.choose_spec.choose_spec
      have := m.toNat_lt
      have e : (UInt32.ofNat h.choose).toNat = h.choose := by rw [UInt32.toNat_ofNat']; exact Nat.mod_eq_of_lt (by omega)
      simp only [e]
      exact ⟨h2, h3⟩
    · intro h; exact absurd h (UInt32.lt_irrefl _)
  refine ⟨key, ?_⟩
  intro a b m hle y hy
  rcases Nat.lt_or_ge y m.toNat with hlt | hge
  · exfalso
    obtain ⟨z, hz, hd⟩ := Hops.exists_isDist hy
    obtain ⟨es, ht⟩ := way_trail hd.1
    have hex : ∃ x es, x < m.toNat ∧ IsDist turn a b x ∧ Trail turn a b es x := ⟨z, es, by omega, hd, ht⟩
    unfold idealWalk at hle
    rw [dif_pos hex] at hle
    have h1 := hex.choose_spec.choose_spec.1
    have := m.toNat_lt
    have e : (UInt32.ofNat hex.choose).toNat = hex.choose := by rw [UInt32.toNat_ofNat']; exact Nat.mod_eq_of_lt (by omega)
    rw [UInt32.le_iff_toNat_le] at hle
    simp only [e] at hle
    omega
  · exact hge

theorem idealSearch_ok (turn : Nat → Nat → Option Nat) (h : Hops.HEnv) : SearchOk turn { h with search := idealSearch turn } := by
  have W := idealWalk_ok turn
  constructor
  · intro fr rem inf t ht
    exact ⟨_, List.mem_map_of_mem ht, rfl⟩
  · intro fr rem inf r hr
    obtain ⟨t, ht, rfl⟩ := List.mem_map.1 hr
    exact ht
  · intro fr rem inf r hr hb
    obtain ⟨t, ht, rfl⟩ := List.mem_map.1 hr
    have hb := of_decide_eq_true hb
    exact ⟨hb, (W.found fr t inf hb).1⟩
  · intro fr rem inf r hr hb
    obtain ⟨t, ht, rfl⟩ := List.mem_map.1 hr
    have hb := of_decide_eq_false hb
    have hle := UInt32.not_lt.1 hb
    exact ⟨hle, W.lost fr t inf hle⟩

/-- The costs for the crossing: edges without line 7 cost twice as much, turning back costs 100, a refused turn 50. -/
def exFare : Fare Nat where
  simi := fun l => if l = 7 then ⟨true, true, true⟩ else ⟨false, false, false⟩
  noAttrs := false
  deg := fun es n => (es.filter fun e => e.src = n ∨ e.dst = n).length
  sharp := fun _ _ _ => false
  fullTurn := 100
  turnRestr := 50
  name := Weights.Factor.ofRat 2 1
  fr := Weights.Factor.ofRat 1 1
  to := Weights.Factor.ofRat 1 1

-- the costs of going on from an edge to the next ones: edges 0 (0, 1), 1 (1, 2), 2 (1, 3), 3 (1, 0), 4 (2, 1), 5 (3, 1)
example : (List.range 6).map (fun i => (List.range 6).filterMap fun j => (turn (build exPar exCross.tags) exFare i j).map fun x => (j, x)) =
    [[(1, 2), (2, 52), (3, 102)], [(4, 108)], [(5, 110)], [(0, 102)], [(1, 108), (2, 8), (3, 8)], [(1, 10), (2, 110), (3, 10)]] := by
  decide +kernel

/-- stop A lies on the edge (0, 1), B on (1, 2), C and D on (1, 3) or (3, 1) -/
def exCands (i : Nat) : List (Router.Cand0 Nat (Option Nat) Rat) :=
  ⟨none, some 0, 0⟩ :: match i with
    | 1 => [⟨some 0, some 0, 1/2⟩]
    | 2 => [⟨some 1, some 0, 1/2⟩]
    | _ => [⟨some 2, some 0, 1⟩, ⟨some 5, some 0, 0⟩]

def exGen : Gen Nat (Option Nat) Rat := { cands := exCands, timePen := fun _ _ => some 0, add := Router.exCost.add }

theorem exGen_in : ∀ j, ∀ c ∈ exGen.cands j, (0 ≤ c.x ∧ c.x ≤ 1) ∧ ∀ e, c.e = some e → e < 6 := by
  intro j c hc
  simp only [exGen, exCands] at hc
  rcases List.mem_cons.mp hc with rfl | hc
  · exact ⟨by decide +kernel, fun e he => by cases he⟩
  · split at hc
    all_goals
      simp only [List.mem_cons, List.not_mem_nil, or_false] at hc
      first
      | (rcases hc with rfl | rfl <;> exact ⟨by decide +kernel, fun e he => by cases he; decide⟩)
      | (subst hc; exact ⟨by decide +kernel, fun e he => by cases he; decide⟩)

/-- The network of the crossing. -/
noncomputable def exNet0 (ecm : Router.Ecm Nat (Option Nat) Rat) : Net (Option Nat) (Rat × Int) where
  h := ⟨fun _ => 0, fun _ => 0, fun _ => 0, idealSearch (turn (build exPar exCross.tags) exFare), fun _ _ _ _ _ => [], fun _ => 0⟩
  ops := Router.exCost
  ecm := ecm
  progr := fun x => x.1
  maxCost0 := fun _ => 100
  weight := fun _ _ _ c => some c.toNat
  raw := fun c => c.map fun x => (x : Rat)
  slow := true
  needDist := false
  walk := idealWalk (turn (build exPar exCross.tags) exFare)

noncomputable def exNet (speed : Edg Nat Nat → Rat) (ecm : Router.Ecm Nat (Option Nat) Rat) : Net (Option Nat) (Rat × Int) :=
  onGraph (build exPar exCross.tags) (fileComps exPar speed exCross.tags) exFare (exNet0 ecm)

/-- The hypotheses of `C80_route_partial` hold for the crossing (those of `C76_map_partial` are shown there) and the three trips of the trie. -/
example (speed : Edg Nat Nat → Rat) : FareOk exFare ∧
    ∃ r ecm, history Verif.Trie.exEnv Verif.Trie.exOps = some r ∧ getECM exGen r.1.nds = some ecm ∧
    Laws (exNet speed ecm).ops ∧ Finite (exNet speed ecm).ops ∧ Placeholder (exNet speed ecm).ops exGen ∧
    (∀ j, ∀ c ∈ exGen.cands j, ∀ e, c.e = some e → e < (build exPar exCross.tags).es.length) ∧ Small (exNet speed ecm) 100 ∧
    (exNet speed ecm).slow = true ∧ Trust (turn (build exPar exCross.tags) exFare) (exNet speed ecm) none ∧
    WalkOk (turn (build exPar exCross.tags) exFare) (exNet speed ecm).walk ∧
    r.2.map (fun x => (x.1.t, x.2)) = [(0, 4), (1, 5), (3, 4)] := by
  have h1 : (history Verif.Trie.exEnv Verif.Trie.exOps).isSome = true := by decide +kernel
  obtain ⟨r, hr⟩ := Option.isSome_iff_exists.mp h1
  have h2 : ((history Verif.Trie.exEnv Verif.Trie.exOps).bind fun r => getECM exGen r.1.nds).isSome = true := by decide +kernel
  rw [hr, Option.bind_some] at h2
  obtain ⟨ecm, he⟩ := Option.isSome_iff_exists.mp h2
  have hlog : (history Verif.Trie.exEnv Verif.Trie.exOps).map (fun r => r.2.map fun x => (x.1.t, x.2)) = some [(0, 4), (1, 5), (3, 4)] := by decide +kernel
  rw [hr] at hlog
  have hcost : ∀ e, e < 6 → (edgeCost (build exPar exCross.tags) exFare e).toNat ≤ 100 := by decide +kernel
  have hlen : (build exPar exCross.tags).es.length = 6 := by decide +kernel
  refine ⟨⟨Weights.ofRat_ok _ _ (by decide), Weights.ofRat_ok _ _ (by decide), Weights.ofRat_ok _ _ (by decide)⟩, r, ecm, hr, he,
    Router.exCost_laws, Router.exCost_finite, ⟨rfl, fun _ => ⟨_, _, rfl, rfl, rfl⟩, fun _ _ => rfl⟩, ?_, ?_, rfl, ?_, idealWalk_ok _,
    Option.some.inj hlog⟩
  · intro j c hc e hce
    rw [hlen]; exact (exGen_in j c hc).2 e hce
  · refine small_of (n := exNet speed ecm) he (fun x => x) (fun _ => rfl) (fun j c hc => (exGen_in j c hc).1) ?_
      (fun _ => (by decide : 8 * (100 : UInt32).toNat + 2 * 100 < 4294967295)) (fun _ => (by decide : 2 ≤ (100 : UInt32).toNat))
    intro j c hc e hce
    obtain ⟨⟨k0, k1⟩, k2⟩ := exGen_in j c hc
    have k3 := hcost e (k2 e hce)
    show ((edgeCost (build exPar exCross.tags) exFare e).toNat : Rat) * c.x ≤ ((100 : Nat) : Rat)
    have k4 : ((edgeCost (build exPar exCross.tags) exFare e).toNat : Rat) ≤ ((100 : Nat) : Rat) := by exact_mod_cast k3
    have k5 : ((edgeCost (build exPar exCross.tags) exFare e).toNat : Rat) * c.x ≤ ((100 : Nat) : Rat) * c.x :=
      Rat.mul_le_mul_of_nonneg_right k4 k0
    grind
  · exact ⟨idealSearch_ok (turn (build exPar exCross.tags) exFare) (exNet speed ecm).h, fun x h => by cases h⟩

-- all nodes of the crossing are in one component
example : ([0, 1, 2, 3].map (fileComps exPar (fun _ => 1) exCross.tags)) = [1, 1, 1, 1] := by decide +kernel

end Verif.Journey
