import Verif.Turns.Lemmas

/-!
# Turn restrictions of the map (properties)

C70: the turns penalised by the router are those that the turn restrictions of the file forbid.
-/

set_option linter.unusedSectionVars false

namespace Verif.Turns
open Verif.Names (Str)
open Verif.Osm
open Verif.Restrictor (Raw Op R Announced)

variable {P E : Type} [DecidableEq E]

/-- What the turns rules of the relations `rels` (those used satisfy `used`) mean for the graph `s`. -/
structure Honours {X : Type} (o : Opts) (mk : Nat → GEdge → E) (rels : List X) (rd : X → Rel) (used : X → Prop) (s : TSt P E) :
    Prop where
  /-- A penalised turn has its reason in the file: a forbidden turn from the way of the one edge to that of the other at
  this node, or another turn is demanded for the first edge. -/
  reason : ∀ e1 e2 g, penalised s e1 e2 g = true → ∃ x ∈ rels, used x ∧ ∃ pos a b v, TurnRule o (rd x) pos a b v ∧
    At mk s.g a v g e1 ∧ ∃ t, At mk s.g b v g t ∧ (if pos then t ≠ e2 else t = e2)
  /-- A forbidden turn is penalised, if the target way has one edge at the node and no turn is demanded there for the
  first edge. -/
  forbid : ∀ x ∈ rels, used x → ∀ a b v, TurnRule o (rd x) false a b v → a ≠ b → ∀ e1 e2 g, At mk s.g a v g e1 →
    At mk s.g b v g e2 → (∀ e, At mk s.g b v g e → e = e2) →
    (∀ y ∈ rels, used y → ∀ a' b', TurnRule o (rd y) true a' b' v → At mk s.g a' v g e1 → ∀ e, ¬ At mk s.g b' v g e) →
    penalised s e1 e2 g = true
  /-- If a turn is demanded for an edge, exactly the other turns are penalised, if the target way has one edge at the node
  and no other turn is demanded. -/
  only : ∀ x ∈ rels, used x → ∀ a b v, TurnRule o (rd x) true a b v → a ≠ b → ∀ e1 e2 g, At mk s.g a v g e1 →
    At mk s.g b v g e2 → (∀ e, At mk s.g b v g e → e = e2) →
    (∀ y ∈ rels, used y → ∀ a' b', TurnRule o (rd y) true a' b' v → At mk s.g a' v g e1 → (∃ e, At mk s.g b' v g e) → b' = b) →
    ∀ e, penalised s e1 e g = true ↔ e ≠ e2

/-- For relations and ways in memory. -/
theorem honours_core {o : Opts} (ho : FlaggedOpts o) (mk : Nat → GEdge → E) (nohup box : Nat → Bool) (rs : List Rel)
    (hz : ∀ r ∈ rs, Ids r) (ws : List Way) (s : TSt P E)
    (hs : s = ws.foldl (turnWay (rs.foldl (readRestr o) Rests.init) mk nohup box) TSt.init) :
    Honours o mk rs id (fun _ => True) s := by
  obtain ⟨⟨own, hI⟩, _⟩ := turnWays_spec ws [] _ (tinv_init (P := P) (rs.foldl (readRestr o) Rests.init) mk nohup box)
  rw [← hs] at hI
  generalize hq : rs.foldl (readRestr o) Rests.init = q at hI
  have hrule : ∀ pos v x, x ∈ q.at pos v ↔ ∃ r ∈ rs, TurnRule o r pos x.eFrom x.eTo v := by
    intro pos v x
    rw [← hq, readRestrs_iff ho rs hz]
    have : x ∉ Rests.init.at pos v := by
      cases pos <;> simp [Rests.at, Rests.init, FMap.get_nil]
    simp [this]
  have hown : ∀ (g v : Nat), own[g]? = some v ↔ (s.g.nodes.get v = some g ∨ ∃ l, s.g.multi.get v = some l ∧ g ∈ l) := by
    intro g v
    constructor
    · exact hI.g.all g v
    · rintro (h | ⟨l, hl, hg⟩)
      · exact (hI.g.nd _ _ h).1
      · exact (hI.g.mu _ _ hl).2 g hg
  have hone : ∀ {w v g w' v' : Nat} {e e' : E}, At mk s.g w v g e → At mk s.g w' v' g e' → v = v' := by
    rintro w v g w' v' e e' ⟨_, _, _, _, _, _, h1⟩ ⟨_, _, _, _, _, _, h2⟩
    rw [← hown] at h1 h2
    rw [h1] at h2
    exact Option.some.inj h2
  have hadd : ∀ fr t g pos, Op.add fr t g pos ∈ s.ops ↔ ∃ a v, At mk s.g a v g fr ∧ ⟨a, t⟩ ∈ q.at pos v := by
    intro fr t g pos
    rw [hI.ops]
    constructor
    · rintro ⟨i, x, n, v, h1, h2, h3, h4⟩
      obtain ⟨rfl, rfl, h5⟩ := add_turnOps.1 h4
      exact ⟨_, v, ⟨i, x, h1, rfl, rfl, h2, (hown _ _).1 h3⟩, h5⟩
    · rintro ⟨a, v, ⟨i, x, h1, h2, h3, h4, h5⟩, h6⟩
      exact ⟨i, x, g, v, h1, h4, (hown _ _).2 h5, add_turnOps.2 ⟨h2, rfl, by rw [h3]; exact h6⟩⟩
  have hann : ∀ g w e, Announced s.ops g w e ↔ ∃ v, At mk s.g w v g e ∧ ∃ pos a, a ≠ w ∧ ⟨a, w⟩ ∈ q.at pos v := by
    intro g w e
    unfold Restrictor.Announced
    rw [hI.ops]
    constructor
    · rintro ⟨i, x, n, v, h1, h2, h3, h4⟩
      obtain ⟨rfl, rfl, rfl, h5⟩ := relax_turnOps.1 h4
      exact ⟨v, ⟨i, x, h1, rfl, rfl, h2, (hown _ _).1 h3⟩, h5⟩
    · rintro ⟨v, ⟨i, x, h1, h2, h3, h4, h5⟩, h6⟩
      exact ⟨i, x, g, v, h1, h4, (hown _ _).2 h5, relax_turnOps.2 ⟨h2, rfl, h3.symm, by rw [h3]; exact h6⟩⟩
  have hflag : ∀ {a v g : Nat} {e : E} {pos : Bool} {b : Nat}, At mk s.g a v g e → ⟨a, b⟩ ∈ q.at pos v → e ∈ s.flags := by
    rintro a v g e pos b ⟨i, x, h1, h2, h3, h4, h5⟩ h6
    rw [hI.flags]
    exact ⟨i, x, g, v, h1, h4, (hown _ _).2 h5, h2, marks_iff.2 ⟨pos, _, h6, Or.inl h3.symm⟩⟩
  have hW := Restrictor.run_weak s.ops
  -- a stored rule that is resolved
  have stored : ∀ {pos : Bool} {rules : Restrictor.RuleVec E} {e1 t : E} {g : Nat},
      Restrictor.Fits s.ops g (Restrictor.added s.ops g pos) rules → (e1, some t) ∈ rules →
      ∃ r ∈ rs, ∃ a b v, TurnRule o r pos a b v ∧ At mk s.g a v g e1 ∧ At mk s.g b v g t := by
    intro pos rules e1 t g hf hm
    obtain ⟨to, h1, h2, _⟩ := Restrictor.rules_from hf hm
    obtain ⟨a, v, h3, h4⟩ := (hadd _ _ _ _).1 h1
    obtain ⟨v', h5, _⟩ := (hann _ _ _).1 (h2 t rfl)
    have hv := hone h3 h5
    subst hv
    obtain ⟨r, hr, h6⟩ := (hrule _ _ _).1 h4
    exact ⟨r, hr, a, to, v, h6, h3, h5⟩
  -- a rule with one target
  have target : ∀ {pos : Bool} {rules : Restrictor.RuleVec E} {r : Rel} {a b v g : Nat} {e1 e2 : E},
      Restrictor.Fits s.ops g (Restrictor.added s.ops g pos) rules → r ∈ rs → TurnRule o r pos a b v → a ≠ b →
      At mk s.g a v g e1 → At mk s.g b v g e2 → (∀ e, At mk s.g b v g e → e = e2) → (e1, some e2) ∈ rules := by
    intro pos rules r a b v g e1 e2 hf hr hrl hne h1 h2 huni
    have hm := (hrule pos v ⟨a, b⟩).2 ⟨r, hr, hrl⟩
    obtain ⟨t, h3, h4, h5⟩ := Restrictor.rules_to hf ((hadd e1 b g pos).2 ⟨a, v, h1, hm⟩)
    have ha : Announced s.ops g b e2 := (hann _ _ _).2 ⟨v, h2, pos, a, hne, hm⟩
    cases t with
    | none => exact absurd ha (h5 rfl e2)
    | some e =>
      obtain ⟨v', h6, _⟩ := (hann _ _ _).1 (h4 e rfl)
      have hv := hone h2 h6
      subst hv
      rw [← huni e h6]
      exact h3
  have hpen : ∀ e1 e2 g, penalised s e1 e2 g = true ↔ e1 ∈ s.flags ∧ ¬ (Restrictor.run s.ops).may e1 e2 g = true := by
    intro e1 e2 g
    simp [penalised]
  refine ⟨?_, ?_, ?_⟩
  · intro e1 e2 g hp
    have hmay := ((hpen _ _ _).1 hp).2
    rw [Restrictor.C19_meaning] at hmay
    cases hm : Restrictor.mayPos e1 e2 ((Restrictor.run s.ops).pos g) with
    | none =>
      have hno := (Restrictor.mayPos_spec e1 e2 _).1.1 hm
      have hin : (e1, some e2) ∈ (Restrictor.run s.ops).neg g := by
        rcases Classical.em ((e1, some e2) ∈ (Restrictor.run s.ops).neg g) with h | h
        · exact h
        · exact absurd (Or.inr ⟨hno, h⟩) hmay
      obtain ⟨r, hr, a, b, v, h1, h2, h3⟩ := stored (hW.neg.res g) hin
      exact ⟨r, hr, trivial, false, a, b, v, h1, h2, e2, h3, rfl⟩
    | some bb =>
      obtain ⟨pre, t, post, he, hpre, hb⟩ := ((Restrictor.mayPos_spec e1 e2 _).2 bb).1 hm
      obtain ⟨r, hr, a, b, v, h1, h2, h3⟩ := stored (pos := true) (e1 := e1) (t := t) (hW.pos.res g) (by rw [he]; simp)
      refine ⟨r, hr, trivial, true, a, b, v, h1, h2, t, h3, ?_⟩
      simp only [if_true]
      intro hte
      subst hte
      exact hmay (Or.inl ⟨pre, post, he, hpre⟩)
  · intro r hr _ a b v hrl hne e1 e2 g h1 h2 huni hno
    rw [hpen]
    refine ⟨hflag h1 ((hrule false v ⟨a, b⟩).2 ⟨r, hr, hrl⟩), ?_⟩
    have hin := target (hW.neg.res g) hr hrl hne h1 h2 huni
    rw [Restrictor.C19_meaning]
    rintro (⟨pre, post, he, _⟩ | ⟨_, h⟩)
    · obtain ⟨r', hr', a', b', v', h3, h4, h5⟩ := stored (pos := true) (e1 := e1) (t := e2) (hW.pos.res g) (by rw [he]; simp)
      have hv := hone h1 h4
      subst hv
      exact hno r' hr' trivial a' b' h3 h4 e2 h5
    · exact h hin
  · intro r hr _ a b v hrl hne e1 e2 g h1 h2 huni hsame e
    rw [hpen]
    have hfl := hflag h1 ((hrule true v ⟨a, b⟩).2 ⟨r, hr, hrl⟩)
    have hin := target (hW.pos.res g) hr hrl hne h1 h2 huni
    have hall : ∀ t, (e1, some t) ∈ (Restrictor.run s.ops).pos g → t = e2 := by
      intro t ht
      obtain ⟨r', hr', a', b', v', h3, h4, h5⟩ := stored (hW.pos.res g) ht
      have hv := hone h1 h4
      subst hv
      have := hsame r' hr' trivial a' b' h3 h4 ⟨t, h5⟩
      subst this
      exact huni t h5
    constructor
    · rintro ⟨_, hmay⟩ rfl
      apply hmay
      rw [Restrictor.C19_meaning]
      left
      cases hm : Restrictor.mayPos e1 e ((Restrictor.run s.ops).pos g) with
      | none =>
        exact absurd ⟨rfl, by simp⟩ ((Restrictor.mayPos_spec e1 e _).1.1 hm _ hin)
      | some bb =>
        obtain ⟨pre, t, post, he, hpre, _⟩ := ((Restrictor.mayPos_spec e1 e _).2 bb).1 hm
        have := hall t (by rw [he]; simp)
        subst this
        exact ⟨pre, post, he, hpre⟩
    · intro hne'
      refine ⟨hfl, ?_⟩
      rw [Restrictor.C19_meaning]
      rintro (⟨pre, post, he, _⟩ | ⟨h, _⟩)
      · exact hne' (hall e (by rw [he]; simp))
      · exact h _ hin ⟨rfl, by simp⟩

/-- C70 (partial, see `C70_negation_u_turn`, `C70_negation_through`). After a file has been read, the turns of the graph that are penalised are
those which the turn restrictions kept from the file forbid. The ids of members are proper. -/
theorem C70_turns_partial {f : Flt} (hf : f.Ok) {o : Opts} (ho : FlaggedOpts o) (mk : Nat → GEdge → E)
    (keysW keysR : List Str) (box hup : List BoxOp → Nat → Bool) (bbox : P → Bool) (nohup : Str → Str → Bool) (d : Doc P)
    (hd : d.Ok) (hw : d.ways ≠ []) (hz : ∀ x ∈ d.rels, ∀ t, ∀ m ∈ kidMembers t x.kids, m.1 ≠ 0) (s : TSt P E)
    (hs : s = readTurns o mk f keysW keysR box hup bbox nohup d.tags) :
    ∃ br : DElem P → Rel, (∀ x, ReadsRel keysR x (br x)) ∧ Honours o mk d.rels br (fun x => RelWanted f (br x)) s := by
  obtain ⟨h0, hh0, hh, hh'⟩ := hd.head
  have e1 : skipUntil .node d.tags =
      flat (d.nodes.map DNode.el) ++ (flat (d.ways.map DElem.way) ++ flat (d.rels.map DElem.rel)) := by
    rw [Doc.tags, hh]
    exact skip_node h0 hh0 hh' d.nodes hd.some _
  have e2 : (bboxGo bbox nohup (flat (d.nodes.map DNode.el) ++ (flat (d.ways.map DElem.way) ++ flat (d.rels.map DElem.rel)))
      false 0).2 = flat (d.ways.map DElem.way) ++ flat (d.rels.map DElem.rel) := by
    rw [bboxGo_first bbox nohup d.nodes hd.some
      (fun x hx => hd.nodes.nz _ (List.mem_map.2 ⟨x, hx, rfl⟩))
      (fun x hx => hd.nodes.nested _ (List.mem_map.2 ⟨x, hx, rfl⟩)) _ (rest_level d.ways d.rels)]
  have e3 : (readAll (nextRel keysR f) (skipUntil .relation (flat (d.ways.map DElem.way) ++ flat (d.rels.map DElem.rel)))).1 =
      d.rels.filterMap (fun x => keepRel f (readRel keysR x)) := by
    rw [skip_rel d.ways d.rels hd.plainWays hd.plainRels, if_neg hw, read_rels f keysR _ hd.rels]
  unfold readTurns at hs
  simp only [e1, e2, e3] at hs
  generalize hrs : d.rels.filterMap (fun x => keepRel f (readRel keysR x)) = rs at hs
  have hto : ∀ r, r ∈ rs → ∃ x ∈ d.rels, RelWanted f (readRel keysR x) ∧
      r = { readRel keysR x with keepFlags := contained f.keep REL (f.ord (readRel keysR x).attrs) } := by
    intro r hr
    rw [← hrs, List.mem_filterMap] at hr
    obtain ⟨x, hx, h⟩ := hr
    obtain ⟨_, h1, h2⟩ := (keepRel_iff hf _ _).1 h
    exact ⟨x, hx, h1, h2⟩
  have hfrom : ∀ x ∈ d.rels, RelWanted f (readRel keysR x) →
      { readRel keysR x with keepFlags := contained f.keep REL (f.ord (readRel keysR x).attrs) } ∈ rs := by
    intro x hx hwant
    rw [← hrs, List.mem_filterMap]
    exact ⟨x, hx, (keepRel_iff hf _ _).2 ⟨hd.rels.nz _ (List.mem_map.2 ⟨x, hx, rfl⟩), hwant, rfl⟩⟩
  have flagless : ∀ (r : Rel) k pos a b v, TurnRule o { r with keepFlags := k } pos a b v ↔ TurnRule o r pos a b v :=
    fun r k pos a b v => ⟨fun h => ⟨h.type, h.noEx, h.kind, h.fr, h.to, h.via⟩,
      fun h => ⟨h.type, h.noEx, h.kind, h.fr, h.to, h.via⟩⟩
  have H := honours_core ho mk _ _ rs (by
    intro r hr
    obtain ⟨x, hx, _, rfl⟩ := hto r hr
    exact ⟨fun m hm => hz x hx .way m hm, fun m hm => hz x hx .node m hm⟩) _ s hs
  refine ⟨readRel keysR, readRel_spec keysR, ?_, ?_, ?_⟩
  · intro e1 e2 g hp
    obtain ⟨r, hr, _, pos, a, b, v, h1, h2⟩ := H.reason e1 e2 g hp
    obtain ⟨x, hx, h3, rfl⟩ := hto r hr
    exact ⟨x, hx, h3, pos, a, b, v, (flagless _ _ _ _ _ _).1 h1, h2⟩
  · intro x hx hwant a b v hrl hne e1 e2 g h1 h2 huni hno
    refine H.forbid _ (hfrom x hx hwant) trivial a b v ((flagless _ _ _ _ _ _).2 hrl) hne e1 e2 g h1 h2 huni ?_
    intro r hr _ a' b' hr' h3 e
    obtain ⟨y, hy, h4, rfl⟩ := hto r hr
    exact hno y hy h4 a' b' ((flagless _ _ _ _ _ _).1 hr') h3 e
  · intro x hx hwant a b v hrl hne e1 e2 g h1 h2 huni hsame
    refine H.only _ (hfrom x hx hwant) trivial a b v ((flagless _ _ _ _ _ _).2 hrl) hne e1 e2 g h1 h2 huni ?_
    intro r hr _ a' b' hr' h3 h5
    obtain ⟨y, hy, h4, rfl⟩ := hto r hr
    exact hsame y hy h4 a' b' ((flagless _ _ _ _ _ _).1 hr') h3 h5

/-- The graph is the one of `readGraph` (C33, C59). -/
theorem C70_same_graph (o : Opts) (mk : Nat → GEdge → E) (p0 : P) (f : Flt) (keysN keysW keysR : List Str)
    (box hup : List BoxOp → Nat → Bool) (bbox : P → Bool) (nohup : Str → Str → Bool) (isSt stat : Nod P → Bool)
    (file : List (Ev P)) :
    let s := (readTurns o mk f keysW keysR box hup bbox nohup file).g
    let s' := readGraph p0 f keysN keysW keysR box hup bbox nohup isSt stat file
    s'.edges = s.edges ∧ s'.nodes = s.nodes ∧ s'.multi = s.multi := by
  simp only [readTurns, readGraph, readRels]
  rw [(turnWays_spec _ [] _ (tinv_init (P := P) (E := E) _ _ _ _)).2]
  obtain ⟨h1, h2, h3⟩ := addNodes_keeps isSt stat _ _
  exact ⟨h3, h1, h2⟩

/-! ### an example -/

def kTurn : Str := [11]
def vNo : Str := [12]
def vOnly : Str := [13]

def exRules : Opts where
  keep := []
  drop := []
  nohup := []
  oneway := []
  onewayrev := []
  twoway := []
  station := []
  blocker := []
  turnCycle := []
  posRestr := [(kTurn, [(vOnly, 1)])]
  negRestr := [(kTurn, [(vNo, 1)])]
  noRestr := []
  levels := fun _ => []
  statRules := []
  edgeRules := []
  lineRules := []

def exKeep : Flt := ⟨[(kHw, [(vHw, 1)]), (sType, [(sRestriction, 1)])], [], id⟩

theorem exKeep_ok : exKeep.Ok := by
  refine ⟨?_, ?_, fun a x => Iff.rfl⟩
  · intro k vals h r hr
    have := FMap.mem_of_get h
    simp [exKeep] at this
    rcases this with ⟨_, rfl⟩ | ⟨_, rfl⟩ <;> simp at hr <;> simp [hr]
  · intro k vals h
    cases h

theorem exRules_flagged : FlaggedOpts exRules := by
  have nil : Flagged [] := fun k vals h => by cases h
  have one : ∀ v, Flagged [(kTurn, [(v, 1)])] := by
    intro v k vals h r hr
    have := FMap.mem_of_get h
    simp at this
    rw [this.2] at hr
    simp at hr
    simp [hr]
  exact ⟨nil, nil, nil, nil, nil, nil, nil, nil, one _, one _, nil⟩

/-- A turn restriction with the value `val`, from the way `a` over node 3 to the way `b`. -/
def exRel (i a b : Nat) (val : Str) : DElem Nat :=
  ⟨i, [⟨3, .member .way a sFrom⟩, ⟨3, .member .node 3 sVia⟩, ⟨3, .member .way b sTo⟩, ⟨3, .tag sType sRestriction⟩,
    ⟨3, .tag kTurn val⟩]⟩

/-- Three ways that end at node 3. -/
def exTurns (rels : List (DElem Nat)) (second : List (Ev Nat)) : Doc Nat where
  header := [⟨0, .other⟩, ⟨1, .other⟩]
  nodes := [⟨1, 1, []⟩, ⟨3, 2, []⟩, ⟨4, 3, []⟩, ⟨5, 4, []⟩]
  ways := [⟨10, [⟨3, .nd 1⟩, ⟨3, .nd 3⟩, ⟨3, .tag kHw vHw⟩]⟩, ⟨20, second⟩,
    ⟨30, [⟨3, .nd 3⟩, ⟨3, .nd 5⟩, ⟨3, .tag kHw vHw⟩]⟩]
  rels := rels

def exEnd : List (Ev Nat) := [⟨3, .nd 3⟩, ⟨3, .nd 4⟩, ⟨3, .tag kHw vHw⟩]
def exThrough : List (Ev Nat) := [⟨3, .nd 4⟩, ⟨3, .nd 3⟩, ⟨3, .nd 1⟩, ⟨3, .tag kHw vHw⟩]

def exTSt (d : Doc Nat) : TSt Nat Nat :=
  readTurns exRules (fun i _ => i) exKeep [kHw] [sType, kTurn] exBox exHup exIn (fun _ _ => false) d.tags

theorem exTurns_ok (a b a' b' : Nat) (v v' : Str) :
    (exTurns [exRel 1 a b v, exRel 2 a' b' v'] exEnd).Ok := by
  refine ⟨⟨_, _, rfl, by simp [isNode]⟩, by simp [exTurns], ?_, ?_, ?_, ?_, ?_⟩
  · exact ⟨by simp [exTurns], by simp [exTurns], by simp [exTurns]⟩
  · exact ⟨by simp [exTurns], by simp [exTurns], by simp [exTurns, exEnd]⟩
  · exact ⟨by simp [exTurns, exRel], by simp [exTurns, exRel], by simp [exTurns, exRel]⟩
  · simp [exTurns, Plain, isNode, isWay, isRel, exEnd]
  · simp [exTurns, Plain, isNode, isWay, isRel, exRel]

def exTwo : TSt Nat Nat := exTSt (exTurns [exRel 1 10 20 vNo, exRel 2 20 30 vOnly] exEnd)

/-- The hypotheses of `C70_turns_partial` hold for two rules: no turn from the first to the second way, only from the
second to the third. Edge `i` belongs to way `10 (i + 1)`; node 3 is the graph node 1. -/
example : exKeep.Ok ∧ FlaggedOpts exRules ∧ (exTurns [exRel 1 10 20 vNo, exRel 2 20 30 vOnly] exEnd).Ok ∧
    (∀ x ∈ [exRel 1 10 20 vNo, exRel 2 20 30 vOnly], ∀ t, ∀ m ∈ kidMembers t x.kids, m.1 ≠ 0) ∧
    exTwo.g.nodes.get 3 = some 1 ∧ (exTwo.g.edges.map fun e => (e.src, e.dst, e.way.id)) = [(0, 1, 10), (1, 2, 20), (1, 3, 30)] ∧
    exTwo.flags = [0, 1, 2] ∧
    ((List.range 3).flatMap fun i => (List.range 3).map fun j => penalised exTwo i j 1) =
      [false, true, false, true, true, false, false, false, false] := by
  refine ⟨exKeep_ok, exRules_flagged, exTurns_ok _ _ _ _ _ _, ?_, by decide +kernel, by decide +kernel, by decide +kernel,
    by decide +kernel⟩
  intro x hx t m hm
  simp only [List.mem_cons, List.not_mem_nil, or_false] at hx
  rcases hx with rfl | rfl <;> cases t <;> simp [kidMembers, exRel] at hm
  all_goals first
    | (rcases hm with rfl | rfl <;> simp)
    | (subst hm; simp)

/-- C70, negation: a rule that forbids to turn around, from a way to itself, has no effect. -/
theorem C70_negation_u_turn :
    let s := exTSt (exTurns [exRel 1 10 10 vNo, exRel 2 20 30 vOnly] exEnd)
    (s.g.edges.map fun e => (e.src, e.dst, e.way.id)) = [(0, 1, 10), (1, 2, 20), (1, 3, 30)] ∧
      s.g.nodes.get 3 = some 1 ∧ penalised s 0 0 1 = false := by decide +kernel

/-- C70, negation: of a target way that runs through the node only one of the two edges is meant. -/
theorem C70_negation_through :
    let s := exTSt (exTurns [exRel 1 30 20 vNo] exThrough)
    (s.g.edges.map fun e => (e.src, e.dst, e.way.id)) = [(0, 1, 10), (2, 1, 20), (1, 0, 20), (1, 3, 30)] ∧
      s.g.nodes.get 3 = some 1 ∧ penalised s 3 1 1 = false ∧ penalised s 3 2 1 = true := by decide +kernel

end Verif.Turns
