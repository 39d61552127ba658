import Verif.Extract.Reread

/-!
# Relations of the written file (lemmas)
-/

set_option linter.unusedSectionVars false
set_option linter.unusedSimpArgs false

namespace Verif.Extract
open Verif.Names (Str)
open Verif.Osm Verif.Whole
open Verif.Attrs (Has)

variable {P S T D : Type}

/-! ### merged rules -/

theorem merged_look (os : List Opts) (hw : ∀ o ∈ os, WFR o.keep) : WFR (mergeAll os) ∧
    ∀ k v f, look (mergeAll os) k v = some f ↔
      ∃ pre o post, os = pre ++ o :: post ∧ look o.keep k v = some f ∧ ∀ p ∈ pre, look p.keep k v = none := by
  have h0 : WFR ([] : Rules) := ⟨FMap.WF.nil, fun k vals h => by cases h⟩
  obtain ⟨w, hl⟩ := mergeAll_spec os [] h0 hw
  refine ⟨w, fun k v f => ?_⟩
  have h := hl k v f
  have hn : look [] k v = none := rfl
  rw [hn] at h
  refine h.trans ⟨fun h => ?_, fun h => Or.inr ⟨rfl, h⟩⟩
  rcases h with h | h
  · cases h
  · exact h.2

theorem merged_flagged {os : List Opts} (hw : ∀ o ∈ os, WFR o.keep) (hf : ∀ o ∈ os, Flagged o.keep) : Flagged (mergeAll os) := by
  obtain ⟨w, hl⟩ := merged_look os hw
  rw [flagged_look w]
  intro k v f h
  obtain ⟨pre, p, post, rfl, h1, _⟩ := (hl k v f).mp h
  exact (flagged_look (hw p (by simp))).mp (hf p (by simp)) k v f h1

/-- What a configuration wants is wanted by the merged rules. -/
theorem merged_hits {os : List Opts} {ord : Attrs → Attrs} {p : Par P S T D} (hc : Configs os ord p) {kind : Nat} {a b : Attrs}
    (hab : ∀ kv ∈ a, kv ∈ b) (h : Hits p.o.keep kind a) : Hits (mergeAll os) kind b := by
  obtain ⟨kv, hkv, hh⟩ := h
  refine ⟨kv, hab kv hkv, ?_⟩
  obtain ⟨w, hl⟩ := merged_look os hc.wf
  obtain ⟨v, f, h1, h2, h3⟩ := (ruleHit_look (hc.wf p.o hc.mem) kind kv).mp hh
  refine (ruleHit_look w kind kv).mpr ⟨v, f, ?_, h2, h3⟩
  have first : ∀ l : List Opts, p.o ∈ l → ∃ pre q post, l = pre ++ q :: post ∧ (∃ f', look q.keep kv.1 v = some f') ∧
      ∀ q' ∈ pre, look q'.keep kv.1 v = none := by
    intro l
    induction l with
    | nil => intro h; cases h
    | cons q l ih =>
      intro hm
      cases hp : look q.keep kv.1 v with
      | some f' => exact ⟨[], q, l, rfl, ⟨f', hp⟩, fun q hq => by cases hq⟩
      | none =>
        rcases List.mem_cons.mp hm with hq | hm
        · rw [← hq, h1] at hp; cases hp
        · obtain ⟨pre, p', post, rfl, h4, h5⟩ := ih hm
          refine ⟨q :: pre, p', post, rfl, h4, fun q' hq => ?_⟩
          rcases List.mem_cons.mp hq with rfl | hq
          · exact hp
          · exact h5 q' hq
  obtain ⟨pre, q, post, hos, ⟨f', hp⟩, hpre⟩ := first os hc.mem
  have : f' = f := hc.agree q (by rw [hos]; simp) p.o hc.mem kv.1 v f' f hp h1
  subst this
  exact (hl _ _ _).mpr ⟨pre, q, post, hos, hp, hpre⟩

/-! ### flags -/

theorem contained_rule {rules : Rules} (hw : WFR rules) (t : Nat) {a : Attrs} {f : Nat} (h : contained rules t a = f) (h0 : f ≠ 0) :
    ∃ kv ∈ a, ∃ v, look rules kv.1 v = some f ∧ f &&& t = 0 ∧ ValFits kv.2 v (decide (f &&& 32 ≠ 0)) := by
  induction a with
  | nil => exact absurd h.symm h0
  | cons kv a ih =>
    have up : contained rules t a = f → ∃ kv' ∈ kv :: a, ∃ v, look rules kv'.1 v = some f ∧ f &&& t = 0 ∧
        ValFits kv'.2 v (decide (f &&& 32 ≠ 0)) := fun h => by
      obtain ⟨kv', h1, h2⟩ := ih h
      exact ⟨kv', List.mem_cons_of_mem _ h1, h2⟩
    unfold contained at h
    cases hg : rules.get kv.1 with
    | none => rw [hg] at h; exact up h
    | some vals =>
      rw [hg] at h
      simp only at h
      cases hv : findVal t kv.2 vals with
      | none => rw [hv] at h; exact up h
      | some f' =>
        rw [hv] at h
        simp only at h
        subst h
        obtain ⟨r, hr, h1, h2, h3⟩ := findVal_some hv
        subst h1
        refine ⟨kv, List.mem_cons_self, r.1, ?_, h2, h3⟩
        unfold look
        rw [hg]
        exact FMap.get_of_mem (hw.vals _ _ hg) hr

theorem has_of_mem {keys : List Str} {kids : List (Ev P)} {kv : Str × Str} (h : kv ∈ attrsOf keys kids []) : Has kids kv.1 kv.2 := by
  have := FMap.get_of_mem (attrsOf_wf keys kids [] FMap.WF.nil) h
  rw [get_attrsOf_nil, kidVal] at this
  split at this
  · exact this
  · cases this

theorem mem_of_has {keys : List Str} {kids : List (Ev P)} {k v : Str} (hk : k ∈ keys) (h : Has kids k v) : (k, v) ∈ attrsOf keys kids [] := by
  apply FMap.mem_of_get
  rw [get_attrsOf_nil, kidVal, if_pos hk]
  exact h

/-- The flags a relation gets are those of a rule it meets. -/
theorem reason_own {os : List Opts} {ord : Attrs → Attrs} {p : Par P S T D} (hc : Configs os ord p) {x : DElem P} {a : Attrs}
    (ha : ∀ kv ∈ a, Has x.kids kv.1 kv.2) (h0 : contained p.f.keep REL a ≠ 0) : Reason os x (contained p.f.keep REL a) := by
  rw [hc.keep] at *
  obtain ⟨kv, h1, v, h2, h3, h4⟩ := contained_rule (hc.wf p.o hc.mem) REL rfl h0
  exact ⟨p.o, hc.mem, kv.1, v, kv.2, h2, h3, ha kv h1, h4⟩

theorem reason_merged {os : List Opts} {ord : Attrs → Attrs} {p : Par P S T D} (hc : Configs os ord p) {x : DElem P} {a : Attrs}
    (ha : ∀ kv ∈ a, Has x.kids kv.1 kv.2) (h0 : contained (mergeAll os) REL a ≠ 0) : Reason os x (contained (mergeAll os) REL a) := by
  obtain ⟨w, hl⟩ := merged_look os hc.wf
  obtain ⟨kv, h1, v, h2, h3, h4⟩ := contained_rule w REL rfl h0
  obtain ⟨pre, o, post, ho, h5, _⟩ := (hl _ _ _).1 h2
  exact ⟨o, by rw [ho]; simp, kv.1, v, kv.2, h5, h3, ha kv h1, h4⟩

/-! ### relations that remain -/

/-- What remains of a relation. -/
structure Rest (W N : Nat → Bool) (r r' : Rel) : Prop where
  ways : r'.ways = r.ways.filter fun m => W m.1
  nodes : r'.nodes = r.nodes.filter fun m => N m.1
  attrs : Same r.attrs r'.attrs
  flat : r.keepFlags &&& REL_NO_DOWN = 0 ↔ r'.keepFlags &&& REL_NO_DOWN = 0

/-- What remains of the relations. -/
inductive Cut (W N : Nat → Bool) : List Rel → List Rel → Prop
  | nil : Cut W N [] []
  | drop {r : Rel} {l l' : List Rel} : (∀ m ∈ r.ways, W m.1 = false) → (∀ m ∈ r.nodes, N m.1 = false) → Cut W N l l' → Cut W N (r :: l) l'
  | keep {r r' : Rel} {l l' : List Rel} : Rest W N r r' → Cut W N l l' → Cut W N (r :: l) (r' :: l')

theorem flags_ne {f : Flt} (hf : f.Ok) {a : Attrs} (h : Hits f.keep REL a) : contained f.keep REL (f.ord a) ≠ 0 := by
  rw [contained_iff hf.keep]
  obtain ⟨kv, h1, h2⟩ := h
  exact ⟨kv, (hf.ord a kv).2 h1, h2⟩

theorem Configs.flt {os : List Opts} {ord : Attrs → Attrs} {p : Par P S T D} (hc : Configs os ord p) : p.f.Ok :=
  ⟨by rw [hc.keep]; exact hc.own.keep, by rw [hc.drop]; exact hc.own.drop, hc.order⟩

theorem Configs.merged {os : List Opts} {ord : Attrs → Attrs} {p : Par P S T D} (hc : Configs os ord p) : Flt.Ok ⟨mergeAll os, [], ord⟩ :=
  ⟨merged_flagged hc.wf hc.flagged, (fun k vals h => by cases h), hc.order'⟩

theorem Configs.kR {os : List Opts} {ord : Attrs → Attrs} {p : Par P S T D} (hc : Configs os ord p) :
    ∀ k ∈ p.keysR, k ∈ os.flatMap keptRel := fun k hk => List.mem_flatMap.2 ⟨p.o, hc.mem, hc.keysR ▸ hk⟩
theorem Configs.kW {os : List Opts} {ord : Attrs → Attrs} {p : Par P S T D} (hc : Configs os ord p) :
    ∀ k ∈ p.keysW, k ∈ os.flatMap keptWay := fun k hk => List.mem_flatMap.2 ⟨p.o, hc.mem, hc.keysW ▸ hk⟩
theorem Configs.kN {os : List Opts} {ord : Attrs → Attrs} {p : Par P S T D} (hc : Configs os ord p) :
    ∀ k ∈ p.keysN, k ∈ os.flatMap keptNode := fun k hk => List.mem_flatMap.2 ⟨p.o, hc.mem, hc.keysN ▸ hk⟩

theorem attrs_sub {keys keys' : List Str} (hk : ∀ k ∈ keys', k ∈ keys) (kids : List (Ev P)) :
    ∀ kv ∈ attrsOf keys' kids [], kv ∈ attrsOf keys kids [] := by
  intro kv h
  have h1 := has_of_mem h
  have : kv.1 ∈ keys' := by
    have := FMap.get_of_mem (attrsOf_wf keys' kids [] FMap.WF.nil) h
    rw [get_attrsOf_nil, kidVal] at this
    split at this
    · assumption
    · cases this
  exact mem_of_has (hk _ this) h1

/-- No drop rules. -/
theorem no_drop (k : Nat) (a : Attrs) : ¬ Hits [] k a := by
  rintro ⟨kv, _, vals, h, _⟩
  cases h

theorem none_wanted {f : Flt} (hf : f.Ok) {r : Rel} (h : keepRel f r = none) (h0 : r.id ≠ 0) : ¬ RelWanted f r := by
  intro hw
  have := (keepRel_iff hf r _).2 ⟨h0, hw, rfl⟩
  rw [h] at this; cases this

/-- The relations of the written file, as they are read. -/
theorem rels_cut {w : Pen P} (hw : ∀ a, (w.ord a).Perm a) {os : List Opts} {ord : Attrs → Attrs} {p : Par P S T D} (hc : Configs os ord p)
    (Wl Nl : List Nat) : ∀ l : List (DElem P), (∀ x ∈ l, x.id ≠ 0) → (∀ x ∈ l, Clean w x.kids) →
    (∀ x ∈ l, ∀ f f', Reason os x f → Reason os x f' → (f &&& REL_NO_DOWN = 0 ↔ f' &&& REL_NO_DOWN = 0)) →
    Cut (fun i => Wl.contains i) (fun i => Nl.contains i) (l.filterMap fun x => keepRel p.f (readRel p.keysR x))
      ((((l.filterMap fun x => keepRel ⟨mergeAll os, [], ord⟩ (readRel (os.flatMap keptRel) x)).filterMap (writeRel Wl Nl)).map (outRel w)).filterMap
        fun x => keepRel p.f (readRel p.keysR x)) := by
  intro l
  induction l with
  | nil => intro _ _ _; exact .nil
  | cons x l ih =>
    intro hz hcl hR
    have IH := ih (fun y hy => hz y (List.mem_cons_of_mem _ hy)) (fun y hy => hcl y (List.mem_cons_of_mem _ hy))
      (fun y hy => hR y (List.mem_cons_of_mem _ hy))
    have hz := hz x List.mem_cons_self
    have hcl := hcl x List.mem_cons_self
    have hR := hR x List.mem_cons_self
    -- a relation that is written is read as it was
    have again : ∀ r1 r2, keepRel ⟨mergeAll os, [], ord⟩ (readRel (os.flatMap keptRel) x) = some r1 → writeRel Wl Nl r1 = some r2 →
        (readRel p.keysR (outRel w r2)).id = x.id ∧ r2.ways = (kidMembers .way x.kids).filter (fun m => Wl.contains m.1) ∧
        r2.nodes = (kidMembers .node x.kids).filter (fun m => Nl.contains m.1) ∧
        (readRel p.keysR (outRel w r2)).nodes = r2.nodes ∧ (readRel p.keysR (outRel w r2)).ways = r2.ways ∧
        Same (readRel p.keysR x).attrs (readRel p.keysR (outRel w r2)).attrs := by
      intro r1 r2 h1 h2
      obtain ⟨_, _, rfl⟩ := (keepRel_iff hc.merged _ _).1 h1
      unfold writeRel at h2
      simp only at h2
      split at h2
      · simp only [Option.some.injEq] at h2
        subst h2
        obtain ⟨a, b, c, e⟩ := reread_rel hw hcl hc.kR
          { (readRel (os.flatMap keptRel) x) with
            ways := (kidMembers .way x.kids).filter (fun m => Wl.contains m.1)
            nodes := (kidMembers .node x.kids).filter (fun m => Nl.contains m.1)
            keepFlags := contained (mergeAll os) REL (ord (readRel (os.flatMap keptRel) x).attrs) } rfl
          (fun m hm => (List.mem_filter.1 hm).1) (fun m hm => (List.mem_filter.1 hm).1)
        exact ⟨a, rfl, rfl, b, c, e⟩
      · cases h2
    cases h : keepRel p.f (readRel p.keysR x) with
    | none =>
      have hnw := none_wanted hc.flt h hz
      rw [List.filterMap_cons, h]
      cases h1 : keepRel ⟨mergeAll os, [], ord⟩ (readRel (os.flatMap keptRel) x) with
      | none => rw [List.filterMap_cons, h1]; exact IH
      | some r1 =>
        rw [List.filterMap_cons, h1]
        simp only
        rw [List.filterMap_cons]
        cases h2 : writeRel Wl Nl r1 with
        | none => exact IH
        | some r2 =>
          simp only [List.map_cons]
          obtain ⟨_, _, _, _, _, hs⟩ := again r1 r2 h1 h2
          have : keepRel p.f (readRel p.keysR (outRel w r2)) = none := by
            cases h3 : keepRel p.f (readRel p.keysR (outRel w r2)) with
            | none => rfl
            | some r3 =>
              obtain ⟨_, hw', _⟩ := (keepRel_iff hc.flt _ _).1 h3
              exact absurd ⟨(hs.hits _ _).2 hw'.keep, fun h => hw'.nodrop ((hs.hits _ _).1 h)⟩ hnw
          rw [List.filterMap_cons, this]
          exact IH
    | some r0 =>
      obtain ⟨_, hwant, hr0⟩ := (keepRel_iff hc.flt _ _).1 h
      have hm : RelWanted ⟨mergeAll os, [], ord⟩ (readRel (os.flatMap keptRel) x) := by
        refine ⟨merged_hits hc (attrs_sub hc.kR x.kids) ?_, no_drop _ _⟩
        have := hwant.keep
        rw [hc.keep] at this
        exact this
      obtain ⟨r1, h1⟩ : ∃ r1, keepRel ⟨mergeAll os, [], ord⟩ (readRel (os.flatMap keptRel) x) = some r1 :=
        ⟨_, (keepRel_iff hc.merged _ _).2 ⟨hz, hm, rfl⟩⟩
      rw [List.filterMap_cons, h, List.filterMap_cons, h1]
      simp only
      rw [List.filterMap_cons]
      have hw1 : r1.ways = kidMembers .way x.kids ∧ r1.nodes = kidMembers .node x.kids := by
        obtain ⟨_, _, rfl⟩ := (keepRel_iff hc.merged _ _).1 h1
        exact ⟨rfl, rfl⟩
      cases h2 : writeRel Wl Nl r1 with
      | none =>
        unfold writeRel at h2
        simp only at h2
        split at h2
        · cases h2
        · rename_i hne
          simp only [not_or, Decidable.not_not] at hne
          refine .drop ?_ ?_ IH
          · intro m hm
            rw [hr0] at hm
            have := List.filter_eq_nil_iff.1 hne.2 m (by rw [hw1.1]; exact hm)
            simpa using this
          · intro m hm
            rw [hr0] at hm
            have := List.filter_eq_nil_iff.1 hne.1 m (by rw [hw1.2]; exact hm)
            simpa using this
      | some r2 =>
        simp only [List.map_cons]
        obtain ⟨e1, e2, e3, e4, e5, hs⟩ := again r1 r2 h1 h2
        have hwant' : RelWanted p.f (readRel p.keysR (outRel w r2)) :=
          ⟨(hs.hits _ _).1 hwant.keep, fun h => hwant.nodrop ((hs.hits _ _).2 h)⟩
        have h3 := (keepRel_iff hc.flt (readRel p.keysR (outRel w r2)) _).2 ⟨by rw [e1]; exact hz, hwant', rfl⟩
        rw [List.filterMap_cons, h3]
        refine .keep ⟨?_, ?_, ?_, ?_⟩ IH
        · rw [hr0]
          exact e5.trans e2
        · rw [hr0]
          exact e4.trans e3
        · rw [hr0]; exact hs
        · rw [hr0]
          refine hR _ _ (reason_own hc ?_ (flags_ne hc.flt hwant.keep)) (reason_own hc ?_ (flags_ne hc.flt hwant'.keep))
          · intro kv hkv
            exact has_of_mem ((hc.order _ _).1 hkv)
          · intro kv hkv
            exact has_of_mem (keys := p.keysR) ((hs.mem kv).2 ((hc.order _ _).1 hkv))

end Verif.Extract
