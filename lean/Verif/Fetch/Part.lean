import Verif.Fetch.Spec
import Verif.Extract.Main

/-!
# The same graph from a part of the map (lemmas)
-/

set_option linter.unusedSectionVars false
set_option linter.unusedSimpArgs false

namespace Verif.Fetch
open Verif.Names (Str)
open Verif.Osm Verif.Whole Verif.Payload Verif.Extract
open Verif.Turns (sRestriction readTurns readRestr Rests TSt turnWay endsOf viaOf)
open Verif.Attrs (Has Met Wanted filePar fileRels fileWays fileLines relsOf file_rels Naming Info wayLines)

variable {P S T D : Type}

/-! ### tags that are left out -/

theorem strip_keep (s : Str → Bool) {A : Type} (g : Ev P → Option A) (h : ∀ e k v, e.tag = .tag k v → s k = false → g e = none) (kids : List (Ev P)) :
    (strip s kids).filterMap g = kids.filterMap g := by
  unfold strip
  induction kids with
  | nil => rfl
  | cons e kids ih =>
    cases ht : e.tag with
    | tag k v =>
      cases hs : s k with
      | true =>
        rw [List.filter_cons_of_pos (by simp [ht, hs]), List.filterMap_cons, List.filterMap_cons, ih]
      | false =>
        rw [List.filter_cons_of_neg (by simp [ht, hs]), List.filterMap_cons, h e k v ht hs]
        exact ih
    | _ => rw [List.filter_cons_of_pos (by simp [ht]), List.filterMap_cons, List.filterMap_cons, ih]

theorem strip_refs (s : Str → Bool) (kids : List (Ev P)) : kidRefs (strip s kids) = kidRefs kids := by
  unfold kidRefs
  apply strip_keep
  intro e k v ht _
  rw [ht]
  split <;> simp_all

theorem strip_members (s : Str → Bool) (t : MemType) (kids : List (Ev P)) : kidMembers t (strip s kids) = kidMembers t kids := by
  unfold kidMembers
  apply strip_keep
  intro e k v ht _
  rw [ht]
  split <;> simp_all

theorem strip_vals (s : Str → Bool) {k : Str} (hk : s k = true) (kids : List (Ev P)) : kidVals k (strip s kids) = kidVals k kids := by
  unfold kidVals
  apply strip_keep
  intro e k' v ht hf
  rw [ht]
  split
  · rename_i h1 h2
    simp only [Tag.tag.injEq] at h2
    obtain ⟨rfl, rfl⟩ := h2
    split
    · rename_i h3
      subst h3
      rw [hk] at hf
      cases hf
    · rfl
  · rfl

theorem strip_attrs (s : Str → Bool) {keys : List Str} (hk : ∀ k ∈ keys, s k = true) (kids : List (Ev P)) :
    ∀ a, attrsOf keys (strip s kids) a = attrsOf keys kids a := by
  unfold strip attrsOf
  induction kids with
  | nil => intro a; rfl
  | cons e kids ih =>
    intro a
    cases ht : e.tag with
    | tag k v =>
      cases hs : s k with
      | true => rw [List.filter_cons_of_pos (by simp [ht, hs]), List.foldl_cons, List.foldl_cons, ih]
      | false =>
        have hk' : keys.contains k = false := by
          cases hc : keys.contains k with
          | false => rfl
          | true =>
            rw [hk k (by simpa using hc)] at hs
            cases hs
        have : attrStep keys a e = a := by
          unfold attrStep
          rw [ht]
          simp only [setAttr]
          split
          · first | rw [hk'] | rw [if_neg (by simpa using hk')]
            try rfl
          · rfl
        rw [List.filter_cons_of_neg (by simp [ht, hs]), List.foldl_cons, this, ih]
    | _ => rw [List.filter_cons_of_pos (by simp [ht]), List.foldl_cons, List.foldl_cons, ih]

/-! ### relations that are left out -/

/-- Relations that are left out have no member that is asked for. -/
inductive Thin (W N : Nat → Prop) : List Rel → List Rel → Prop
  | nil : Thin W N [] []
  | drop {r : Rel} {l l' : List Rel} : (∀ m ∈ r.ways, ¬ W m.1) → (∀ m ∈ r.nodes, ¬ N m.1) → Thin W N l l' → Thin W N (r :: l) l'
  | keep {r : Rel} {l l' : List Rel} : Thin W N l l' → Thin W N (r :: l) (r :: l')

theorem times_none {W : Nat → Prop} {i : Nat} (h : W i) {l : List (Nat × Str)} (hl : ∀ m ∈ l, ¬ W m.1) : times i l = 0 := by
  unfold times
  rw [List.countP_eq_zero]
  intro m hm
  simp only [decide_eq_true_eq]
  rintro rfl
  exact hl m hm h

theorem thin_rows {W N : Nat → Prop} {rs rs' : List Rel} (h : Thin W N rs rs') :
    (∀ i, W i → rows (·.ways) i rs' = rows (·.ways) i rs) ∧ (∀ i, N i → rows (·.nodes) i rs' = rows (·.nodes) i rs) := by
  induction h with
  | nil => exact ⟨fun _ _ => rfl, fun _ _ => rfl⟩
  | @drop r l l' h1 h2 _ ih =>
    refine ⟨fun i hi => ?_, fun i hi => ?_⟩
    · rw [show rows (·.ways) i (r :: l) = List.replicate (times i r.ways) r.attrs ++ rows (·.ways) i l from rfl, times_none hi h1]
      exact ih.1 i hi
    · rw [show rows (·.nodes) i (r :: l) = List.replicate (times i r.nodes) r.attrs ++ rows (·.nodes) i l from rfl, times_none hi h2]
      exact ih.2 i hi
  | @keep r l l' _ ih =>
    refine ⟨fun i hi => ?_, fun i hi => ?_⟩
    · show List.replicate _ _ ++ rows (·.ways) i l' = List.replicate _ _ ++ rows (·.ways) i l
      rw [ih.1 i hi]
    · show List.replicate _ _ ++ rows (·.nodes) i l' = List.replicate _ _ ++ rows (·.nodes) i l
      rw [ih.2 i hi]

theorem thin_sub {W N : Nat → Prop} {rs rs' : List Rel} (h : Thin W N rs rs') : ∀ r ∈ rs', r ∈ rs := by
  induction h with
  | nil => exact fun _ h => h
  | drop _ _ _ ih => exact fun r hr => List.mem_cons_of_mem _ (ih r hr)
  | keep _ ih =>
    intro r hr
    rcases List.mem_cons.1 hr with rfl | hr
    · exact List.mem_cons_self
    · exact List.mem_cons_of_mem _ (ih r hr)

theorem thin_down {W N : Nat → Prop} {rs rs' : List Rel} (h : Thin W N rs rs') (sel : Rel → List (Nat × Str)) {i : Nat} (hi : In sel rs' i) : In sel rs i := by
  obtain ⟨r, hr, h1, h2⟩ := hi
  exact ⟨r, thin_sub h r hr, h1, h2⟩

theorem thin_in {W N : Nat → Prop} {rs rs' : List Rel} (h : Thin W N rs rs') (i : Nat) :
    (W i → In (·.ways) rs i → In (·.ways) rs' i) ∧ (N i → In (·.nodes) rs i → In (·.nodes) rs' i) := by
  induction h with
  | nil => exact ⟨fun _ h => h, fun _ h => h⟩
  | @drop r l l' h1 h2 _ ih =>
    refine ⟨fun hi h => ?_, fun hi h => ?_⟩
    · refine ih.1 hi (((in_cons _ _ _ _).1 h).resolve_left ?_)
      rintro ⟨_, hm⟩
      obtain ⟨m, hm', rfl⟩ := List.mem_map.1 hm
      exact h1 m hm' hi
    · refine ih.2 hi (((in_cons _ _ _ _).1 h).resolve_left ?_)
      rintro ⟨_, hm⟩
      obtain ⟨m, hm', rfl⟩ := List.mem_map.1 hm
      exact h2 m hm' hi
  | @keep r l l' _ ih =>
    refine ⟨fun hi h => ?_, fun hi h => ?_⟩
    · exact (in_cons _ _ _ _).2 (((in_cons _ _ _ _).1 h).imp id (ih.1 hi))
    · exact (in_cons _ _ _ _).2 (((in_cons _ _ _ _).1 h).imp id (ih.2 hi))

/-! ### turn restrictions between ways that are left out -/

def relevant (W : Nat → Bool) (x : Restrictor.Raw Nat) : Bool := W x.eFrom || W x.eTo

/-- Without the restrictions between other ways. -/
def pruneMap (W : Nat → Bool) (m : FMap Nat (List (Restrictor.Raw Nat))) : FMap Nat (List (Restrictor.Raw Nat)) :=
  List.map (fun kv => (kv.1, kv.2.filter (relevant W))) m

def prune (W : Nat → Bool) (q : Rests) : Rests := ⟨pruneMap W q.pos, pruneMap W q.neg⟩

theorem pruneMap_get (W : Nat → Bool) (m : FMap Nat (List (Restrictor.Raw Nat))) (v : Nat) :
    ((pruneMap W m).get v).getD [] = ((m.get v).getD []).filter (relevant W) := by
  induction m with
  | nil => rfl
  | cons kv m ih =>
    rw [show pruneMap W (kv :: m) = (kv.1, kv.2.filter (relevant W)) :: pruneMap W m from rfl, FMap.get_cons, FMap.get_cons]
    split
    · rfl
    · exact ih

theorem process_prune {E : Type} {W : Nat → Bool} {w : Nat} (hw : W w = true) (l : List (Restrictor.Raw Nat)) (b : Bool) (e : E) (n : Nat) :
    Restrictor.processRestr (l.filter (relevant W)) b w e n = Restrictor.processRestr l b w e n := by
  unfold Restrictor.processRestr
  induction l with
  | nil => rfl
  | cons x l ih =>
    rw [List.filter_cons]
    split
    · rw [List.flatMap_cons, List.flatMap_cons, ih]
    · rename_i h
      have h1 : ¬ x.eFrom = w := by rintro rfl; exact h (by simp [relevant, hw])
      have h2 : ¬ x.eTo = w := by rintro rfl; exact h (by simp [relevant, hw])
      rw [List.flatMap_cons, if_neg h1, if_neg h2, ih]
      rfl

theorem turnOps_prune {E : Type} {W : Nat → Bool} {w : Nat} (hw : W w = true) (q : Rests) (v : Nat) (e : E) (n : Nat) :
    Turns.turnOps (prune W q) v w e n = Turns.turnOps q v w e n := by
  unfold Turns.turnOps prune
  simp only [pruneMap_get, process_prune hw]

theorem marks_prune {W : Nat → Bool} {w : Nat} (hw : W w = true) (q : Rests) (v : Nat) : Turns.marks (prune W q) v w = Turns.marks q v w := by
  have any : ∀ l : List (Restrictor.Raw Nat), (l.filter (relevant W)).any (fun kv => kv.eFrom == w || kv.eTo == w) =
      l.any (fun kv => kv.eFrom == w || kv.eTo == w) := by
    intro l
    rw [Bool.eq_iff_iff, List.any_eq_true, List.any_eq_true]
    constructor
    · rintro ⟨x, hx, h⟩
      exact ⟨x, (List.mem_filter.1 hx).1, h⟩
    · rintro ⟨x, hx, h⟩
      refine ⟨x, List.mem_filter.2 ⟨hx, ?_⟩, h⟩
      simp only [Bool.or_eq_true, beq_iff_eq] at h
      unfold relevant
      rcases h with h | h <;> simp [h, hw]
  unfold Turns.marks prune
  simp only [List.any_append, pruneMap_get, any]

theorem turnGo_prune {E : Type} {W : Nat → Bool} (q : Rests) (mk : Nat → GEdge → E) (nohup box : Nat → Bool) {w : Way} (hw : W w.id = true) :
    ∀ (nids : List Nat) (s : TSt P E) (last : Option (Nat × Nat)), Turns.turnGo (prune W q) mk nohup box w nids s last = Turns.turnGo q mk nohup box w nids s last := by
  intro nids
  induction nids with
  | nil => intro s last; rfl
  | cons i nids ih =>
    intro s last
    rw [Turns.turnGo, Turns.turnGo]
    cases h : ndFor nohup box s.g i with
    | mk o s' =>
      cases o with
      | none => exact ih _ _
      | some n =>
        cases last with
        | none => exact ih _ _
        | some l =>
          obtain ⟨l, lid⟩ := l
          simp only [turnOps_prune hw, marks_prune hw]
          exact ih _ _

theorem turnWays_prune {E : Type} {W : Nat → Bool} (q : Rests) (mk : Nat → GEdge → E) (nohup box : Nat → Bool) :
    ∀ (ws : List Way), (∀ w ∈ ws, W w.id = true) → ∀ s : TSt P E, ws.foldl (turnWay (prune W q) mk nohup box) s = ws.foldl (turnWay q mk nohup box) s
  | [], _, _ => rfl
  | w :: ws, h, s => by
    rw [List.foldl_cons, List.foldl_cons]
    rw [show turnWay (prune W q) mk nohup box s w = turnWay q mk nohup box s w from turnGo_prune q mk nohup box (h w List.mem_cons_self) _ _ _]
    exact turnWays_prune q mk nohup box ws (fun w' hw => h w' (List.mem_cons_of_mem _ hw)) _

theorem ends_mem : ∀ {l : List (Nat × Str)} {a b a' b' : Nat}, endsOf l a b = some (a', b') →
    (a' = a ∨ ∃ m ∈ l, m.1 = a') ∧ (b' = b ∨ ∃ m ∈ l, m.1 = b')
  | [], a, b, a', b', h => by
    simp only [endsOf, Option.some.injEq, Prod.mk.injEq] at h
    exact ⟨.inl h.1.symm, .inl h.2.symm⟩
  | m :: l, a, b, a', b', h => by
    have up : ∀ {x : Nat}, (∃ m' ∈ l, m'.1 = x) → ∃ m' ∈ m :: l, m'.1 = x := fun ⟨m', h, e⟩ => ⟨m', List.mem_cons_of_mem _ h, e⟩
    rw [endsOf] at h
    split at h
    · split at h
      · cases h
      · obtain ⟨h1, h2⟩ := ends_mem h
        refine ⟨.inr ?_, h2.imp id up⟩
        rcases h1 with rfl | h1
        · exact ⟨m, List.mem_cons_self, rfl⟩
        · exact up h1
    · split at h
      · split at h
        · cases h
        · obtain ⟨h1, h2⟩ := ends_mem h
          refine ⟨h1.imp id up, .inr ?_⟩
          rcases h2 with rfl | h2
          · exact ⟨m, List.mem_cons_self, rfl⟩
          · exact up h2
      · obtain ⟨h1, h2⟩ := ends_mem h
        exact ⟨h1.imp id up, h2.imp id up⟩

theorem push_prune {W : Nat → Bool} {m m' : FMap Nat (List (Restrictor.Raw Nat))} (h : ∀ v, ((pruneMap W m).get v).getD [] = ((pruneMap W m').get v).getD [])
    (u : Nat) (x : Restrictor.Raw Nat) : (∀ v, ((pruneMap W (Turns.pushRaw m u x)).get v).getD [] = ((pruneMap W (Turns.pushRaw m' u x)).get v).getD []) ∧
      (relevant W x = false → ∀ v, ((pruneMap W (Turns.pushRaw m u x)).get v).getD [] = ((pruneMap W m').get v).getD []) := by
  simp only [pruneMap_get] at h ⊢
  unfold Turns.pushRaw
  constructor
  · intro v
    rw [FMap.get_put, FMap.get_put]
    split
    · rename_i e
      subst e
      simp only [Option.getD_some, List.filter_append, h]
    · exact h v
  · intro hx v
    rw [FMap.get_put]
    split
    · rename_i e
      subst e
      simp only [Option.getD_some, List.filter_append, h]
      simp [hx]
    · exact h v

theorem readRestr_agree {W : Nat → Bool} (o : Osm.Opts) {q q' : Rests} (r : Rel) (h : ∀ v, AgreeAt (prune W q) (prune W q') v) :
    (∀ v, AgreeAt (prune W (readRestr o q r)) (prune W (readRestr o q' r)) v) ∧
    ((∀ m ∈ r.ways, W m.1 = false) → ∀ v, AgreeAt (prune W (readRestr o q r)) (prune W q') v) := by
  unfold readRestr
  split
  · exact ⟨h, fun _ => h⟩
  · split
    · exact ⟨h, fun _ => h⟩
    · cases he : endsOf r.ways 0 0 with
      | none => exact ⟨h, fun _ => h⟩
      | some ab =>
        obtain ⟨a, b⟩ := ab
        simp only
        split
        · rename_i h3
          obtain ⟨h1, h2⟩ := ends_mem he
          have rel : (∀ m ∈ r.ways, W m.1 = false) → relevant W ⟨a, b⟩ = false := by
            intro hm
            obtain ⟨m, hm1, e1⟩ := h1.resolve_left h3.1
            obtain ⟨m', hm2, e2⟩ := h2.resolve_left h3.2.1
            simp only [relevant, ← e1, ← e2, hm m hm1, hm m' hm2, Bool.or_self]
          split
          · have H := push_prune (W := W) (m := q.pos) (m' := q'.pos) (fun v => (h v).1) (viaOf r.nodes) ⟨a, b⟩
            exact ⟨fun v => ⟨H.1 v, (h v).2⟩, fun hm v => ⟨H.2 (rel hm) v, (h v).2⟩⟩
          · have H := push_prune (W := W) (m := q.neg) (m' := q'.neg) (fun v => (h v).2) (viaOf r.nodes) ⟨a, b⟩
            exact ⟨fun v => ⟨(h v).1, H.1 v⟩, fun hm v => ⟨(h v).1, H.2 (rel hm) v⟩⟩
        · exact ⟨h, fun _ => h⟩

theorem thin_rests {W : Nat → Bool} {N : Nat → Prop} {o : Osm.Opts} {rs rs' : List Rel} (h : Thin (fun i => W i = true) N rs rs') :
    ∀ (q q' : Rests), (∀ v, AgreeAt (prune W q) (prune W q') v) →
      ∀ v, AgreeAt (prune W (rs.foldl (readRestr o) q)) (prune W (rs'.foldl (readRestr o) q')) v := by
  induction h with
  | nil => intro q q' h; exact h
  | @drop r l l' h1 h2 _ ih =>
    intro q q' hq
    rw [List.foldl_cons]
    exact ih _ _ ((readRestr_agree o r hq).2 fun m hm => by simpa using h1 m hm)
  | @keep r l l' _ ih =>
    intro q q' hq
    rw [List.foldl_cons, List.foldl_cons]
    exact ih _ _ (readRestr_agree o r hq).1

theorem match_self {A : Type} {R : A → A → Prop} : ∀ {l : List A}, (∀ x ∈ l, R x x) → Match R l l
  | [], _ => .nil
  | x :: _, h => .cons (h x List.mem_cons_self) (match_self fun y hy => h y (List.mem_cons_of_mem _ hy))

theorem same_refl {a : Osm.Attrs} (h : FMap.WF a) : Same a a := ⟨h, h, fun _ => rfl⟩

theorem filter_part {A B : Type} (r r' : A → B) (q : A → Bool) (k k' : B → Bool) (l : List A) (h1 : ∀ x ∈ l, k (r x) = true → q x = true)
    (h2 : ∀ x ∈ l, q x = true → k' (r' x) = k (r x)) (h3 : ∀ x ∈ l, r' x = r x) :
    ((l.filter q).map r').filter k' = (l.map r).filter k := by
  induction l with
  | nil => rfl
  | cons x l ih =>
    have IH := ih (fun y hy => h1 y (List.mem_cons_of_mem _ hy)) (fun y hy => h2 y (List.mem_cons_of_mem _ hy)) (fun y hy => h3 y (List.mem_cons_of_mem _ hy))
    have h1 := h1 x List.mem_cons_self
    have h2 := h2 x List.mem_cons_self
    have h3 := h3 x List.mem_cons_self
    rw [List.filter_cons, List.map_cons, List.filter_cons]
    cases hq : q x with
    | false =>
      have : k (r x) = false := by
        cases hk : k (r x) with
        | false => rfl
        | true => rw [h1 hk] at hq; cases hq
      rw [this]
      exact IH
    | true =>
      simp only [if_true, List.map_cons]
      rw [List.filter_cons, h2 hq, h3, IH]

/-! ### the part -/

section
variable {p : Par P S T D} {d : Doc P} {header : List (Ev P)} {a : DNode P → Bool} {b c : DElem P → Bool} {s : Str → Bool}

theorem Reader.flt (hp : Reader p) : p.f.Ok := ⟨by rw [hp.keep]; exact hp.own.keep, by rw [hp.drop]; exact hp.own.drop, hp.order⟩

theorem keep_met (hp : Reader p) (kind : Nat) (kids : List (Ev P)) :
    (Hits p.f.keep kind (attrsOf p.keysN kids []) ↔ Met p.f.keep kind kids) ∧ (Hits p.f.keep kind (attrsOf p.keysW kids []) ↔ Met p.f.keep kind kids) ∧
    (Hits p.f.keep kind (attrsOf p.keysR kids []) ↔ Met p.f.keep kind kids) ∧ (Hits p.f.drop kind (attrsOf p.keysR kids []) ↔ Met p.f.drop kind kids) := by
  have wf : ∀ keys, FMap.WF (attrsOf keys kids []) := fun keys => attrsOf_wf _ _ _ FMap.WF.nil
  rw [hp.keep, hp.drop, hp.keysN, hp.keysW, hp.keysR]
  refine ⟨Attrs.hits_met (fun k hk => ?_) _ (wf _) (fun k => get_attrsOf_nil _ _ _), Attrs.hits_met (fun k hk => ?_) _ (wf _) (fun k => get_attrsOf_nil _ _ _),
    Attrs.hits_met (fun k hk => ?_) _ (wf _) (fun k => get_attrsOf_nil _ _ _), Attrs.hits_met (fun k hk => ?_) _ (wf _) (fun k => get_attrsOf_nil _ _ _)⟩
  · simp only [keptNode, List.mem_append]; simp [hk]
  · simp only [keptWay, List.mem_append]; simp [hk]
  · simp only [keptRel, List.mem_append]; simp [hk]
  · simp only [keptRel, List.mem_append]; simp [hk]

theorem strip_way (he : Enough p d a b c s) (x : DElem P) : readWay p.keysW ⟨x.id, strip s x.kids⟩ = readWay p.keysW x := by
  unfold readWay
  rw [strip_refs, strip_attrs s (fun k hk => he.tags k (.inr (.inl hk)))]

theorem strip_node (he : Enough p d a b c s) (x : DNode P) : readNod p.keysN ⟨x.id, x.pos, strip s x.kids⟩ = readNod p.keysN x := by
  unfold readNod
  rw [strip_attrs s (fun k hk => he.tags k (.inl hk))]

theorem strip_rel (he : Enough p d a b c s) (x : DElem P) : readRel p.keysR ⟨x.id, strip s x.kids⟩ = readRel p.keysR x := by
  unfold readRel
  rw [strip_members, strip_members, strip_attrs s (fun k hk => he.tags k (.inr (.inr hk)))]

theorem rel_wanted (hp : Reader p) {x : DElem P} {r : Rel} (h : keepRel p.f (readRel p.keysR x) = some r) :
    Wanted p.f x ∧ r.ways = kidMembers .way x.kids ∧ r.nodes = kidMembers .node x.kids := by
  obtain ⟨_, hw, rfl⟩ := (keepRel_iff hp.flt _ _).1 h
  exact ⟨⟨(keep_met hp _ _).2.2.1.1 hw.keep, fun h => hw.nodrop ((keep_met hp _ _).2.2.2.2 h)⟩, rfl, rfl⟩

theorem in_holds (hp : Reader p) (i : Nat) : (In (·.ways) (relsIn p d) i → ∃ y ∈ d.rels, Wanted p.f y ∧ Holds .way y i) ∧
    (In (·.nodes) (relsIn p d) i → ∃ y ∈ d.rels, Wanted p.f y ∧ Holds .node y i) := by
  constructor
  · rintro ⟨r, hr, _, hm⟩
    obtain ⟨y, hy, hk⟩ := List.mem_filterMap.1 hr
    obtain ⟨hw, e, _⟩ := rel_wanted hp hk
    dsimp only at hm
    rw [e] at hm
    obtain ⟨m, hm2, rfl⟩ := List.mem_map.1 hm
    exact ⟨y, hy, hw, m.2, hm2⟩
  · rintro ⟨r, hr, _, hm⟩
    obtain ⟨y, hy, hk⟩ := List.mem_filterMap.1 hr
    obtain ⟨hw, _, e⟩ := rel_wanted hp hk
    dsimp only at hm
    rw [e] at hm
    obtain ⟨m, hm2, rfl⟩ := List.mem_map.1 hm
    exact ⟨y, hy, hw, m.2, hm2⟩

/-- The ways that are asked for. -/
def WayId (p : Par P S T D) (d : Doc P) (i : Nat) : Prop := ∃ x, NeedWay p d x ∧ x.id = i

/-- The nodes whose relations are asked for. -/
def UseNode (p : Par P S T D) (d : Doc P) (i : Nat) : Prop := NeedNode p d i ∧ Inside p.bbox d i

theorem rels_thin (hp : Reader p) (he : Enough p d a b c s) : Thin (WayId p d) (UseNode p d) (relsIn p d) (relsIn p (part d header a b c s)) := by
  have key : ∀ l : List (DElem P), (∀ x ∈ l, x ∈ d.rels) → Thin (WayId p d) (UseNode p d) (l.filterMap fun x => keepRel p.f (readRel p.keysR x))
      (((l.filter c).map fun x => (⟨x.id, strip s x.kids⟩ : DElem P)).filterMap fun x => keepRel p.f (readRel p.keysR x)) := by
    intro l
    induction l with
    | nil => intro _; exact .nil
    | cons x l ih =>
      intro hl
      have IH := ih fun y hy => hl y (List.mem_cons_of_mem _ hy)
      rw [List.filter_cons, List.filterMap_cons]
      cases hk : keepRel p.f (readRel p.keysR x) with
      | none =>
        simp only
        split
        · rw [List.map_cons, List.filterMap_cons, strip_rel he, hk]
          exact IH
        · exact IH
      | some r =>
        simp only
        split
        · rw [List.map_cons, List.filterMap_cons, strip_rel he, hk]
          exact .keep IH
        · rename_i hc
          obtain ⟨hw, e1, e2⟩ := rel_wanted hp hk
          refine .drop ?_ ?_ IH
          · rintro m hm ⟨y, hy, e⟩
            rw [e1] at hm
            exact hc (he.rels x ⟨hl x List.mem_cons_self, hw, .inl ⟨y, hy, m.2, by rw [e]; exact hm⟩⟩)
          · intro m hm hn
            rw [e2] at hm
            exact hc (he.rels x ⟨hl x List.mem_cons_self, hw, .inr ⟨m.1, hn.1, hn.2, m.2, hm⟩⟩)
  exact key d.rels fun _ h => h

theorem part_area (hx : Exact p) {i : Nat} : (inArea p (part d header a b c s) i = true → inArea p d i = true) ∧
    ((∀ x ∈ d.nodes, x.id = i → a x = true) → inArea p (part d header a b c s) i = inArea p d i) := by
  have down : inArea p (part d header a b c s) i = true → inArea p d i = true := by
    rw [area_iff hx, area_iff hx]
    rintro ⟨y, hy, h1, h2⟩
    obtain ⟨x, hx', rfl⟩ := List.mem_map.1 hy
    exact ⟨x, (List.mem_filter.1 hx').1, h1, h2⟩
  refine ⟨down, fun h => Bool.eq_iff_iff.2 ⟨down, ?_⟩⟩
  rw [area_iff hx, area_iff hx]
  rintro ⟨x, hx', h1, h2⟩
  exact ⟨_, List.mem_map.2 ⟨x, List.mem_filter.2 ⟨hx', h x hx' h1⟩, rfl⟩, h1, h2⟩

theorem part_turn (hp : Reader p) (hx : Exact p) (he : Enough p d a b c s) {i : Nat} (h : ∀ x ∈ d.nodes, x.id = i → a x = true) :
    noTurn p (part d header a b c s) i = noTurn p d i := by
  have vals : ∀ (x : DNode P) k v, fNohup p.o k v = true → (v ∈ kidVals k (strip s x.kids) ↔ v ∈ kidVals k x.kids) := by
    intro x k v hn
    rw [strip_vals s (he.tags k (.inl (by rw [hp.keysN]; exact nohup_key hn)))]
  rw [Bool.eq_iff_iff, turn_iff hx, turn_iff hx]
  constructor
  · rintro ⟨y, hy, h1, k, v, h2, h3⟩
    obtain ⟨x, hx', rfl⟩ := List.mem_map.1 hy
    exact ⟨x, (List.mem_filter.1 hx').1, h1, k, v, (vals x k v h3).1 h2, h3⟩
  · rintro ⟨x, hx', h1, k, v, h2, h3⟩
    exact ⟨_, List.mem_map.2 ⟨x, List.mem_filter.2 ⟨hx', h x hx' h1⟩, rfl⟩, h1, k, v, (vals x k v h3).2 h2, h3⟩

theorem way_need (hp : Reader p) (hx : Exact p) {x : DElem P} (hm : x ∈ d.ways)
    (h : keepWay p.f (relState p.f p.keysR d.rels).wayRels (relState p.f p.keysR d.rels).flat (inArea p d) (readWay p.keysW x) = true) : NeedWay p d x := by
  obtain ⟨_, hw⟩ := (keepWay_iff hp.flt _ _ _ _).1 h
  refine ⟨hm, hw.two, ?_, ?_⟩
  · obtain ⟨i, hi, hb⟩ := hw.inbox
    exact ⟨i, hi, (area_iff hx d i).1 hb⟩
  · rcases hw.why with h | h
    · exact .inr ((in_holds hp _).1 ((member_in _ _ _ _).1.1 h))
    · exact .inl ((keep_met hp _ _).2.1.1 h)

theorem part_ways (hp : Reader p) (hx : Exact p) (he : Enough p d a b c s) : waysIn p (part d header a b c s) = waysIn p d := by
  unfold waysIn
  have e : (part d header a b c s).ways.map (readWay p.keysW) = (d.ways.filter b).map fun x => readWay p.keysW ⟨x.id, strip s x.kids⟩ := by
    simp only [part, List.map_map]
    rfl
  rw [e]
  refine filter_part (readWay p.keysW) _ b _ _ d.ways (fun x hm h => he.ways x (way_need hp hx hm h)) ?_ (fun x _ => strip_way he x)
  intro x hm _
  rw [strip_way he, Bool.eq_iff_iff]
  constructor
  · intro h
    obtain ⟨h0, hw⟩ := (keepWay_iff hp.flt _ _ _ _).1 h
    refine (keepWay_iff hp.flt _ _ _ _).2 ⟨h0, hw.two, hw.why.imp ?_ id, hw.nodrop, ?_⟩
    · intro h
      exact (member_in _ _ _ _).1.2 (thin_down (rels_thin hp he) _ ((member_in _ _ _ _).1.1 h))
    · obtain ⟨i, hi, hb⟩ := hw.inbox
      exact ⟨i, hi, (part_area hx).1 hb⟩
  · intro h
    have hn := way_need hp hx hm h
    obtain ⟨h0, hw⟩ := (keepWay_iff hp.flt _ _ _ _).1 h
    refine (keepWay_iff hp.flt _ _ _ _).2 ⟨h0, hw.two, hw.why.imp ?_ id, hw.nodrop, ?_⟩
    · intro h
      exact (member_in _ _ _ _).1.2 ((thin_in (rels_thin hp he) _).1 ⟨x, hn, rfl⟩ ((member_in _ _ _ _).1.1 h))
    · obtain ⟨i, hi, hb⟩ := hw.inbox
      refine ⟨i, hi, ?_⟩
      rw [(part_area hx).2 fun y hy e => he.nodes y hy (.inl ⟨x, hn, e ▸ hi⟩)]
      exact hb

theorem ways_on (hp : Reader p) (hx : Exact p) : ∀ y ∈ waysIn p d, WayId p d y.id ∧ ∀ i ∈ y.nodes, OnWay p d i := by
  intro y hy
  obtain ⟨h1, h2⟩ := List.mem_filter.1 hy
  obtain ⟨x, hx', rfl⟩ := List.mem_map.1 h1
  have := way_need hp hx hx' h2
  exact ⟨⟨x, this, rfl⟩, fun i hi => ⟨x, this, hi⟩⟩

theorem part_nodes (hd : d.Ok) (hp : Reader p) (hx : Exact p) (he : Enough p d a b c s) {g g' : GSt P} (hu : Uses (inArea p d) (OnWay p d) g)
    (e1 : g'.nodes = g.nodes) (e2 : g'.multi = g.multi) :
    nodesIn p (part d header a b c s) g' = nodesIn p d g ∧ ∀ n ∈ nodesIn p d g, UseNode p d n.id := by
  have need : ∀ x ∈ d.nodes, keepNode p.f (fun i => (g.nodes.get i).isSome) (fun i => (g.multi.get i).isSome)
      (relState p.f p.keysR d.rels).nodeRels (relState p.f p.keysR d.rels).flat (inArea p d) (readNod p.keysN x) = true → UseNode p d x.id := by
    intro x hm h
    obtain ⟨h0, hw⟩ := (keepNode_iff hp.flt _ _ _ _ _ _).1 h
    have hin : inArea p d x.id = true := by
      rcases hw.inbox with h' | h'
      · obtain ⟨n, hn⟩ := Option.isSome_iff_exists.1 h'
        exact (hu.nodes _ n hn).2
      · exact h'
    refine ⟨?_, (area_iff hx d x.id).1 hin⟩
    rcases hw.why with h | h | h
    · obtain ⟨n, hn⟩ := Option.isSome_iff_exists.1 h
      exact .inl (hu.nodes _ n hn).1
    · obtain ⟨n, hn⟩ := Option.isSome_iff_exists.1 h
      exact .inl (hu.multi _ n hn)
    · rcases hw.inbox with h' | h'
      · obtain ⟨n, hn⟩ := Option.isSome_iff_exists.1 h'
        exact .inl (hu.nodes _ n hn).1
      · refine .inr ⟨x, ⟨hm, ?_, ?_⟩, rfl⟩
        · obtain ⟨y, hy, e, hb⟩ := (area_iff hx d x.id).1 h'
          rwa [inj_of_nodup_map (·.id) hd.nodes.nodup hy hm e] at hb
        · rcases h with h | h
          · exact .inr ((in_holds hp _).2 ((member_in _ _ _ _).2.1 h))
          · exact .inl ((keep_met hp _ _).1.1 h)
  refine ⟨?_, ?_⟩
  · unfold nodesIn
    have e : (part d header a b c s).nodes.map (readNod p.keysN) = (d.nodes.filter a).map fun x => readNod p.keysN ⟨x.id, x.pos, strip s x.kids⟩ := by
      simp only [part, List.map_map]
      rfl
    rw [e, e1, e2]
    refine filter_part (readNod p.keysN) _ a _ _ d.nodes (fun x hm h => he.nodes x hm (need x hm h).1) ?_ (fun x _ => strip_node he x)
    intro x hm ha
    have hb : inArea p (part d header a b c s) x.id = inArea p d x.id :=
      (part_area hx).2 fun y hy e => by rw [inj_of_nodup_map (·.id) hd.nodes.nodup hy hm e]; exact ha
    rw [strip_node he, Bool.eq_iff_iff]
    constructor
    · intro h
      obtain ⟨h0, hw⟩ := (keepNode_iff hp.flt _ _ _ _ _ _).1 h
      refine (keepNode_iff hp.flt _ _ _ _ _ _).2 ⟨h0, hw.why.imp id (Or.imp id (Or.imp ?_ id)), hw.inbox.imp id (fun h => hb.symm.trans h), hw.nodrop⟩
      intro h
      exact (member_in _ _ _ _).2.2 (thin_down (rels_thin hp he) _ ((member_in _ _ _ _).2.1 h))
    · intro h
      have hn := need x hm h
      obtain ⟨h0, hw⟩ := (keepNode_iff hp.flt _ _ _ _ _ _).1 h
      refine (keepNode_iff hp.flt _ _ _ _ _ _).2 ⟨h0, hw.why.imp id (Or.imp id (Or.imp ?_ id)), hw.inbox.imp id (fun h => hb.trans h), hw.nodrop⟩
      intro h
      exact (member_in _ _ _ _).2.2 ((thin_in (rels_thin hp he) _).2 hn ((member_in _ _ _ _).2.1 h))
  · intro n hn
    obtain ⟨h1, h2⟩ := List.mem_filter.1 hn
    obtain ⟨x, hx', rfl⟩ := List.mem_map.1 h1
    exact need x hx' h2

theorem part_ok (hd : d.Ok) (he : Enough p d a b c s) (hh : ∃ h0 hs, header = h0 :: hs ∧ ∀ e ∈ hs, isNode e.tag = false) {x : DElem P} (hn : NeedWay p d x) :
    (part d header a b c s).Ok ∧ (part d header a b c s).ways ≠ [] := by
  have lvl : ∀ kids : List (Ev P), (∀ e ∈ kids, 3 ≤ e.level) → ∀ e ∈ strip s kids, 3 ≤ e.level := fun kids h e he => h e (List.mem_filter.1 he).1
  have plain : ∀ kids : List (Ev P), Plain kids → Plain (strip s kids) := fun kids h e he => h e (List.mem_filter.1 he).1
  refine ⟨⟨hh, ?_, ?_, ?_, ?_, ?_, ?_⟩, ?_⟩
  · obtain ⟨i, hi, y, hy, e, _⟩ := hn.inside
    intro hnil
    have : (⟨y.id, y.pos, strip s y.kids⟩ : DNode P) ∈ (part d header a b c s).nodes :=
      List.mem_map.2 ⟨y, List.mem_filter.2 ⟨hy, he.nodes y hy (.inl ⟨x, hn, e ▸ hi⟩)⟩, rfl⟩
    rw [hnil] at this
    cases this
  · refine proper_sub ⟨?_, ?_⟩ ?_
    · simp only [part, List.map_map]
      exact ((List.filter_sublist (p := a) (l := d.nodes)).map (·.id)).nodup hd.nodes.nodup
    · intro y hy
      obtain ⟨z, hz, rfl⟩ := List.mem_map.1 hy
      exact hd.nodes.nz _ (List.mem_map.2 ⟨z, (List.mem_filter.1 hz).1, rfl⟩)
    · intro y hy
      obtain ⟨z, hz, rfl⟩ := List.mem_map.1 hy
      exact lvl _ (hd.nodes.nested _ (List.mem_map.2 ⟨z, (List.mem_filter.1 hz).1, rfl⟩))
  · refine proper_sub ⟨?_, ?_⟩ ?_
    · simp only [part, List.map_map]
      exact ((List.filter_sublist (p := b) (l := d.ways)).map (·.id)).nodup hd.ways.nodup
    · intro y hy
      obtain ⟨z, hz, rfl⟩ := List.mem_map.1 hy
      exact hd.ways.nz _ (List.mem_map.2 ⟨z, (List.mem_filter.1 hz).1, rfl⟩)
    · intro y hy
      obtain ⟨z, hz, rfl⟩ := List.mem_map.1 hy
      exact lvl _ (hd.ways.nested _ (List.mem_map.2 ⟨z, (List.mem_filter.1 hz).1, rfl⟩))
  · refine proper_sub ⟨?_, ?_⟩ ?_
    · simp only [part, List.map_map]
      exact ((List.filter_sublist (p := c) (l := d.rels)).map (·.id)).nodup hd.rels.nodup
    · intro y hy
      obtain ⟨z, hz, rfl⟩ := List.mem_map.1 hy
      exact hd.rels.nz _ (List.mem_map.2 ⟨z, (List.mem_filter.1 hz).1, rfl⟩)
    · intro y hy
      obtain ⟨z, hz, rfl⟩ := List.mem_map.1 hy
      exact lvl _ (hd.rels.nested _ (List.mem_map.2 ⟨z, (List.mem_filter.1 hz).1, rfl⟩))
  · intro y hy
    obtain ⟨z, hz, rfl⟩ := List.mem_map.1 hy
    exact plain _ (hd.plainWays z (List.mem_filter.1 hz).1)
  · intro y hy
    obtain ⟨z, hz, rfl⟩ := List.mem_map.1 hy
    exact plain _ (hd.plainRels z (List.mem_filter.1 hz).1)
  · intro hnil
    have : (⟨x.id, strip s x.kids⟩ : DElem P) ∈ (part d header a b c s).ways := List.mem_map.2 ⟨x, List.mem_filter.2 ⟨hn.mem, he.ways x hn⟩, rfl⟩
    rw [hnil] at this
    cases this

end

/-! ### the graph -/

section
variable {p : Par P Info Str D} {d : Doc P} {header : List (Ev P)} {a : DNode P → Bool} {b c : DElem P → Bool} {s : Str → Bool}

open Classical in
theorem part_graph (n : Naming) (hd : d.Ok) (hp : Reader p) (hx : Exact p) (he : Enough p d a b c s)
    (hh : ∃ h0 hs, header = h0 :: hs ∧ ∀ e ∈ hs, isNode e.tag = false) {x : DElem P} (hn : NeedWay p d x) :
    build (filePar n p (part d header a b c s).tags) (part d header a b c s).tags = build (filePar n p d.tags) d.tags := by
  obtain ⟨hd', hn2⟩ := part_ok (header := header) hd he hh hn
  have hn1 : d.ways ≠ [] := List.ne_nil_of_mem hn.mem
  have hws := part_ways (header := header) hp hx he
  have hthin := rels_thin (header := header) hp he
  have hrows := thin_rows hthin
  have hon := ways_on (d := d) hp hx
  have har : ∀ i, OnWay p d i → inArea p (part d header a b c s) i = inArea p d i := fun i hi =>
    (part_area hx).2 fun y hy e => he.nodes y hy (.inl (e ▸ hi))
  have htu : ∀ i, OnWay p d i → noTurn p (part d header a b c s) i = noTurn p d i := fun i hi =>
    part_turn hp hx he fun y hy e => he.nodes y hy (.inl (e ▸ hi))
  have wfW : ∀ y ∈ waysIn p d, FMap.WF y.attrs := by
    intro y hy
    obtain ⟨h1, _⟩ := List.mem_filter.1 hy
    obtain ⟨z, _, rfl⟩ := List.mem_map.1 h1
    exact attrsOf_wf _ _ _ FMap.WF.nil
  have wfR : ∀ sel i, Match Same (rows sel i (relsIn p d)) (rows sel i (relsIn p d)) := by
    intro sel i
    refine match_self fun y hy => same_refl ?_
    obtain ⟨r, hr, h1⟩ := List.mem_flatMap.1 hy
    obtain ⟨z, _, hk⟩ := List.mem_filterMap.1 hr
    obtain ⟨_, _, rfl⟩ := (keepRel_iff hp.flt _ _).1 hk
    rw [List.eq_of_mem_replicate h1]
    exact attrsOf_wf _ _ _ FMap.WF.nil
  have hmw : Match (Alike fun i => decide (WayId p d i)) (waysIn p d) (waysIn p d) :=
    match_self fun y hy => ⟨decide_eq_true (hon y hy).1, rfl, rfl, same_refl (wfW y hy)⟩
  have ru : ∀ d : Doc P, d.ways ≠ [] → seenRels d.ways d.rels = d.rels := fun d h => by rw [seenRels, if_neg h]
  have ru' : ∀ d : Doc P, d.ways ≠ [] → relsOf d = d.rels := fun d h => by rw [relsOf, if_neg h]
  obtain ⟨f1, f2⟩ := file_rels p d hd
  obtain ⟨f1', f2'⟩ := file_rels p _ hd'
  rw [ru' d hn1] at f1 f2
  rw [ru' _ hn2] at f1' f2'
  change fileRels p d.tags = (relsIn p d).foldl addRel ⟨[], [], [], []⟩ at f1
  change fileRels p (part d header a b c s).tags = (relsIn p (part d header a b c s)).foldl addRel ⟨[], [], [], []⟩ at f1'
  change fileWays p d.tags = waysIn p d at f2
  change fileWays p (part d header a b c s).tags = waysIn p (part d header a b c s) at f2'
  -- lines
  have hlines : (fileLines n p (part d header a b c s).tags).map (·.1) = (fileLines n p d.tags).map (·.1) := by
    unfold fileLines
    rw [f1, f1', f2, f2', hws]
    exact (wayLines_same n (rs := fun i => rows (·.ways) i (relsIn p d)) (rs' := fun i => rows (·.ways) i (relsIn p (part d header a b c s))) hmw
      (fun y _ => way_lists _ _) (fun y _ => way_lists _ _) (fun y hy => by rw [hrows.1 _ (hon y hy).1]; exact wfR _ _) ⟨[], [], []⟩ ⟨[], [], []⟩
      (fun k q h => by cases h) (fun k q h => by cases h) rfl rfl).symm
  obtain ⟨p1, hp1⟩ : ∃ p1, p1 = filePar n p d.tags := ⟨_, rfl⟩
  obtain ⟨p2, hp2⟩ : ∃ p2, p2 = filePar n p (part d header a b c s).tags := ⟨_, rfl⟩
  rw [← hp1, ← hp2]
  have lns : ∀ e e' : GEdge, ESim (fun i => decide (WayId p d i)) e e' → p2.lines e'.way = p1.lines e.way := by
    intro e e' h
    rw [hp1, hp2]
    show ((((fileLines n p (part d header a b c s).tags).map (·.1)).getD []).lookup e'.way.id).getD [] =
      ((((fileLines n p d.tags).map (·.1)).getD []).lookup e.way.id).getD []
    rw [hlines, h.way.id]
  have trk : ∀ e e' : GEdge, ESim (fun i => decide (WayId p d i)) e e' → p2.track e'.way = p1.track e.way := by
    intro e e' h
    rw [hp1, hp2]
    show (Attrs.wayTrack n (fileRels p (part d header a b c s).tags) e'.way).getD none = (Attrs.wayTrack n (fileRels p d.tags) e.way).getD none
    unfold Attrs.wayTrack
    have hk := of_decide_eq_true h.way.kept
    rw [f1, f1', h.way.id, firstMatch_congr _ n.edges fun r => getAttr_same r (way_lists (relsIn p d) e.way.id)
      (way_lists (relsIn p (part d header a b c s)) e.way.id) (by rw [hrows.1 _ hk]; exact wfR _ _) h.way.attrs]
  have inf : ∀ m : Nod P, FMap.WF m.attrs → UseNode p d m.id → p2.info m = p1.info m := by
    intro m h hN
    rw [hp1, hp2]
    show (Attrs.getStatInfo n m.id m.attrs (fileRels p (part d header a b c s).tags).nodeRels (fileRels p (part d header a b c s).tags).rels).getD none =
      (Attrs.getStatInfo n m.id m.attrs (fileRels p d.tags).nodeRels (fileRels p d.tags).rels).getD none
    rw [f1, f1', statInfo_same n (node_lists (relsIn p d) m.id) (node_lists (relsIn p (part d header a b c s)) m.id)
      (by rw [hrows.2 _ hN]; exact wfR _ _) (same_refl h)]
  -- the map
  have r1 : readMap p1 d.tags = (nodesIn p d ((waysIn p d).foldl (addWay (noTurn p d) (inArea p d)) GSt.init)).foldl (nodeStep p1)
      ((waysIn p d).foldl (addWay (noTurn p d) (inArea p d)) GSt.init, NState.init Nat Info) := by
    have := readMap_eq p1 d hd
    dsimp only at this
    rw [ru d hn1] at this
    rw [this, hp1]
    rfl
  have r2 : readMap p2 (part d header a b c s).tags = (nodesIn p (part d header a b c s) ((waysIn p (part d header a b c s)).foldl
      (addWay (noTurn p (part d header a b c s)) (inArea p (part d header a b c s))) GSt.init)).foldl (nodeStep p2)
      ((waysIn p (part d header a b c s)).foldl (addWay (noTurn p (part d header a b c s)) (inArea p (part d header a b c s))) GSt.init, NState.init Nat Info) := by
    have := readMap_eq p2 _ hd'
    dsimp only at this
    rw [ru _ hn2] at this
    rw [this, hp2]
    rfl
  rw [hws] at r2
  have hb : ∀ y ∈ waysIn p d, ∀ i ∈ y.nodes, noTurn p (part d header a b c s) i = noTurn p d i ∧ inArea p (part d header a b c s) i = inArea p d i :=
    fun y hy i hi => ⟨htu i ((hon y hy).2 i hi), har i ((hon y hy).2 i hi)⟩
  have g0 : GSim (P := P) (fun i => decide (WayId p d i)) GSt.init GSt.init := ⟨rfl, rfl, rfl, rfl, rfl, .nil⟩
  have u0 : Uses (P := P) (inArea p d) (OnWay p d) GSt.init := ⟨(fun i n h => by cases h), (fun i n h => by cases h)⟩
  obtain ⟨gs, us⟩ := addWays_sim hmw (fun y hy => (hon y hy).2) hb GSt.init GSt.init g0 u0
  generalize (waysIn p d).foldl (addWay (noTurn p d) (inArea p d)) GSt.init = st at *
  generalize (waysIn p d).foldl (addWay (noTurn p (part d header a b c s)) (inArea p (part d header a b c s))) GSt.init = st' at *
  obtain ⟨hns, hneed⟩ := part_nodes (header := header) hd hp hx he us gs.nodes gs.multi
  rw [hns] at r2
  have o1 : p1.o = p.o := by rw [hp1]; rfl
  have o2 : p2.o = p1.o := by rw [hp1, hp2]; rfl
  have hmn : Match (fun m m' => NSim m m' ∧ p2.info m' = p1.info m) (nodesIn p d st) (nodesIn p d st) := by
    refine match_self fun m hm => ?_
    have hwf : FMap.WF m.attrs := by
      obtain ⟨h1, _⟩ := List.mem_filter.1 hm
      obtain ⟨z, _, rfl⟩ := List.mem_map.1 h1
      exact attrsOf_wf _ _ _ FMap.WF.nil
    exact ⟨⟨rfl, rfl, same_refl hwf⟩, inf m hwf (hneed m hm)⟩
  obtain ⟨m1, m2⟩ := nodes_sim (p := p1) (p' := p2) (by rw [o1]; exact hp.own) o2 hmn (c := (st, NState.init Nat Info)) (c' := (st', NState.init Nat Info)) gs rfl
  rw [← r1, ← r2] at m1 m2
  -- turns
  have t1 : turns p1 d.tags = (waysIn p d).foldl (turnWay ((relsIn p d).foldl (readRestr p.o) Rests.init) (fun _ g => (g.src, g.dst))
      (noTurn p d) (inArea p d)) TSt.init := by
    rw [turns_eq p1 d hd hn1, hp1]; rfl
  have t2 : turns p2 (part d header a b c s).tags = (waysIn p (part d header a b c s)).foldl (turnWay ((relsIn p (part d header a b c s)).foldl (readRestr p.o)
      Rests.init) (fun _ g => (g.src, g.dst)) (noTurn p (part d header a b c s)) (inArea p (part d header a b c s))) TSt.init := by
    rw [turns_eq p2 _ hd' hn2, hp2]; rfl
  rw [hws] at t2
  have hthin' : Thin (fun i => decide (WayId p d i) = true) (UseNode p d) (relsIn p d) (relsIn p (part d header a b c s)) := by
    simpa only [decide_eq_true_eq] using hthin
  have hq := thin_rests (o := p.o) hthin' Rests.init Rests.init (fun _ => ⟨rfl, rfl⟩)
  have hid : ∀ y ∈ waysIn p d, (fun i => decide (WayId p d i)) y.id = true := fun y hy => decide_eq_true (hon y hy).1
  rw [← turnWays_prune (W := fun i => decide (WayId p d i)) _ _ _ _ _ hid] at t1 t2
  have ts := turnWays_sim hmw (fun y hy => (hon y hy).2) hb (fun i _ _ => hq i) TSt.init TSt.init ⟨g0, rfl, rfl⟩ u0
  rw [← t1, ← t2] at ts
  -- the graph
  have es : (readMap p2 (part d header a b c s).tags).1.edges.foldl (readEdge p2) [] = (readMap p1 d.tags).1.edges.foldl (readEdge p1) [] :=
    readEdge_sim (by rw [o1]; exact hp.own) o2 (m1.edges.mono fun x y h => ⟨h, lns x y h⟩) []
  have et := tracks_sim (m1.edges.mono fun x y h => ⟨h, trk x y h⟩)
  have hraw : raw p2 (part d header a b c s).tags = raw p1 d.tags := by
    unfold raw
    dsimp only
    rw [es, et, ts.flags, ts.ops, m2, m1.next, m1.geom]
    rw [hp1, hp2]
    rfl
  unfold build
  dsimp only
  rw [hraw, m1.orphans]
  rw [hp1, hp2]
  rfl

end

end Verif.Fetch
