import Verif.Attrs.Lemmas
import Verif.Intern.Props
import Verif.Whole.StationProps

/-!
# Names, tracks and lines from the file (properties)

C78: stations and edges of the routing graph carry the names, tracks and lines that the rules find in the file.
-/

set_option linter.unusedSectionVars false
set_option linter.unusedSimpArgs false

namespace Verif.Attrs
open Verif.Names (Str)
open Verif.Osm Verif.Whole Verif.Payload Verif.Snap
open Verif.Finish (Fin)

variable {P D : Type}

/-! ### specification -/

/-- The relations that count. (The first one is passed over if there are no ways, as in C31.) -/
def relsOf (d : Doc P) : List (DElem P) := if d.ways = [] then d.rels.drop 1 else d.rels

/-- The info a station gets. -/
structure Told (n : Naming) (f : Flt) (d : Doc P) (x : DNode P) (s : Info) : Prop where
  names : Names n f (relsOf d) x (s.name :: s.alts)
  track : Platform n f (relsOf d) x s.track

/-- The station `j` of the graph is the station `x` of the file: it has all its names, and its platform if there is one. -/
structure Is (n : Naming) (p : Par P Info Str D) (d : Doc P) (x : DNode P) (j : Info) : Prop where
  tagged : Met p.o.station NODE x.kids
  names : Names n p.f (relsOf d) x (j.name :: j.alts)
  track : ∀ t, Platform n p.f (relsOf d) x t → t ≠ [] → j.track = t

/-- Stations of the file and of the graph. -/
structure NamedStations (n : Naming) (p : Par P Info Str D) (d : Doc P) (ways : List Way) (br : DElem P → Rel) (bn : DNode P → Nod P)
    (at_ : Nat → Option Place) (g : Fin P Info Nat) : Prop where
  /-- A station on ways, with a name, is a station with this name at the same place. -/
  on : ∀ x ∈ d.nodes, Met p.o.station NODE x.kids → ∀ nm alts, Names n p.f (relsOf d) x (nm :: alts) → ∀ u q, at_ u = some q → q.node = x.id →
    noTurn p d x.id = false ∨ inArea p d x.id = true → u ∈ g.nds ∧ g.pos u = x.pos ∧ ∃ j, g.pl.getSI u = some (some j) ∧ Is n p d x j
  /-- So is a wanted one beside the ways. -/
  off : ∀ x ∈ d.nodes, Met p.o.station NODE x.kids → ∀ nm alts, Names n p.f (relsOf d) x (nm :: alts) → Off p d ways br bn x →
    ∃ u ∈ g.nds, g.pos u = x.pos ∧ ∃ j, g.pl.getSI u = some (some j) ∧ Is n p d x j
  /-- All stations of the graph are stations of the file. -/
  only : ∀ u ∈ g.nds, ∀ j, g.pl.getSI u = some (some j) → ∃ x ∈ d.nodes, Is n p d x j

/-! ### infos -/

/-- Info of names and platform. -/
def infoOf : List Str → Str → Option Info
  | [], _ => none
  | a :: l, t => some ⟨a, l, t⟩

theorem file_rels {S T : Type} (p : Par P S T D) (d : Doc P) (hd : d.Ok) :
    fileRels p d.tags = relState p.f p.keysR (relsOf d) ∧
    fileWays p d.tags = (d.ways.map (readWay p.keysW)).filter (keepWay p.f (relState p.f p.keysR (relsOf d)).wayRels
      (relState p.f p.keysR (relsOf d)).flat (inArea p d)) := by
  obtain ⟨h0, hs, hh, hh'⟩ := hd.head
  have e1 : skipUntil .node d.tags =
      flat (d.nodes.map DNode.el) ++ (flat (d.ways.map DElem.way) ++ flat (d.rels.map DElem.rel)) := by
    rw [Doc.tags, hh]
    exact skip_node h0 hs hh' d.nodes hd.some _
  have e2 : bboxGo p.bbox (fNohup p.o) (flat (d.nodes.map DNode.el) ++ (flat (d.ways.map DElem.way) ++ flat (d.rels.map DElem.rel)))
      false 0 = (passReport p.bbox (fNohup p.o) d.nodes, flat (d.ways.map DElem.way) ++ flat (d.rels.map DElem.rel)) :=
    bboxGo_first p.bbox (fNohup p.o) d.nodes hd.some
    (fun x hx => hd.nodes.nz _ (List.mem_map.2 ⟨x, hx, rfl⟩))
    (fun x hx => hd.nodes.nested _ (List.mem_map.2 ⟨x, hx, rfl⟩)) _ (rest_level d.ways d.rels)
  have e3 : readRels p.keysR p.f (skipUntil .relation (flat (d.ways.map DElem.way) ++ flat (d.rels.map DElem.rel))) =
      relState p.f p.keysR (relsOf d) := by
    rw [skip_rel d.ways d.rels hd.plainWays hd.plainRels, readRels]
    rw [show (if d.ways = [] then d.rels.drop 1 else d.rels) = seenRels d.ways d.rels from rfl,
      read_rels p.f p.keysR _ (proper_seen d.ways hd.rels)]
    rfl
  have e0 : fileRels p d.tags = relState p.f p.keysR (relsOf d) := by
    unfold fileRels
    rw [e1, e2]
    exact e3
  refine ⟨e0, ?_⟩
  have e4 := ways_section p.keysW (keepWay p.f (relState p.f p.keysR (relsOf d)).wayRels (relState p.f p.keysR (relsOf d)).flat (inArea p d))
    (by intro w hw; simp [keepWay] at hw; exact hw.1.1.1.1) d.ways hd.ways _ (stops_ways_rels d.rels)
  unfold fileWays
  simp only
  rw [e0, e1, e2]
  simp only
  rw [show p.box (passReport p.bbox (fNohup p.o) d.nodes) = inArea p d from rfl, e4]

theorem rels_nz {d : Doc P} (hd : d.Ok) : ∀ y ∈ relsOf d, y.id ≠ 0 :=
  fun y hy => hd.rels.nz _ (List.mem_map.2 ⟨y, seen_sub _ _ y hy, rfl⟩)

section
variable {n : Naming} {p : Par P Info Str D} (hf : p.f.Ok) (hk : KeepsTags n p.f p.keysN p.keysW p.keysR) {d : Doc P} (hd : d.Ok)
include hf hk hd

theorem node_value (x : DNode P) (nd : Nod P) (hx : ReadsNode p.keysN x nd) (s : Rule) (hs : s ∈ n.names ++ n.platforms) :
    ∃ v, getAttr s nd.id nd.attrs (fileRels p d.tags).nodeRels (fileRels p d.tags).rels = some v ∧ Value p.f (relsOf d) .node x.id x.kids s v := by
  rw [(file_rels p d hd).1]
  have hinv := relState_inv p.f p.keysR (relsOf d)
  rw [hinv.rels, hx.id]
  exact getAttr_value hf hk.keep hk.drop (rels_nz hd) s x.id .node x.kids nd.attrs hx.attrs (hk.node s hs)
    (hk.rel s (List.mem_append.2 (Or.inl hs))) _ (fun r => r.nodes) (fun y => (readRel_spec p.keysR y).nodes)
    (fun r r' h => (keepRel_same hf h).2.1) hinv.nodes ((relState_sorted _ _ _).nodes _)

theorem way_value (x : DElem P) (w : Way) (hx : ReadsWay p.keysW x w) (s : Rule) (hs : s ∈ n.edges) :
    ∃ v, getAttr s w.id w.attrs (fileRels p d.tags).wayRels (fileRels p d.tags).rels = some v ∧ Value p.f (relsOf d) .way x.id x.kids s v := by
  rw [(file_rels p d hd).1]
  have hinv := relState_inv p.f p.keysR (relsOf d)
  rw [hinv.rels, hx.id]
  exact getAttr_value hf hk.keep hk.drop (rels_nz hd) s x.id .way x.kids w.attrs hx.attrs (hk.way s hs)
    (hk.rel s (List.mem_append.2 (Or.inr hs))) _ (fun r => r.ways) (fun y => (readRel_spec p.keysR y).ways)
    (fun r r' h => (keepRel_same hf h).2.2) hinv.ways ((relState_sorted _ _ _).ways _)

theorem statInfo_spec (x : DNode P) (nd : Nod P) (hx : ReadsNode p.keysN x nd) :
    ∃ names platform, Names n p.f (relsOf d) x names ∧ Platform n p.f (relsOf d) x platform ∧
      getStatInfo n nd.id nd.attrs (fileRels p d.tags).nodeRels (fileRels p d.tags).rels =
        some (infoOf names platform) := by
  obtain ⟨vals, v1, v2⟩ := ranked_spec (fun v => n.statNorm (n.decode v)) nd.id nd.attrs (fileRels p d.tags).nodeRels (fileRels p d.tags).rels
    (Value p.f (relsOf d) .node x.id x.kids) n.names [] (fun s hs => node_value hf hk hd x nd hx s (by simp [hs]))
  obtain ⟨vals', r, w1, w2, w3⟩ := firstMatch_spec (fun v => n.trackNorm (n.decode v)) nd.id nd.attrs (fileRels p d.tags).nodeRels
    (fileRels p d.tags).rels (Value p.f (relsOf d) .node x.id x.kids) n.platforms (fun s hs => node_value hf hk hd x nd hx s (by simp [hs]))
  refine ⟨_, r, ⟨vals, v1, rfl⟩, ⟨vals', w1, w3⟩, ?_⟩
  rw [List.nil_append] at v2
  unfold getStatInfo
  rw [v2, w2]
  cases (vals.map fun v => n.statNorm (n.decode v)).filter (· ≠ []) <;> rfl

end

theorem Names.unique {n : Naming} {f : Flt} {rels : List (DElem P)} {x : DNode P} {l l' : List Str} (h : Names n f rels x l)
    (h' : Names n f rels x l') : l = l' := by
  obtain ⟨v, h1, rfl⟩ := h
  obtain ⟨v', h1', rfl⟩ := h'
  rw [match_unique (R := Value f rels .node x.id x.kids) (fun _ _ _ => Value.unique) h1 h1']

theorem Platform.unique {n : Naming} {f : Flt} {rels : List (DElem P)} {x : DNode P} {l l' : Str} (h : Platform n f rels x l)
    (h' : Platform n f rels x l') : l = l' := by
  obtain ⟨v, h1, h2⟩ := h
  obtain ⟨v', h1', h2'⟩ := h'
  rw [match_unique (R := Value f rels .node x.id x.kids) (fun _ _ _ => Value.unique) h1 h1'] at h2
  exact h2.unique h2'

/-- C78. The info of a node holds exactly what the rules find in the file: all names in the order of the rules, and the first platform; there is
no info if there is no name. Looking for them never leaves the lists of relations. -/
theorem C78_info (n : Naming) (p : Par P Info Str D) (hf : p.f.Ok) (hk : KeepsTags n p.f p.keysN p.keysW p.keysR) (d : Doc P) (hd : d.Ok)
    (x : DNode P) (nd : Nod P) (hx : ReadsNode p.keysN x nd) :
    getStatInfo n nd.id nd.attrs (fileRels p d.tags).nodeRels (fileRels p d.tags).rels ≠ none ∧
    ((filePar n p d.tags).info nd = none ↔ Names n p.f (relsOf d) x []) ∧
    ∀ s, (filePar n p d.tags).info nd = some s ↔ Told n p.f d x s := by
  obtain ⟨names, platform, h1, h2, h3⟩ := statInfo_spec hf hk hd x nd hx
  have e : (filePar n p d.tags).info nd = infoOf names platform := by
    show (getStatInfo n nd.id nd.attrs (fileRels p d.tags).nodeRels (fileRels p d.tags).rels).getD none = _
    rw [h3]; rfl
  refine ⟨by rw [h3]; simp, ?_, ?_⟩
  · rw [e]
    constructor
    · intro h
      cases names with
      | nil => exact h1
      | cons a l => cases h
    · intro h
      rw [h1.unique h]
      rfl
  · intro s
    rw [e]
    constructor
    · intro h
      cases names with
      | nil => cases h
      | cons a l =>
        cases h
        exact ⟨h1, h2⟩
    · rintro ⟨k1, k2⟩
      have e1 := h1.unique k1
      subst e1
      rw [h2.unique k2]
      rfl

/-- C78. The track of a way is the first one the rules find. -/
theorem C78_track (n : Naming) (p : Par P Info Str D) (hf : p.f.Ok) (hk : KeepsTags n p.f p.keysN p.keysW p.keysR) (d : Doc P) (hd : d.Ok)
    (x : DElem P) (w : Way) (hx : ReadsWay p.keysW x w) :
    wayTrack n (fileRels p d.tags) w ≠ none ∧
    ∃ t, Track n p.f (relsOf d) x t ∧ (filePar n p d.tags).track w = if t = [] then none else some t := by
  obtain ⟨vals', r, w1, w2, w3⟩ := firstMatch_spec (fun v => n.trackNorm (n.decode v)) w.id w.attrs (fileRels p d.tags).wayRels
    (fileRels p d.tags).rels (Value p.f (relsOf d) .way x.id x.kids) n.edges (fun s hs => way_value hf hk hd x w hx s hs)
  have e : wayTrack n (fileRels p d.tags) w = some (if r = [] then none else some r) := by
    unfold wayTrack
    rw [w2]; rfl
  refine ⟨by rw [e]; simp, r, ⟨vals', w1, w3⟩, ?_⟩
  show (wayTrack n (fileRels p d.tags) w).getD none = _
  rw [e]; rfl

/-! ### lines -/

theorem has_unique {kids : List (Ev P)} {k v w : Str} (h : Has kids k v) (h' : Has kids k w) : v = w := by
  unfold Has at h h'
  rw [h] at h'
  exact Option.some.inj h'

theorem FirstTag.unique {norm : Str → Str} {kids : List (Ev P)} {ks : List Str} {s s' : Str} (h : FirstTag norm kids ks s)
    (h' : FirstTag norm kids ks s') : s = s' := by
  induction h with
  | none => cases h'; rfl
  | here h1 h2 =>
    cases h' with
    | here h3 _ => rw [has_unique h1 h3]
    | next h3 _ => exact absurd (h3 _ h1) h2
  | next h1 _ ih =>
    cases h' with
    | here h3 h4 => exact absurd (h1 _ h3) h4
    | next _ h4 => exact ih h4

theorem firstTag_of {norm : Str → Str} {kids : List (Ev P)} {attrs : Osm.Attrs} {keys : List Str} (hw : FMap.WF attrs)
    (ha : ∀ k, FMap.get attrs k = kidVal keys kids k) {ks : List Str} (hks : ∀ k ∈ ks, k ∈ keys) {s : Str}
    (h : Intern.FirstName norm attrs ks s) : FirstTag norm kids ks s := by
  have mem : ∀ k ∈ keys, ∀ v, (k, v) ∈ attrs ↔ Has kids k v := by
    intro k hk v
    rw [← kidVal_has hk, ← ha]
    exact ⟨FMap.get_of_mem hw, FMap.mem_of_get⟩
  induction h with
  | none => exact .none
  | here k ks v h1 h2 => exact .here ((mem k (hks k (by simp)) v).1 h1) h2
  | next k ks s h1 _ ih =>
    exact .next (fun v hv => h1 v ((mem k (hks k (by simp)) v).2 hv)) (ih fun k hk => hks k (by simp [hk]))

theorem LineNames.unique {n : Naming} {y : DElem P} {l l' : Str × Str × Str} (h : LineNames n y l) (h' : LineNames n y l') : l = l' := by
  obtain ⟨a, b, c⟩ := l
  obtain ⟨a', b', c'⟩ := l'
  have h1 : a = a' := h.short.unique h'.short
  have h2 : b = b' := h.from_.unique h'.from_
  have h3 : c = c' := h.to_.unique h'.to_
  rw [h1, h2, h3]

/-- Table of the lines of ways. -/
def Lists (n : Naming) (rels : RelSt) (heap : List Intern.Line) (w : Way) (e : Nat × List Nat) : Prop :=
  e.1 = w.id ∧ Intern.Points heap e.2 ((((rels.wayRels.get w.id).getD []).map (Intern.relNames n.noColor n.line rels.rels)).filter (fun x => Intern.Named x))

theorem wayLines_spec (n : Naming) (rels : RelSt) : ∀ (ws : List Way) (seen : List Nat) (st : Intern.St),
    (∀ w ∈ ws, ∀ i ∈ (rels.wayRels.get w.id).getD [], i < rels.rels.length) → Intern.Ok n.noColor n.line rels.rels seen st →
    ∃ tbl st' seen', wayLines n rels ws st = some (tbl, st') ∧ Intern.Ok n.noColor n.line rels.rels seen' st' ∧ st.heap <+: st'.heap ∧
      Match (Lists n rels st'.heap) ws tbl := by
  intro ws
  induction ws with
  | nil => intro seen st _ hok; exact ⟨[], st, seen, rfl, hok, List.prefix_refl _, .nil⟩
  | cons w ws ih =>
    intro seen st hlt hok
    have hlt' : ∀ w ∈ ws, ∀ i ∈ (rels.wayRels.get w.id).getD [], i < rels.rels.length := fun x hx => hlt x (by simp [hx])
    rw [wayLines]
    cases he : rels.wayRels.get w.id with
    | none =>
      obtain ⟨tbl, st', seen', h1, h2, h3, h4⟩ := ih seen st hlt' hok
      refine ⟨(w.id, []) :: tbl, st', seen', by simp only [h1]; rfl, h2, h3, .cons ⟨rfl, ?_⟩ h4⟩
      rw [he]
      rfl
    | some ids =>
      have hw := hlt w (by simp)
      rw [he] at hw
      obtain ⟨ret, st1, e, a1, a2, a3⟩ := Intern.getLines_spec (o := n.line) (noColor := n.noColor) ids [] seen st [] hw hok rfl
      obtain ⟨tbl, st', seen', h1, h2, h3, h4⟩ := ih (seen ++ ids) st1 hlt' a1
      refine ⟨(w.id, ret) :: tbl, st', seen', by simp only [e, h1]; rfl, h2, a2.trans h3, .cons ⟨rfl, ?_⟩ h4⟩
      rw [he]
      rw [List.nil_append] at a3
      exact a3.mono h3

theorem match_lookup {n : Naming} {rels : RelSt} {heap : List Intern.Line} {ws : List Way} {tbl : List (Nat × List Nat)}
    (h : Match (Lists n rels heap) ws tbl) (hn : (ws.map (·.id)).Nodup) : ∀ w ∈ ws, ∃ l, tbl.lookup w.id = some l ∧ Lists n rels heap w (w.id, l) := by
  induction h with
  | nil => intro w hw; cases hw
  | @cons a b l m h1 _ ih =>
    intro w hw
    rw [List.map_cons, List.nodup_cons] at hn
    obtain ⟨b1, b2⟩ := b
    rcases List.mem_cons.1 hw with rfl | hw
    · refine ⟨b2, ?_, rfl, h1.2⟩
      have e1 : b1 = w.id := h1.1
      rw [List.lookup_cons, e1, beq_self_eq_true]
    · obtain ⟨l', h2, h3⟩ := ih hn.2 w hw
      refine ⟨l', ?_, h3⟩
      rw [List.lookup_cons]
      have : ¬ w.id = b1 := by
        intro e
        have e1 : b1 = a.id := h1.1
        exact hn.1 (List.mem_map.2 ⟨w, hw, by rw [e, e1]⟩)
      rw [beq_false_of_ne this]
      exact h2

/-- C78. The lines of the ways that are read are those of the wanted relations with a name: a line of a way is an object with the short name,
origin and destination of such a relation, and each such relation gives one. Different objects have different names. -/
theorem C78_lines (n : Naming) (p : Par P Info Str D) (hf : p.f.Ok) (hk : KeepsTags n p.f p.keysN p.keysW p.keysR) (d : Doc P) (hd : d.Ok) :
    ∃ (heap : List (Str × Str × Str)), heap.Nodup ∧ fileLines n p d.tags ≠ none ∧
      ∀ w ∈ fileWays p d.tags, (∀ l ∈ (filePar n p d.tags).lines w, ∃ nm, heap[l]? = some nm) ∧
        ∀ nm, (∃ l ∈ (filePar n p d.tags).lines w, heap[l]? = some nm) ↔ OnLine n p.f (relsOf d) w.id nm := by
  obtain ⟨e1, e2⟩ := file_rels p d hd
  have hinv := relState_inv p.f p.keysR (relsOf d)
  have hlt : ∀ w ∈ fileWays p d.tags, ∀ i ∈ ((fileRels p d.tags).wayRels.get w.id).getD [], i < (fileRels p d.tags).rels.length := by
    intro w _ i hi
    rw [e1] at hi ⊢
    obtain ⟨r, hr, _⟩ := (hinv.ways _ _).1 hi
    rw [hinv.rels, List.length_map]
    exact (List.getElem?_eq_some_iff.1 hr).1
  have hok0 : Intern.Ok n.noColor n.line (fileRels p d.tags).rels [] ⟨[], [], []⟩ :=
    ⟨List.nodup_nil, (fun _ _ h => by cases h), (fun _ _ h => by simp at h), (fun _ _ h => by cases h),
      (fun _ _ h => by simp at h), (fun _ h => by cases h)⟩
  obtain ⟨tbl, st, seen, h1, h2, _, h3⟩ := wayLines_spec n (fileRels p d.tags) (fileWays p d.tags) [] _ hlt hok0
  have hfl : fileLines n p d.tags = some (tbl, st) := h1
  have hnd : ((fileWays p d.tags).map (·.id)).Nodup := by
    rw [e2]
    refine List.Nodup.sublist (List.filter_sublist.map _) ?_
    rw [List.map_map]
    exact hd.ways.nodup
  refine ⟨st.heap.map Intern.namesOf, h2.nodup, by rw [hfl]; simp, ?_⟩
  intro w hw
  obtain ⟨ls, k1, _, k2⟩ := match_lookup h3 hnd w hw
  have hlines : (filePar n p d.tags).lines w = ls := by
    show ((((fileLines n p d.tags).map (·.1)).getD []).lookup w.id).getD [] = ls
    rw [hfl]
    show (tbl.lookup w.id).getD [] = ls
    rw [k1]; rfl
  rw [hlines]
  have k2 : ls.map (fun q => st.heap[q]?.map Intern.namesOf) = (((((fileRels p d.tags).wayRels.get w.id).getD []).map
    (Intern.relNames n.noColor n.line (fileRels p d.tags).rels)).filter (fun x => Intern.Named x)).map some := k2
  have fwd : ∀ l ∈ ls, ∃ nm, (st.heap.map Intern.namesOf)[l]? = some nm ∧
      nm ∈ ((((fileRels p d.tags).wayRels.get w.id).getD []).map (Intern.relNames n.noColor n.line (fileRels p d.tags).rels)).filter (fun x => Intern.Named x) := by
    intro l hl
    have : (fun q => st.heap[q]?.map Intern.namesOf) l ∈ ls.map (fun q => st.heap[q]?.map Intern.namesOf) := List.mem_map.2 ⟨l, hl, rfl⟩
    rw [k2] at this
    obtain ⟨nm, q1, q2⟩ := List.mem_map.1 this
    exact ⟨nm, by rw [List.getElem?_map]; exact q2.symm, q1⟩
  have bwd : ∀ nm ∈ ((((fileRels p d.tags).wayRels.get w.id).getD []).map (Intern.relNames n.noColor n.line (fileRels p d.tags).rels)).filter
      (fun x => Intern.Named x), ∃ l ∈ ls, (st.heap.map Intern.namesOf)[l]? = some nm := by
    intro nm hnm
    have : some nm ∈ (((((fileRels p d.tags).wayRels.get w.id).getD []).map
      (Intern.relNames n.noColor n.line (fileRels p d.tags).rels)).filter (fun x => Intern.Named x)).map some := List.mem_map.2 ⟨nm, hnm, rfl⟩
    rw [← k2] at this
    obtain ⟨l, q1, q2⟩ := List.mem_map.1 this
    exact ⟨l, q1, by rw [List.getElem?_map]; exact q2⟩
  -- names of a relation
  have line : ∀ (y : DElem P) r k, (( relsOf d).filterMap (fun x => keepRel p.f (readRel p.keysR x)))[k]? = some r → keepRel p.f (readRel p.keysR y) = some r →
      LineNames n y (Intern.relNames n.noColor n.line (fileRels p d.tags).rels k) := by
    intro y r k hr hy
    have hrd := readRel_spec p.keysR y
    have ea := (keepRel_same hf hy).1
    have eR : (fileRels p d.tags).rels[k]? = some r.attrs := by rw [e1, hinv.rels, List.getElem?_map, hr]; rfl
    have hwf : FMap.WF r.attrs := by rw [ea]; exact hrd.wf
    have ha : ∀ k, FMap.get r.attrs k = kidVal p.keysR y.kids k := by rw [ea]; exact hrd.attrs
    have D := Intern.lineOf_spec n.noColor n.line (attrs := r.attrs) hwf
    unfold Intern.relNames
    rw [eR]
    exact ⟨firstTag_of hwf ha (fun k hk' => hk.line k (by simp only [List.mem_append]; exact Or.inl (Or.inl (Or.inl hk')))) D.short,
      firstTag_of hwf ha (fun k hk' => hk.line k (by simp only [List.mem_append]; exact Or.inl (Or.inl (Or.inr hk')))) D.from_,
      firstTag_of hwf ha (fun k hk' => hk.line k (by simp only [List.mem_append]; exact Or.inl (Or.inr hk'))) D.to_⟩
  have all : ∀ nm, nm ∈ ((((fileRels p d.tags).wayRels.get w.id).getD []).map (Intern.relNames n.noColor n.line (fileRels p d.tags).rels)).filter
      (fun x => Intern.Named x) ↔ OnLine n p.f (relsOf d) w.id nm := by
    intro nm
    rw [List.mem_filter, List.mem_map]
    constructor
    · rintro ⟨⟨k, hk', rfl⟩, hnm⟩
      rw [e1] at hk'
      obtain ⟨r, hr, hmem⟩ := (hinv.ways _ _).1 hk'
      obtain ⟨a, y, b, s1, s2, _⟩ := filterMap_split _ _ _ _ hr
      have hy : y ∈ relsOf d := by rw [s1]; simp
      refine ⟨y, hy, (keepRel_wanted hf hk.keep hk.drop y (rels_nz hd y hy)).1 ⟨r, s2⟩, ?_, line y r k hr s2, of_decide_eq_true hnm⟩
      rw [(keepRel_same hf s2).2.2, (readRel_spec p.keysR y).ways] at hmem
      obtain ⟨z, hz, hz'⟩ := List.mem_map.1 hmem
      exact ⟨z.2, by rw [← hz']; exact hz⟩
    · rintro ⟨y, hy, hwant, ⟨role, hrole⟩, hline, hnm⟩
      obtain ⟨r, hr⟩ := (keepRel_wanted hf hk.keep hk.drop y (rels_nz hd y hy)).2 hwant
      obtain ⟨a, b, s1⟩ := List.append_of_mem hy
      have hidx := filterMap_index (fun x => keepRel p.f (readRel p.keysR x)) (l1 := a) (l2 := b) hr
      rw [← s1] at hidx
      have := line y r _ hidx hr
      refine ⟨⟨_, ?_, this.unique hline⟩, decide_eq_true hnm⟩
      rw [e1]
      refine (hinv.ways _ _).2 ⟨r, hidx, ?_⟩
      rw [(keepRel_same hf hr).2.2, (readRel_spec p.keysR y).ways]
      exact List.mem_map.2 ⟨_, hrole, rfl⟩
  refine ⟨fun l hl => ?_, fun nm => ?_⟩
  · obtain ⟨nm, q, _⟩ := fwd l hl
    exact ⟨nm, q⟩
  · rw [← all nm]
    constructor
    · rintro ⟨l, hl, hl'⟩
      obtain ⟨nm', q1, q2⟩ := fwd l hl
      rw [hl'] at q1
      cases q1
      exact q2
    · exact bwd nm

/-! ### the routing graph -/

theorem told_tracked {v : Snap.Env P Info Nat D} (h1 : v.noTrack = Info.bare) (h2 : v.copyTrack = fun a b => a.setTrack b.track) {s j : Info}
    (h : Tracked v s j) : j.name = s.name ∧ j.alts = s.alts ∧ (s.track ≠ [] → j.track = s.track) := by
  induction h with
  | refl => exact ⟨rfl, rfl, fun _ => rfl⟩
  | @set j' s' _ hn ih =>
    rw [h1] at hn
    rw [h2]
    refine ⟨ih.1, ih.2.1, fun hne => absurd (ih.2.2 hne) ?_⟩
    have : j'.track = [] := by simpa [Info.bare] using hn
    rw [this]
    exact Ne.symm hne

theorem told_fitted {n : Naming} {p : Par P Info Str D} {file : List (Ev P)} {ss : List Seg} {q : Place} {s s' : Info}
    (h : Fitted (filePar n p file) ss q s s') : s'.name = s.name ∧ s'.alts = s.alts ∧ (s.track ≠ [] → s'.track = s.track) := by
  by_cases hs : s.bare = true
  · have e : s.track = [] := by simpa [Info.bare] using hs
    by_cases ht : ∃ t ∈ ss, (t.a = q ∨ t.b = q) ∧ (filePar n p file).track t.way ≠ none
    · obtain ⟨t, _, _, x, _, rfl⟩ := h.way hs ht
      exact ⟨rfl, rfl, fun hne => absurd e hne⟩
    · rw [h.bare fun t h1 h2 => Classical.byContradiction fun h3 => ht ⟨t, h1, h2, h3⟩]
      exact ⟨rfl, rfl, fun _ => rfl⟩
  · rw [h.own (by simpa [filePar] using hs)]
    exact ⟨rfl, rfl, fun _ => rfl⟩

/-- C78. The stations of the routing graph are the stations of the file that have a name, and carry all names that the rules find for them, in order,
and the platform if there is one. (The map must be tidy, as in C77.) -/
theorem C78_stations_partial (n : Naming) (p : Par P Info Str D) (hf : p.f.Ok) (ho : FlaggedOpts p.o) (hk : KeepsTags n p.f p.keysN p.keysW p.keysR)
    (hst : ∀ k ∈ p.o.station.keys, k ∈ p.keysN) (hto : ∀ l, (p.trackOrder l).Perm l) (hoo : ∀ l, (p.orphOrder l).Perm l)
    (hord : ∀ x l, (p.cfg.snap.order x l).Perm l) (hn : ∀ n u, u ∈ p.cfg.nds n ↔ u < n)
    (d : Doc P) (hd : d.Ok) (hsm : (build (filePar n p d.tags) d.tags).pl.infos.length < u32max - 1) :
    ∃ (ways : List Way) (at_ : Nat → Option Place) (br : DElem P → Rel) (bn : DNode P → Nod P),
      Kept p d ways ∧ (∀ u v q, at_ u = some q → at_ v = some q → u = v) ∧ (∀ x, ReadsRel p.keysR x (br x)) ∧ (∀ x, ReadsNode p.keysN x (bn x)) ∧
      (Tidy p d (mapSegs p d ways) → NamedStations n p d ways br bn at_ (build (filePar n p d.tags) d.tags)) := by
  have hset : ∀ w t s, (filePar n p d.tags).track w = some t → (filePar n p d.tags).noTrack ((filePar n p d.tags).setTrack t s) = false := by
    intro w t s hw
    have hw : (wayTrack n (fileRels p d.tags) w).getD none = some t := hw
    unfold wayTrack at hw
    show t.isEmpty = false
    cases he : firstMatch (fun v => n.trackNorm (n.decode v)) w.id w.attrs (fileRels p d.tags).wayRels (fileRels p d.tags).rels n.edges with
    | none => rw [he] at hw; cases hw
    | some r =>
      rw [he] at hw
      have hw : (if r = [] then none else some r) = some t := hw
      by_cases hr : r = []
      · rw [if_pos hr] at hw; cases hw
      · rw [if_neg hr] at hw
        cases hw
        simpa using hr
  obtain ⟨ways, at_, br, bn, h1, h2, h3, h4, h5⟩ := C77_stations_partial (filePar n p d.tags) hf ho hto hset hoo hord hn d hd hsm
  refine ⟨ways, at_, br, bn, h1, h2, h3, h4, fun ht => ?_⟩
  have ht' : Tidy (filePar n p d.tags) d (mapSegs (filePar n p d.tags) d ways) := ⟨ht.self, ht.sense, ht.opp, ht.known, ht.apart⟩
  have S := h5 ht'
  have tag : ∀ x, Hits p.o.station NODE (bn x).attrs ↔ Met p.o.station NODE x.kids := fun x => hits_met hst NODE (h4 x).wf (h4 x).attrs
  have info := fun x => C78_info n p hf hk d hd x (bn x) (h4 x)
  have tell : ∀ x, Met p.o.station NODE x.kids → ∀ nm alts, Names n p.f (relsOf d) x (nm :: alts) →
      ∃ t, Makes (filePar n p d.tags) (bn x) (.station ⟨nm, alts, t⟩) ∧ Platform n p.f (relsOf d) x t := by
    intro x hx nm alts hnm
    obtain ⟨names, platform, _, k2, _⟩ := statInfo_spec hf hk hd x (bn x) (h4 x)
    exact ⟨platform, ⟨(tag x).2 hx, ((info x).2.2 ⟨nm, alts, platform⟩).2 ⟨hnm, k2⟩⟩, k2⟩
  have is : ∀ x s j, Told n p.f d x s → Met p.o.station NODE x.kids → j.name = s.name ∧ j.alts = s.alts ∧ (s.track ≠ [] → j.track = s.track) →
      Is n p d x j := by
    rintro x s j ⟨k1, k2⟩ hm ⟨e1, e2, e3⟩
    refine ⟨hm, by rw [e1, e2]; exact k1, fun t ht hne => ?_⟩
    have := ht.unique k2
    subst this
    exact e3 hne
  have two : ∀ {s s' j : Info}, (s'.name = s.name ∧ s'.alts = s.alts ∧ (s.track ≠ [] → s'.track = s.track)) →
      (j.name = s'.name ∧ j.alts = s'.alts ∧ (s'.track ≠ [] → j.track = s'.track)) →
      j.name = s.name ∧ j.alts = s.alts ∧ (s.track ≠ [] → j.track = s.track) := by
    rintro s s' j ⟨a1, a2, a3⟩ ⟨b1, b2, b3⟩
    refine ⟨b1.trans a1, b2.trans a2, fun h => ?_⟩
    have := a3 h
    rw [b3 (by rw [this]; exact h), this]
  refine ⟨?_, ?_, ?_⟩
  · intro x hx hm nm alts hnm u q hu hq harea
    obtain ⟨t, hmk, hp⟩ := tell x hm nm alts hnm
    obtain ⟨g1, g2, s', j, g3, g4, g5⟩ := S.on x hx u q hu hq harea _ hmk
    exact ⟨g1, g2, j, g4, is x ⟨nm, alts, t⟩ j ⟨hnm, hp⟩ hm (two (told_fitted g3) (told_tracked rfl rfl g5))⟩
  · intro x hx hm nm alts hnm hoff
    obtain ⟨t, hmk, hp⟩ := tell x hm nm alts hnm
    obtain ⟨u, _, g1, g2, j, g4, g5⟩ := S.off x hx ⟨hoff.away, hoff.why, hoff.inside, hoff.nodrop⟩ _ hmk
    exact ⟨u, g1, g2, j, g4, is x ⟨nm, alts, t⟩ j ⟨hnm, hp⟩ hm (told_tracked rfl rfl g5)⟩
  · intro u hu j hj
    obtain ⟨x, hx, s, ⟨hm, hs⟩, hcase⟩ := S.only u hu j hj
    have T := ((info x).2.2 s).1 hs
    refine ⟨x, hx, is x s j T ((tag x).1 hm) ?_⟩
    rcases hcase with ⟨q, s', _, _, g3, g5⟩ | ⟨_, g5, _⟩
    · exact two (told_fitted g3) (told_tracked rfl rfl g5)
    · exact told_tracked rfl rfl g5

theorem pieces_way {w : Way} {l : List Place} {s : Seg} (h : s ∈ pieces w l) : s.way = w := by
  induction l with
  | nil => cases h
  | cons a l ih =>
    cases l with
    | nil => cases h
    | cons b l =>
      rw [pieces] at h
      rcases List.mem_cons.1 h with rfl | h
      · rfl
      · exact ih h

theorem segs_way {noTurn area : Nat → Bool} {k : Nat} {ws : List Way} {s : Seg} (h : s ∈ segs noTurn area k ws) : s.way ∈ ws := by
  induction ws generalizing k with
  | nil => cases h
  | cons w ws ih =>
    rw [segs] at h
    rcases List.mem_append.1 h with h | h
    · rw [pieces_way h]; simp
    · exact List.mem_cons_of_mem _ (ih h)

/-- The names of the lines of the edges; `heap` holds the names of the line objects. -/
def NamedLines (n : Naming) (f : Flt) (d : Doc P) (ss : List Seg) (heap : List (Str × Str × Str)) (g : Fin P Info Nat) : Prop :=
  ∀ e ∈ g.es, e.src ≠ e.dst → (∀ l ∈ e.lines, ∃ nm, heap[l]? = some nm) ∧
    ∃ s ∈ ss, ∀ nm, (∃ l ∈ e.lines, heap[l]? = some nm) ↔ ∃ t ∈ ss, t.a = s.a ∧ t.b = s.b ∧ OnLine n f (relsOf d) t.way.id nm

/-- C78. Edges of the routing graph have exactly the lines of the wanted relations, with a name, of the ways between the same places; lines are the same
object exactly if they have the same names. -/
theorem C78_edges_partial (n : Naming) (p : Par P Info Str D) (hf : p.f.Ok) (ho : FlaggedOpts p.o) (hk : KeepsTags n p.f p.keysN p.keysW p.keysR)
    (hord : ∀ x l, (p.cfg.snap.order x l).Perm l) (hn : ∀ n u, u ∈ p.cfg.nds n ↔ u < n)
    (hsi : ∀ l, (p.cfg.simplify l).head? = l.head? ∧ (p.cfg.simplify l).getLast? = l.getLast?) (d : Doc P) (hd : d.Ok) :
    ∃ (ways : List Way) (heap : List (Str × Str × Str)), Kept p d ways ∧ heap.Nodup ∧
      (Tidy p d (mapSegs p d ways) → NamedLines n p.f d (mapSegs p d ways) heap (build (filePar n p d.tags) d.tags)) := by
  obtain ⟨ways, own, h, _, hways⟩ := base_ways (p := filePar n p d.tags) hf d hd
  obtain ⟨heap, hnd, _, hl⟩ := C78_lines n p hf hk d hd
  refine ⟨ways, heap, h.kept, hnd, fun ht => ?_⟩
  have ht' : Tidy (filePar n p d.tags) d (mapSegs (filePar n p d.tags) d ways) := ⟨ht.self, ht.sense, ht.opp, ht.known, ht.apart⟩
  have Sh := Base.shows (p := filePar n p d.tags) ho h ht' hord hn hsi
  have hw : ways = fileWays p d.tags := hways.trans (file_rels p d hd).2.symm
  intro e he hne
  obtain ⟨x, ⟨s, hs, e1, e2, _⟩, hc⟩ := Sh.made e he hne
  have inw : ∀ t ∈ mapSegs p d ways, t.way ∈ fileWays p d.tags := fun t ht => by rw [← hw]; exact segs_way ht
  refine ⟨?_, s, hs, ?_⟩
  · intro l hl'
    obtain ⟨t, ht1, _, _, ht2⟩ := (hc l).1 hl'
    exact (hl t.way (inw t ht1)).1 l ht2
  · intro nm
    constructor
    · rintro ⟨l, hl1, hl2⟩
      obtain ⟨t, ht1, a, b, ht2⟩ := (hc l).1 hl1
      exact ⟨t, ht1, a.trans e1.symm, b.trans e2.symm, ((hl t.way (inw t ht1)).2 nm).1 ⟨l, ht2, hl2⟩⟩
    · rintro ⟨t, ht1, a, b, hon⟩
      obtain ⟨l, hl1, hl2⟩ := ((hl t.way (inw t ht1)).2 nm).2 hon
      exact ⟨l, (hc l).2 ⟨t, ht1, a.trans e1, b.trans e2, hl1⟩, hl2⟩

/-! ### kept keys -/

/-- C78. The keys that pfaedle keeps while reading suffice for the rules it is given, and for the test for stations. -/
theorem C78_keys (n : Naming) (f : Flt) (o : Opts) (h1 : f.keep = o.keep) (h2 : f.drop = o.drop)
    (hs : ∀ r ∈ n.names ++ n.platforms, (r.attr, r.key) ∈ o.statRules) (he : ∀ r ∈ n.edges, (r.attr, r.key) ∈ o.edgeRules)
    (hl : ∀ k ∈ n.sName ++ n.fromName ++ n.toName ++ n.color, k ∈ o.lineRules) :
    KeepsTags n f (keptNode o) (keptWay o) (keptRel o) ∧ ∀ k ∈ o.station.keys, k ∈ keptNode o := by
  refine ⟨⟨?_, ?_, ?_, ?_, ?_, ?_⟩, ?_⟩
  · intro k hk
    rw [h1] at hk
    simp [keptRel, hk]
  · intro k hk
    rw [h2] at hk
    simp [keptRel, hk]
  · intro r hr h0
    have : r.attr ∈ (o.statRules.filter fun r => r.2.isEmpty).map (·.1) :=
      List.mem_map.2 ⟨_, List.mem_filter.2 ⟨hs r hr, by simp [h0]⟩, rfl⟩
    unfold keptNode
    exact List.mem_append_right _ this
  · intro r hr h0
    have : r.attr ∈ (o.edgeRules.filter fun r => r.2.isEmpty).map (·.1) :=
      List.mem_map.2 ⟨_, List.mem_filter.2 ⟨he r hr, by simp [h0]⟩, rfl⟩
    unfold keptWay
    exact List.mem_append_right _ this
  · intro r hr h0
    have h3 : (r.attr, r.key) ∈ o.statRules ++ o.edgeRules := by
      rcases List.mem_append.1 hr with h | h
      · exact List.mem_append_left _ (hs r h)
      · exact List.mem_append_right _ (he r h)
    have h4 : (r.attr, r.key) ∈ (o.statRules ++ o.edgeRules).filter fun r => !r.2.isEmpty :=
      List.mem_filter.2 ⟨h3, by simpa using h0⟩
    unfold keptRel
    exact ⟨List.mem_append_right _ (List.mem_flatMap.2 ⟨_, h4, by simp⟩), List.mem_append_right _ (List.mem_flatMap.2 ⟨_, h4, by simp⟩)⟩
  · intro k hk
    have := hl k hk
    simp [keptRel, this]
  · intro k hk
    simp [keptNode, hk]

/-! ### examples -/

def kNm : Str := [41]
def kPl : Str := [44]
def kRef : Str := [43]

/-- Names are those of the node, then those of its relations; the track is a tag; lines have a reference. The letter 0 is not kept. -/
def exNaming : Naming where
  names := [⟨kNm, [], []⟩, ⟨kNm, kSt, vYes⟩]
  platforms := [⟨kPl, [], []⟩]
  edges := [⟨kPl, [], []⟩]
  sName := [kRef]
  fromName := []
  toName := []
  color := []
  decode := id
  statNorm := List.filter (· ≠ 0)
  trackNorm := List.filter (· ≠ 0)
  lineNorm := List.filter (· ≠ 0)
  noColor := 0

def exNOpts : Opts :=
  { Whole.exOpts with
    keep := Turns.exKeep.keep, station := [(kSt, [(vYes, 1)])], statRules := [(kNm, []), (kNm, kSt), (kPl, [])], edgeRules := [(kPl, [])], lineRules := [kRef] }

def exNSnap : Snap.Env Nat Info Nat Int where
  inRange := fun _ _ _ _ => true
  order := fun _ l => l
  proj := fun _ p _ => p
  eqS := fun _ _ _ _ _ => none
  blocked := fun _ _ _ _ => false
  half := fun a b => a == b
  five := fun _ _ => false
  cost := fun a b _ => a + b
  maxLvl := 7
  noTrack := Info.bare
  copyTrack := fun a _ => a

def exNPar : Par Nat Info Str Int where
  o := exNOpts
  f := Turns.exKeep
  keysN := keptNode exNOpts
  keysW := keptWay exNOpts
  keysR := keptRel exNOpts
  box := exPar.box
  hup := exPar.hup
  bbox := exPar.bbox
  p0 := 0
  info := fun _ => none
  lines := fun _ => []
  track := fun _ => none
  noTrack := Info.bare
  setTrack := Info.setTrack
  trackOrder := id
  grid := fun _ _ => List.range 9
  near := fun a b => a == b
  orphOrder := id
  cfg := ⟨exNSnap, [10], [], List.range, fun e => e.src + e.dst, id, fun e => e.a.cost + 1⟩

/-- A wanted relation with a name and a reference. -/
def exLine (i : Nat) (nm ref : Str) : DElem Nat :=
  ⟨i, [⟨3, .member .way 10 []⟩, ⟨3, .member .node 4 []⟩, ⟨3, .tag kHw vHw⟩, ⟨3, .tag kSt vYes⟩, ⟨3, .tag kNm nm⟩, ⟨3, .tag kRef ref⟩]⟩

/-- Stations at 3 (named 65), at 4 (named by relations) and at 5 (not named); the way 10 has track 1. -/
def exNDoc (rels : List (DElem Nat)) : Doc Nat where
  header := [⟨0, .other⟩, ⟨1, .other⟩]
  nodes := [⟨1, 1, []⟩, ⟨3, 2, [⟨3, .tag kSt vYes⟩, ⟨3, .tag kNm [65, 0]⟩]⟩, ⟨4, 3, [⟨3, .tag kSt vYes⟩, ⟨3, .tag kPl [52]⟩]⟩,
    ⟨5, 4, [⟨3, .tag kSt vYes⟩]⟩]
  ways := [⟨10, [⟨3, .nd 1⟩, ⟨3, .nd 3⟩, ⟨3, .tag kHw vHw⟩, ⟨3, .tag kPl [49]⟩]⟩, ⟨20, [⟨3, .nd 3⟩, ⟨3, .nd 4⟩, ⟨3, .tag kHw vHw⟩]⟩,
    ⟨30, [⟨3, .nd 3⟩, ⟨3, .nd 5⟩, ⟨3, .tag kHw vHw⟩]⟩]
  rels := rels

def exND : Doc Nat := exNDoc [exLine 1 [66] [55], exLine 2 [67] [55], exLine 3 [68] [0]]

/-- The first relation has a name of which nothing remains. -/
def exHidden : Doc Nat := exNDoc [exLine 1 [0] [55], exLine 2 [66] [56]]

theorem exNDoc_ok (rels : List (DElem Nat)) (h : Proper (rels.map (·.id)) (rels.map (·.kids))) (hp : ∀ r ∈ rels, Plain r.kids) : (exNDoc rels).Ok := by
  refine ⟨⟨_, _, rfl, by simp [isNode]⟩, by simp [exNDoc], ?_, ?_, h, ?_, hp⟩
  · exact ⟨by simp [exNDoc], by simp [exNDoc], by simp [exNDoc]⟩
  · exact ⟨by simp [exNDoc], by simp [exNDoc], by simp [exNDoc]⟩
  · simp [exNDoc, Plain, isNode, isWay, isRel]

theorem exND_ok : exND.Ok :=
  exNDoc_ok _ ⟨by simp [exLine], by simp [exLine], by simp [exLine]⟩ (by simp [Plain, exLine, isNode, isWay, isRel])

theorem exHidden_ok : exHidden.Ok :=
  exNDoc_ok _ ⟨by simp [exLine], by simp [exLine], by simp [exLine]⟩ (by simp [Plain, exLine, isNode, isWay, isRel])

theorem exN_keeps : KeepsTags exNaming exNPar.f exNPar.keysN exNPar.keysW exNPar.keysR ∧ ∀ k ∈ exNPar.o.station.keys, k ∈ exNPar.keysN :=
  C78_keys exNaming exNPar.f exNOpts rfl rfl (by decide +kernel) (by decide +kernel) (by decide +kernel)

theorem exN_flagged : FlaggedOpts exNPar.o := by
  obtain ⟨a1, a2, a3, a4, a5, a6, a7, a8, a9, a10, a11⟩ := Whole.exOpts_flagged
  have one : ∀ k v, Flagged [(k, [(v, 1)])] := by
    intro k0 v k vals h r hr
    have := FMap.mem_of_get h
    simp at this
    rw [this.2] at hr
    simp at hr
    simp [hr]
  constructor
  all_goals first | assumption | exact Turns.exKeep_ok.keep | exact one _ _

def exNWays : List Way := [⟨10, [1, 3], [(kPl, [49]), (kHw, vHw)]⟩, ⟨20, [3, 4], [(kHw, vHw)]⟩, ⟨30, [3, 5], [(kHw, vHw)]⟩]

theorem exN_segs : mapSegs exNPar exND exNWays =
    [⟨.shared 1, .shared 3, exNWays[0]⟩, ⟨.shared 3, .shared 4, exNWays[1]⟩, ⟨.shared 3, .shared 5, exNWays[2]⟩] := by decide +kernel

theorem exN_tidy : Tidy exNPar exND (mapSegs exNPar exND exNWays) := by
  have na : ∀ s ∈ mapSegs exNPar exND exNWays, ¬ Against exNPar.o s.way := by
    have hm : ∀ s ∈ mapSegs exNPar exND exNWays, mk1 exNPar.o s.way ≠ 2 := by
      rw [exN_segs]
      decide +kernel
    exact fun s hs k => hm s hs ((mk1_iff exN_flagged s.way).1.2 k)
  refine ⟨?_, fun s hs t ht _ _ _ => iff_of_false (na s hs) (na t ht), Or.inr na, ?_, ?_⟩
  · rw [exN_segs]; decide +kernel
  · rw [exN_segs]
    intro s hs q hq
    simp only [List.mem_cons, List.not_mem_nil, or_false] at hs
    rcases hs with rfl | rfl | rfl <;> rcases hq with rfl | rfl <;> decide +kernel
  · rw [exN_segs]
    have hne : ∀ x ∈ exND.nodes, ∀ y ∈ exND.nodes, x.id ≠ y.id → exNPar.near y.pos x.pos = false := by decide +kernel
    intro a b ⟨s, hs, hsa, _⟩ ⟨t, ht, htb, _⟩ hab x hx y hy hxa hyb
    refine hne x hx y hy ?_
    rw [hxa, hyb]
    intro hn
    refine hab ?_
    simp only [List.mem_cons, List.not_mem_nil, or_false] at hs ht
    rcases hs with rfl | rfl | rfl <;> rcases hsa with rfl | rfl <;> rcases ht with rfl | rfl | rfl <;> rcases htb with rfl | rfl <;>
      first | rfl | (simp [Place.node] at hn)

theorem exN_kept : Kept exNPar exND exNWays := by
  refine ⟨readRel exNPar.keysR, readWay exNPar.keysW, fun _ => true, readRel_spec _, readWay_spec _, fun x hx => ⟨fun _ => ?_, fun _ => rfl⟩,
    by rw [List.filter_eq_self.2 fun _ _ => rfl]; decide +kernel⟩
  have hw : ∀ x ∈ exND.ways, 2 ≤ (kidRefs x.kids).length ∧ contained exNPar.f.keep WAY (readWay exNPar.keysW x).attrs ≠ 0 ∧
    ∃ n ∈ kidRefs x.kids, inArea exNPar exND n = true := by decide +kernel
  obtain ⟨h1, h2, h3⟩ := hw x hx
  have hr := (readWay_spec exNPar.keysW x).nodes
  refine ⟨by rw [hr]; exact h1, Or.inr ((contained_iff Turns.exKeep_ok.keep WAY _).1 h2), ?_, ?_⟩
  · rintro ⟨_, _, vals, h, _⟩
    cases h
  · rw [hr]; exact h3

/-- The hypotheses of C78 hold for the example. The station at 3 has its own name and the track of the way 10; the station at 4 has the name that the first
relation gives, and its own track; the station at 5 has no name and is none. The way 10 has one line, as the two relations with a reference have the
same one. -/
example : exNPar.f.Ok ∧ FlaggedOpts exNPar.o ∧ KeepsTags exNaming exNPar.f exNPar.keysN exNPar.keysW exNPar.keysR ∧
    (∀ k ∈ exNPar.o.station.keys, k ∈ exNPar.keysN) ∧ (∀ l, (exNPar.trackOrder l).Perm l) ∧ (∀ l, (exNPar.orphOrder l).Perm l) ∧
    (∀ x l, (exNPar.cfg.snap.order x l).Perm l) ∧ (∀ n u, u ∈ exNPar.cfg.nds n ↔ u < n) ∧
    (∀ l, (exNPar.cfg.simplify l).head? = l.head? ∧ (exNPar.cfg.simplify l).getLast? = l.getLast?) ∧ exND.Ok ∧
    (build (filePar exNaming exNPar exND.tags) exND.tags).pl.infos.length < u32max - 1 ∧ Kept exNPar exND exNWays ∧
    Tidy exNPar exND (mapSegs exNPar exND exNWays) ∧
    ((List.range 4).map fun u => (build (filePar exNaming exNPar exND.tags) exND.tags).pl.getSI u) =
      [some none, some (some ⟨[65], [], [49]⟩), some (some ⟨[66], [], [52]⟩), some none] ∧
    ((build (filePar exNaming exNPar exND.tags) exND.tags).es.map fun e => (e.src, e.dst, e.lines)) =
      [(0, 1, [0]), (1, 2, []), (1, 3, []), (1, 0, [0]), (2, 1, []), (3, 1, []), (2, 2, [])] :=
  ⟨Turns.exKeep_ok, exN_flagged, exN_keeps.1, exN_keeps.2, fun _ => .refl _, fun _ => .refl _, fun _ _ => .refl _, fun n u => List.mem_range,
    fun _ => ⟨rfl, rfl⟩, exND_ok, by decide +kernel, exN_kept, exN_tidy, by decide +kernel, by decide +kernel⟩

/-- C78, negation: a station is lost, although a rule has a relation that names it, if an earlier relation has a name of which nothing remains. -/
theorem C78_negation_hidden : exHidden.Ok ∧
    (∃ x ∈ exHidden.nodes, x.id = 4 ∧ Met exNPar.o.station NODE x.kids) ∧
    (∃ r ∈ exNaming.names, ∃ y ∈ relsOf exHidden, Speaks exNPar.f .node 4 r y ∧ Has y.kids r.attr [66] ∧ exNaming.statNorm (exNaming.decode [66]) ≠ []) ∧
    ((List.range 4).map fun u => (build (filePar exNaming exNPar exHidden.tags) exHidden.tags).pl.getSI u) =
      [some none, some (some ⟨[65], [], [49]⟩), some none, some none] := by
  refine ⟨exHidden_ok, ⟨⟨4, 3, [⟨3, .tag kSt vYes⟩, ⟨3, .tag kPl [52]⟩]⟩, by simp [exHidden, exNDoc], rfl, kSt, vYes, rfl, ?_⟩,
    ⟨⟨kNm, kSt, vYes⟩, by simp [exNaming], exLine 2 [66] [56], by simp [relsOf, exHidden, exNDoc], ⟨⟨?_, ?_⟩, ⟨[], ?_⟩, ⟨vYes, rfl, Or.inr rfl⟩, ⟨[66], rfl⟩⟩,
      rfl, by decide⟩, by decide +kernel⟩
  · exact ⟨[(vYes, 1)], rfl, (vYes, 1), by simp, by decide, Or.inr (Or.inl rfl)⟩
  · exact ⟨kHw, vHw, rfl, [(vHw, 1)], rfl, (vHw, 1), by simp, by decide, Or.inr (Or.inl rfl)⟩
  · rintro ⟨_, _, _, vals, h, _⟩
    cases h
  · simp [exLine, kidMembers]

end Verif.Attrs
