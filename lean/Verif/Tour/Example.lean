import Verif.Tour.Props
import Verif.Build.Example

/-!
# Matching on the map of an OSM file: an example for C88

The feed is that of the example of C86, the file that of the example of C76: a crossing of three streets. The first trip is on line 7, the others have
no attributes. The search looks up distances in a table, which is checked against the graph; what is computed here is computed with tables that are
shown to be what is read from the file.
-/

namespace Verif.Tour
open Verif.Whole (exPar exCross Kept Tidy mapSegs Against Place)
open Verif.Osm (Way)
open Verif.Hops (IsDist SearchOk)
open Verif.Full (Trail WalkOk)

theorem exSegs_in (a1 a2 a3) (q1 q2 q3 : Bool) (ways : List Way)
    (h : ways = (if q1 then [(⟨10, [1, 3], a1⟩ : Way)] else []) ++ (if q2 then [⟨20, [3, 4], a2⟩] else []) ++ (if q3 then [⟨30, [3, 5], a3⟩] else [])) :
    ∀ s ∈ mapSegs exPar exCross ways, (s.a, s.b) ∈ [(Place.shared 1, Place.shared 3), (.shared 3, .shared 4), (.shared 3, .shared 5)] := by
  have e : mapSegs exPar exCross ways = (if q1 then [⟨.shared 1, .shared 3, ⟨10, [1, 3], a1⟩⟩] else []) ++ (if q2 then [⟨.shared 3, .shared 4, ⟨20, [3, 4], a2⟩⟩] else [])
      ++ (if q3 then [⟨.shared 3, .shared 5, ⟨30, [3, 5], a3⟩⟩] else []) := by
    subst h
    cases q1 <;> cases q2 <;> cases q3 <;> rfl
  rw [e]
  cases q1 <;> cases q2 <;> cases q3 <;> simp

/-- However the tags of the ways are kept, and whichever ways are used, the crossing is tidy. -/
theorem exTidy (ways : List Way) (h : Kept exPar exCross ways) : Tidy exPar exCross (mapSegs exPar exCross ways) := by
  obtain ⟨br, bw, q, _, hbw, _, rfl⟩ := h
  have hin : ∀ s ∈ mapSegs exPar exCross ((exCross.ways.filter q).map bw),
      (s.a, s.b) ∈ [(Place.shared 1, Place.shared 3), (.shared 3, .shared 4), (.shared 3, .shared 5)] := by
    have e : ∀ x, bw x = ⟨x.id, Osm.kidRefs x.kids, (bw x).attrs⟩ := by
      intro x
      rw [← (hbw x).id, ← (hbw x).nodes]
    obtain ⟨x1, x2, x3, hx⟩ : ∃ x1 x2 x3, exCross.ways = [x1, x2, x3] ∧ (x1.id, Osm.kidRefs x1.kids) = (10, [1, 3]) ∧
        (x2.id, Osm.kidRefs x2.kids) = (20, [3, 4]) ∧ (x3.id, Osm.kidRefs x3.kids) = (30, [3, 5]) := ⟨_, _, _, rfl, rfl, rfl, rfl⟩
    simp only [Prod.mk.injEq] at hx
    obtain ⟨hx, ⟨i1, n1⟩, ⟨i2, n2⟩, i3, n3⟩ := hx
    refine exSegs_in (bw x1).attrs (bw x2).attrs (bw x3).attrs (q x1) (q x2) (q x3) _ ?_
    have e1 := e x1
    have e2 := e x2
    have e3 := e x3
    rw [i1, n1] at e1
    rw [i2, n2] at e2
    rw [i3, n3] at e3
    rw [← e1, ← e2, ← e3, hx]
    cases h1 : q x1 <;> cases h2 : q x2 <;> cases h3 : q x3 <;> simp [List.filter, h1, h2, h3]
  generalize mapSegs exPar exCross ((exCross.ways.filter q).map bw) = ss at hin
  have na : ∀ s ∈ ss, ¬ Against exPar.o s.way := by
    rintro s _ ⟨⟨_, _, _, h, _⟩, _⟩
    cases h
  have hs : ∀ s ∈ ss, (s.a = .shared 1 ∧ s.b = .shared 3) ∨ (s.a = .shared 3 ∧ s.b = .shared 4) ∨ (s.a = .shared 3 ∧ s.b = .shared 5) := by
    intro s h
    simpa using hin s h
  refine ⟨?_, fun s hs t ht _ _ _ => iff_of_false (na s hs) (na t ht), Or.inr na, ?_, ?_⟩
  · intro s h
    rcases hs s h with ⟨e1, e2⟩ | ⟨e1, e2⟩ | ⟨e1, e2⟩ <;> rw [e1, e2] <;> decide
  · intro s h q hq
    rcases hs s h with ⟨e1, e2⟩ | ⟨e1, e2⟩ | ⟨e1, e2⟩ <;> rw [e1, e2] at hq <;> rcases hq with rfl | rfl <;> decide +kernel
  · have hne : ∀ x ∈ exCross.nodes, ∀ y ∈ exCross.nodes, x.id ≠ y.id → exPar.near y.pos x.pos = false := by decide +kernel
    have tip : ∀ a, Whole.Tip ss a → ∃ i, a = .shared i := by
      rintro a ⟨s, h, ha, _⟩
      rcases hs s h with ⟨e1, e2⟩ | ⟨e1, e2⟩ | ⟨e1, e2⟩ <;> rw [e1, e2] at ha <;> rcases ha with rfl | rfl <;> exact ⟨_, rfl⟩
    intro a b ha hb hab x hx y hy hxa hyb
    obtain ⟨i, rfl⟩ := tip a ha
    obtain ⟨j, rfl⟩ := tip b hb
    refine hne x hx y hy ?_
    rw [hxa, hyb]
    intro hn
    exact hab (congrArg Place.shared hn)

/-! ## A search that looks up distances -/

/-- Distances and ways, last edge first. -/
structure Table where
  dist : List (List Nat)
  path : List (List (List Nat))

def Table.d (t : Table) (a b : Nat) : Option Nat :=
  match (t.dist[a]?).bind (·[b]?) with
  | some x => some x
  | none => if a = b then some 0 else none

def Table.p (t : Table) (a b : Nat) : List Nat := ((t.path[a]?).bind (·[b]?)).getD [a]

def Table.walk (t : Table) (a b : Nat) (m : UInt32) : UInt32 × List Nat :=
  match t.d a b with
  | some x => if x < m.toNat then (UInt32.ofNat x, t.p a b) else (m, [])
  | none => (m, [])

def Table.search (t : Table) (a : Nat) (rem : List Nat) (m : UInt32) : List (Nat × UInt32 × Bool) :=
  rem.map fun b => (b, (t.walk a b m).1, decide ((t.walk a b m).1 < m))

/-- The cost of a way. -/
def cost (turn : Nat → Nat → Option Nat) : List Nat → Option Nat
  | [] => none
  | [_] => some 0
  | c :: b :: es => (cost turn (b :: es)).bind fun x => (turn b c).map (x + ·)

theorem trail_of {turn : Nat → Nat → Option Nat} : ∀ {es : List Nat} {x a b : Nat}, cost turn es = some x → es.head? = some b → es.getLast? = some a →
    Trail turn a b es x
  | [], _, _, _, h, _, _ => by cases h
  | [c], x, a, b, h, h1, h2 => by
    cases h; cases h1; cases h2; exact .one c
  | c :: d :: es, x, a, b, h, h1, h2 => by
    cases h1
    obtain ⟨y, e1, h⟩ := Option.bind_eq_some_iff.mp h
    obtain ⟨z, e2, rfl⟩ := Option.map_eq_some_iff.mp h
    rw [List.getLast?_cons_cons] at h2
    exact .more (trail_of e1 rfl h2) e2

/-- The table is right for `k` edges. -/
def Table.Right (t : Table) (turn : Nat → Nat → Option Nat) (k : Nat) : Prop :=
  t.dist.length = k ∧ t.path.length = k ∧ (∀ a, a < k → t.d a a = some 0) ∧
  (∀ a, a < k → ∀ b, b < k → ∀ c, c < k → ∀ x ∈ turn a b, ∀ y ∈ t.d b c, ∃ z ∈ t.d a c, z ≤ x + y) ∧
  (∀ a, a < k → ∀ b, b < k → ∀ x ∈ t.d a b, cost turn (t.p a b) = some x ∧ (t.p a b).head? = some b ∧ (t.p a b).getLast? = some a)

instance (o : Option Nat) (f : Nat → Prop) [DecidablePred f] : Decidable (∀ x ∈ o, f x) :=
  match o with
  | none => isTrue (by intro x h; cases h)
  | some y => if h : f y then isTrue (by intro x hx; cases hx; exact h) else isFalse (fun k => h (k y rfl))

instance (o : Option Nat) (f : Nat → Prop) [DecidablePred f] : Decidable (∃ x ∈ o, f x) :=
  match o with
  | none => isFalse (by rintro ⟨x, h, _⟩; cases h)
  | some y => if h : f y then isTrue ⟨y, rfl, h⟩ else isFalse (by rintro ⟨x, hx, k⟩; cases hx; exact h k)

set_option synthInstance.maxSize 1024 in
instance (t : Table) (turn : Nat → Nat → Option Nat) (k : Nat) : Decidable (t.Right turn k) := inferInstanceAs (Decidable (_ ∧ _))

theorem Table.walkOk {t : Table} {turn : Nat → Nat → Option Nat} {k : Nat} (ht : ∀ a b x, turn a b = some x → a < k ∧ b < k) (h : t.Right turn k)
    (hw : ∀ a, a < k → ∀ b, b ≥ k → t.d a b = none) : WalkOk turn t.walk := by
  obtain ⟨h1, h2, h3, h4, h5⟩ := h
  have out : ∀ a b, a ≥ k → t.d a b = if a = b then some 0 else none := by
    intro a b ha
    simp only [Table.d, List.getElem?_eq_none (by omega : t.dist.length ≤ a), Option.bind_none]
  have diag : ∀ a, t.d a a = some 0 := by
    intro a
    rcases Nat.lt_or_ge a k with ha | ha
    · exact h3 a ha
    · rw [out a a ha, if_pos rfl]
  have least : ∀ a b y, Hops.Way turn a b y → ∃ z, t.d a b = some z ∧ z ≤ y := by
    intro a b y hy
    induction hy with
    | here a => exact ⟨0, diag a, Nat.le_refl _⟩
    | @step a b c x y hx _ ih =>
      obtain ⟨z, hz, hle⟩ := ih
      obtain ⟨ha, hb⟩ := ht _ _ _ hx
      rcases Nat.lt_or_ge c k with hc | hc
      · obtain ⟨z', hz', hle'⟩ := h4 a ha b hb c hc x hx z hz
        exact ⟨z', hz', by omega⟩
      · rw [hw b hb c hc] at hz; cases hz
  have trail : ∀ a b x, t.d a b = some x → Trail turn a b (t.p a b) x := by
    intro a b x hx
    rcases Nat.lt_or_ge a k with ha | ha
    · rcases Nat.lt_or_ge b k with hb | hb
      · obtain ⟨k1, k2, k3⟩ := h5 a ha b hb x hx
        exact trail_of k1 k2 k3
      · rw [hw a ha b hb] at hx; cases hx
    · rw [out a b ha] at hx
      split at hx
      · rename_i e
        cases hx; subst e
        simp only [Table.p, List.getElem?_eq_none (by omega : t.path.length ≤ a), Option.bind_none, Option.getD_none]
        exact .one a
      · cases hx
  have way : ∀ {a b es x}, Trail turn a b es x → Hops.Way turn a b x := by
    intro a b es x h
    have snoc : ∀ {a b x}, Hops.Way turn a b x → ∀ c y, turn b c = some y → Hops.Way turn a c (x + y) := by
      intro a b x h
      induction h with
      | here a => intro c y hy; have := Hops.Way.step hy (.here c); rwa [Nat.add_comm] at this
      | step hx _ ih => intro c y hy; have := Hops.Way.step hx (ih c y hy); rwa [← Nat.add_assoc] at this
    induction h with
    | one => exact .here _
    | more _ hy ih => exact snoc ih _ _ hy
  constructor
  · intro a b m hlt
    unfold Table.walk at hlt ⊢
    cases hd : t.d a b with
    | none => rw [hd] at hlt; exact absurd hlt (UInt32.lt_irrefl _)
    | some x =>
      rw [hd] at hlt
      dsimp only at hlt ⊢
      by_cases hx : x < m.toNat
      · rw [if_pos hx]
        have := m.toNat_lt
        have e : (UInt32.ofNat x).toNat = x := by rw [UInt32.toNat_ofNat']; exact Nat.mod_eq_of_lt (by omega)
        simp only [e]
        have T := trail a b x hd
        refine ⟨⟨way T, fun y hy => ?_⟩, T⟩
        obtain ⟨z, hz, hle⟩ := least a b y hy
        rw [hd] at hz; cases hz; exact hle
      · rw [if_neg hx] at hlt; exact absurd hlt (UInt32.lt_irrefl _)
  · intro a b m hle y hy
    obtain ⟨z, hz, hzy⟩ := least a b y hy
    unfold Table.walk at hle
    rw [hz] at hle
    dsimp only at hle
    by_cases hx : z < m.toNat
    · rw [if_pos hx] at hle
      have := m.toNat_lt
      have e : (UInt32.ofNat z).toNat = z := by rw [UInt32.toNat_ofNat']; exact Nat.mod_eq_of_lt (by omega)
      rw [UInt32.le_iff_toNat_le, e] at hle
      omega
    · omega

theorem Table.searchOk {t : Table} {turn : Nat → Nat → Option Nat} (W : WalkOk turn t.walk) (h : Hops.HEnv) (hs : h.search = t.search) : SearchOk turn h := by
  constructor
  · intro fr rem inf b hb
    rw [hs]; exact ⟨_, List.mem_map_of_mem hb, rfl⟩
  · intro fr rem inf r hr
    rw [hs] at hr
    obtain ⟨b, hb, rfl⟩ := List.mem_map.1 hr
    exact hb
  · intro fr rem inf r hr hb
    rw [hs] at hr
    obtain ⟨b, _, rfl⟩ := List.mem_map.1 hr
    have hb := of_decide_eq_true hb
    exact ⟨hb, (W.found fr b inf hb).1⟩
  · intro fr rem inf r hr hb
    rw [hs] at hr
    obtain ⟨b, _, rfl⟩ := List.mem_map.1 hr
    have hle := UInt32.not_lt.1 (of_decide_eq_false hb)
    exact ⟨hle, W.lost fr b inf hle⟩

def exPaths : List (List (List Nat)) :=
  [[[0], [1, 0], [2, 0], [3, 0], [4, 1, 0], [5, 2, 0]], [[0, 3, 4, 1], [1], [2, 4, 1], [3, 4, 1], [4, 1], [5, 2, 4, 1]],
   [[0, 3, 5, 2], [1, 5, 2], [2], [3, 5, 2], [4, 1, 5, 2], [5, 2]], [[0, 3], [1, 0, 3], [2, 0, 3], [3], [4, 1, 0, 3], [5, 2, 0, 3]],
   [[0, 3, 4], [1, 4], [2, 4], [3, 4], [4], [5, 2, 4]], [[0, 3, 5], [1, 5], [2, 5], [3, 5], [4, 1, 5], [5]]]

/-- For trips of the line 7, and for trips without attributes. -/
def exTable (a : Nat × List Nat) : Table :=
  if a.1 = 0 then
    ⟨[[0, 2, 52, 102, 110, 162], [218, 0, 116, 116, 108, 226], [222, 120, 0, 120, 228, 110], [102, 104, 154, 0, 212, 264], [110, 108, 8, 8, 0, 118],
      [112, 10, 110, 10, 118, 0]], exPaths⟩
  else
    ⟨[[0, 2, 52, 102, 106, 157], [210, 0, 108, 108, 104, 213], [212, 110, 0, 110, 214, 105], [102, 104, 154, 0, 208, 259], [106, 104, 4, 4, 0, 109],
      [107, 5, 105, 5, 109, 0]], exPaths⟩

def exFare (a : Nat × List Nat) : Journey.Fare Nat := if a.1 = 0 then Journey.exFare else { Journey.exFare with noAttrs := true }

abbrev exGraph := Whole.build exPar exCross.tags

theorem exLen : exGraph.es.length = 6 := by decide +kernel

theorem exWalk_ok (a : Nat × List Nat) : WalkOk (Journey.turn exGraph (exFare a)) (exTable a).walk := by
  refine Table.walkOk (k := 6) ?_ ?_ ?_
  · intro i j x h
    unfold Journey.turn at h
    rw [← exLen]
    cases h1 : exGraph.es[i]? with
    | none => rw [h1] at h; cases h
    | some e =>
      cases h2 : exGraph.es[j]? with
      | none => rw [h1, h2] at h; cases h
      | some f => exact ⟨(List.getElem?_eq_some_iff.mp h1).1, (List.getElem?_eq_some_iff.mp h2).1⟩
  · unfold exTable exFare
    split
    · decide +kernel
    · decide +kernel
  · intro i hi j hj
    have : ∀ t ∈ [exTable (0, []), exTable (1, [])], ∀ l ∈ t.dist, l.length = 6 := by decide +kernel
    have e : exTable a ∈ [exTable (0, []), exTable (1, [])] := by unfold exTable; by_cases h : a.1 = 0 <;> simp [h]
    have hl := this _ e
    have hne : i ≠ j := by omega
    unfold Table.d
    cases hx : (exTable a).dist[i]? with
    | none => simp [hne]
    | some l =>
      have := hl l (List.mem_of_getElem? hx)
      simp [List.getElem?_eq_none (show l.length ≤ j by omega), hne]


/-! ## The town -/

/-- Points on a straight line, in whole units. -/
def exPt (l : List Nat) (x : Rat) : Nat :=
  if x ≤ 0 then l.headD 0 else if 1 ≤ x then l.getLastD 0 else ((l.headD 0 : Rat) + x * ((l.getLastD 0 : Rat) - (l.headD 0 : Rat))).floor.toNat

def exGeo : Line.Geo Nat :=
  { seg := fun l a b => if a ≤ b then [exPt l a, exPt l b] else []
    simplify := id
    dist := fun a b => (((a - b) + (b - a) : Nat) : Rat)
    rnd := id }

theorem exGeo_ok : Line.GeoOk exGeo exPt := by
  constructor
  · intro l p h; cases l with
    | nil => simp at h
    | cons a l => simp at h; simp [exPt, h]
  · intro l p h
    have : ¬ (1 : Rat) ≤ 0 := by decide
    obtain ⟨ys, rfl⟩ := List.getLast?_eq_some_iff.mp h
    unfold exPt
    rw [if_neg this, if_pos (by decide)]
    simp
  · intro l a b _ _ hab _
    simp only [exGeo, if_pos hab]
    exact ⟨rfl, rfl, by simp⟩
  · intro l _; rfl
  · intro l _; rfl
  · intro l _; exact List.Sublist.refl _
  · intro a b; exact (by exact_mod_cast Nat.zero_le _ : (0 : Rat) ≤ (((a - b) + (b - a) : Nat) : Rat))
  · rfl
  · intro x; rfl
  · intro x y h; exact h

/-- Stop A is in the middle of the edge from 1 to 3, B in the middle of that to 4, and C at the end of that to 5. -/
def exGen : Router.Gen Nat (Option Nat) (Line.Pos Nat) where
  cands := fun i => match i with
    | 1 => [⟨none, some 100, ⟨0, 1⟩⟩, ⟨some 0, some 1, ⟨1/2, 1⟩⟩]
    | 4 => [⟨none, some 100, ⟨0, 4⟩⟩, ⟨some 2, some 1, ⟨1, 4⟩⟩, ⟨some 5, some 1, ⟨0, 4⟩⟩]
    | _ => [⟨none, some 100, ⟨0, 3⟩⟩, ⟨some 1, some 1, ⟨1/2, 2⟩⟩]
  timePen := fun _ _ => some 0
  add := Router.exCost.add

abbrev A0 := Nat × List Nat
abbrev Net0 := Full.Net (Option Nat) (Line.Pos Nat × Int)
abbrev Mode0 := Build.Mode Nat (Option Nat) Nat Unit (Option HopCache.Cache) Nat A0

def exNet0 (a : A0) (ecm : Router.Ecm Nat (Option Nat) (Line.Pos Nat)) : Net0 where
  h := ⟨fun _ => 0, fun _ => 0, fun _ => 0, (exTable a).search, fun _ _ _ _ _ => [], fun _ => 0⟩
  ops := Router.exCost
  ecm := ecm
  progr := fun x => x.1.progr
  maxCost0 := fun _ => 100
  weight := fun _ _ _ c => some c.toNat
  raw := fun c => c.map fun x => (x : Rat)
  slow := true
  needDist := false
  walk := (exTable a).walk

def exMode (cfgMots : List Nat) (drop : Bool) (shapeEmpty : Nat → Bool) (W : Nat) (sched : List Nat) (threads : List (List (Nat × List Nat))) : Mode0 where
  c := Build.exC cfgMots drop shapeEmpty
  thr := 2
  csched := [1, 0, 0, 1, 0]
  gen := fun _ => exGen
  env := fun tr ecm s => (exNet0 (0, []) ecm).env tr.nds s
  cache := some HopCache.empty
  map := ⟨fun _ => 0, fun _ => 0, fun _ => none, fun _ => false, fun _ => []⟩
  cols := fun _ _ => []
  routeTy := fun _ => 3
  W := W
  sched := sched
  keep := fun _ => false
  threads := threads

def exTown (m : Mode0) : Town Nat Nat Nat Int (Option Nat) Nat A0 where
  p := exPar
  d := exCross
  speed := fun _ => 1
  fare := exFare
  m := m
  net0 := fun tr ecm => exNet0 (key m.c tr) ecm

/-! What is read from the file, as tables: so that the examples can be computed. -/

def exCosts (a : A0) : List UInt32 := if a.1 = 0 then [2, 8, 10, 2, 8, 10] else [2, 4, 5, 2, 4, 5]

def exMap : Line.Edges Nat Nat where
  from_ := fun i => [1, 2, 2, 2, 3, 4].getD i 1
  to_ := fun i => [2, 3, 4, 1, 2, 2].getD i 1
  geom := fun i => [[1, 2], [2, 3], [2, 4], [1, 2], [2, 3], [2, 4]][i]?
  rev := fun i => decide (3 ≤ i ∧ i ≤ 5)
  cols := fun _ => []

def exNet (a : A0) (ecm : Router.Ecm Nat (Option Nat) (Line.Pos Nat)) : Net0 :=
  { exNet0 a ecm with h := ⟨fun i => (exCosts a).getD i 0, fun i => if i < 6 then 1 else 0, fun i => if i < 6 then 1 else 0, (exTable a).search,
      fun _ _ _ _ _ => [], fun _ => 0⟩ }

def exRun (m : Mode0) : Mode0 := onNet { m with map := exMap } (fun tr ecm => exNet (key m.c tr) ecm)

theorem exBeyond (i : Nat) : exGraph.es[i + 6]? = none := List.getElem?_eq_none (by rw [exLen]; omega)

theorem six {α : Type} {f g : Nat → α} (h : ∀ i, i < 6 → f i = g i) (h' : ∀ i, f (i + 6) = g (i + 6)) : f = g := by
  funext i
  rcases Nat.lt_or_ge i 6 with hi | hi
  · exact h i hi
  · obtain ⟨j, rfl⟩ := Nat.exists_eq_add_of_le' hi
    exact h' j

theorem exMap_eq : mapOf exGraph = exMap := by
  have e1 : (mapOf exGraph).from_ = exMap.from_ := six (by decide +kernel) fun i => by
    have : exGraph.pos 0 = 1 := by decide +kernel
    simp [mapOf, exBeyond, exMap, this]
  have e2 : (mapOf exGraph).to_ = exMap.to_ := six (by decide +kernel) fun i => by
    have : exGraph.pos 0 = 1 := by decide +kernel
    simp [mapOf, exBeyond, exMap, this]
  have e3 : (mapOf exGraph).geom = exMap.geom := six (by decide +kernel) fun i => by
    simp [mapOf, exBeyond, exMap]
  have e4 : (mapOf exGraph).rev = exMap.rev := six (by decide +kernel) fun i => by
    simp [mapOf, exBeyond, exMap]
  show (⟨(mapOf exGraph).from_, (mapOf exGraph).to_, (mapOf exGraph).geom, (mapOf exGraph).rev, fun _ => []⟩ : Line.Edges Nat Nat) = _
  rw [e1, e2, e3, e4]
  rfl

theorem exNet_eq (m : Mode0) : (exTown m).net = fun tr ecm => exNet (key m.c tr) ecm := by
  funext tr ecm
  show Journey.onGraph exGraph (Journey.fileComps exPar (fun _ => 1) exCross.tags) (exFare (key m.c tr)) (exNet0 (key m.c tr) ecm) = _
  generalize key m.c tr = a
  have e1 : Journey.edgeCost exGraph (exFare a) = fun i => (exCosts a).getD i 0 := by
    refine six ?_ ?_
    · unfold exFare exCosts
      by_cases h : a.1 = 0
      · rw [if_pos h, if_pos h]; decide +kernel
      · rw [if_neg h, if_neg h]; decide +kernel
    · intro i
      have : (exCosts a).length = 6 := by unfold exCosts; split <;> rfl
      simp [Journey.edgeCost, exBeyond, List.getElem?_eq_none (show (exCosts a).length ≤ i + 6 by omega)]
  have c : ∀ i, i < 6 →
      (Journey.onGraph exGraph (Journey.fileComps exPar (fun _ => 1) exCross.tags) Journey.exFare (exNet0 (0, []) fun _ => [])).h.compFr i = 1 ∧
      (Journey.onGraph exGraph (Journey.fileComps exPar (fun _ => 1) exCross.tags) Journey.exFare (exNet0 (0, []) fun _ => [])).h.compTo i = 1 := by
    decide +kernel
  generalize hX : Journey.onGraph exGraph (Journey.fileComps exPar (fun _ => 1) exCross.tags) (exFare a) (exNet0 a ecm) = X
  have e2 : X.h.compFr = fun i => if i < 6 then 1 else 0 := by
    subst hX
    exact six (fun i hi => by rw [if_pos hi]; exact (c i hi).1) fun i => by simp [Journey.onGraph, exBeyond]
  have e3 : X.h.compTo = fun i => if i < 6 then 1 else 0 := by
    subst hX
    exact six (fun i hi => by rw [if_pos hi]; exact (c i hi).2) fun i => by simp [Journey.onGraph, exBeyond]
  have e : X = { exNet0 a ecm with h := ⟨Journey.edgeCost exGraph (exFare a), X.h.compFr, X.h.compTo, (exTable a).search, fun _ _ _ _ _ => [], fun _ => 0⟩ } := by
    subst hX
    rfl
  exact e.trans (by rw [e1, e2, e3]; rfl)

theorem exMode_eq (m : Mode0) : (exTown m).mode = exRun m := by
  show onNet { m with map := mapOf exGraph } (exTown m).net = _
  rw [exMap_eq, exNet_eq]
  rfl

/-! ## What is assumed of the town holds -/

/-- The hop cache after these tries. -/
def stateOf (m : Mode0) (s : Option HopCache.Cache) : List (Trie.Trie Nat Nat A0) → Option (Option HopCache.Cache)
  | [] => some s
  | tr :: f =>
    match Router.getECM (m.gen tr) tr.nds with
    | none => none
    | some ecm => stateOf m (Router.search (m.env tr ecm s) tr.nds s).s f

theorem stateOf_append {m : Mode0} {tr : Trie.Trie Nat Nat A0} {f : List (Trie.Trie Nat Nat A0)} {s s1 : Option HopCache.Cache} {ecm}
    (h : stateOf m s f = some s1) (he : Router.getECM (m.gen tr) tr.nds = some ecm) :
    stateOf m s (f ++ [tr]) = some (Router.search (m.env tr ecm s1) tr.nds s1).s := by
  induction f generalizing s with
  | nil =>
    cases h
    simp only [List.nil_append, stateOf, he]
  | cons t f ih =>
    rw [List.cons_append, stateOf]
    rw [stateOf] at h
    cases hg : Router.getECM (m.gen t) t.nds with
    | none => rw [hg] at h; cases h
    | some e1 => rw [hg] at h; exact ih h

theorem after_stateOf {m : Mode0} {f : List (Trie.Trie Nat Nat A0)} {s : Option HopCache.Cache} (h : Build.After m f s) : stateOf m m.cache f = some s := by
  induction h with
  | start => rfl
  | next _ he ih => exact stateOf_append ih he

/-- No hop is within one edge. -/
def noShort (m : Mode0) (s : Option HopCache.Cache) : List (Trie.Trie Nat Nat A0) → Bool
  | [] => true
  | tr :: f =>
    match Router.getECM (m.gen tr) tr.nds with
    | none => false
    | some ecm => ((List.range tr.nds.length).all fun nid =>
        match tr.ndTrips nid, Router.route (m.env tr ecm s) tr.nds s nid with
        | _ :: _, some hops => hops.all fun h => h.edges.length ≠ 1
        | _, _ => true) && noShort m (Router.search (m.env tr ecm s) tr.nds s).s f

theorem noShort_at {m : Mode0} {pre post : List (Trie.Trie Nat Nat A0)} {tr : Trie.Trie Nat Nat A0} {s s1 : Option HopCache.Cache} {ecm}
    (h : noShort m s (pre ++ tr :: post) = true) (hs : stateOf m s pre = some s1) (he : Router.getECM (m.gen tr) tr.nds = some ecm) {nid : Nat} {hops}
    (hlt : nid < tr.nds.length) (hne : tr.ndTrips nid ≠ []) (hr : Router.route (m.env tr ecm s1) tr.nds s1 nid = some hops) :
    ∀ x ∈ hops, Build.Forward x := by
  induction pre generalizing s with
  | nil =>
    cases hs
    rw [List.nil_append, noShort, he] at h
    simp only [Bool.and_eq_true, List.all_eq_true, List.mem_range] at h
    have := h.1 nid hlt
    cases ht : tr.ndTrips nid with
    | nil => exact absurd ht hne
    | cons t ts =>
      rw [ht, hr] at this
      simp only [List.all_eq_true, decide_eq_true_eq] at this
      exact fun x hx _ _ _ _ _ _ h1 => absurd h1 (this x hx)
  | cons t pre ih =>
    rw [List.cons_append, noShort] at h
    rw [stateOf] at hs
    cases hg : Router.getECM (m.gen t) t.nds with
    | none => rw [hg] at h; cases h
    | some e1 =>
      rw [hg] at h hs
      simp only [Bool.and_eq_true] at h
      exact ih h.2 hs

theorem noShort_ecm {m : Mode0} {f : List (Trie.Trie Nat Nat A0)} {s : Option HopCache.Cache} (h : noShort m s f = true) :
    ∀ tr ∈ f, Router.getECM (m.gen tr) tr.nds ≠ none := by
  induction f generalizing s with
  | nil => intro tr htr; cases htr
  | cons t f ih =>
    rw [noShort] at h
    cases hg : Router.getECM (m.gen t) t.nds with
    | none => rw [hg] at h; cases h
    | some e1 =>
      rw [hg] at h
      simp only [Bool.and_eq_true] at h
      intro tr htr
      rcases List.mem_cons.mp htr with rfl | htr
      · rw [hg]; simp
      · exact ih h.2 tr htr

def good (m : Mode0) (n : Nat) : Bool :=
  (match Build.cluster m n with
  | none => false
  | some fs => fs.all fun f => noShort m m.cache f) &&
  match Trie.cinit m.c m.thr (List.range n) with
  | none => true
  | some s => (List.range s.pend.length).all fun i => (s.pend[i]?.map (·.length)).getD 0 ≤ m.csched.count i

theorem exGen_in : ∀ j, ∀ c ∈ exGen.cands j, (0 ≤ c.x.progr ∧ c.x.progr ≤ 1) ∧ ∀ e, c.e = some e → e < 6 := by
  intro j c hc
  simp only [exGen] at hc
  split at hc
  all_goals
    simp only [List.mem_cons, List.not_mem_nil, or_false] at hc
    first
    | (rcases hc with rfl | rfl | rfl <;> exact ⟨by decide +kernel, fun e he => by cases he; try decide⟩)
    | (rcases hc with rfl | rfl <;> exact ⟨by decide +kernel, fun e he => by cases he; try decide⟩)

theorem exCosts_le (a : A0) (e : Nat) : ((exCosts a).getD e 0).toNat ≤ 100 := by
  have key : ∀ l : List UInt32, (∀ x ∈ l, x.toNat ≤ 100) → (l.getD e 0).toNat ≤ 100 := by
    intro l h
    rw [List.getD_eq_getElem?_getD]
    cases hx : l[e]? with
    | none => exact Nat.zero_le _
    | some x => exact h x (List.mem_of_getElem? hx)
  refine key _ ?_
  unfold exCosts
  split <;> decide

theorem exFare_ok (a : A0) : Journey.FareOk (exFare a) := by
  unfold exFare
  split <;> exact ⟨Weights.ofRat_ok _ _ (by decide), Weights.ofRat_ok _ _ (by decide), Weights.ofRat_ok _ _ (by decide)⟩

theorem exSmall (a : A0) {tr : Trie.Trie Nat Nat A0} {ecm} (he : Router.getECM exGen tr.nds = some ecm) : Full.Small (exNet a ecm) 100 := by
  refine Full.small_of (n := exNet a ecm) he (fun x => x.progr) (fun _ => rfl) (fun j c hc => (exGen_in j c hc).1) ?_
    (fun _ => (by decide : 8 * (100 : UInt32).toNat + 2 * 100 < 4294967295)) (fun _ => (by decide : 2 ≤ (100 : UInt32).toNat))
  intro j c hc e hce
  obtain ⟨⟨k0, k1⟩, k2⟩ := exGen_in j c hc
  have k3 := exCosts_le a e
  show ((((exCosts a).getD e 0).toNat : Nat) : Rat) * c.x.progr ≤ ((100 : Nat) : Rat)
  generalize ((exCosts a).getD e 0).toNat = y at k3
  have k4 : (y : Rat) ≤ ((100 : Nat) : Rat) := by exact_mod_cast k3
  have k5 : (y : Rat) * c.x.progr ≤ ((100 : Nat) : Rat) * c.x.progr := Rat.mul_le_mul_of_nonneg_right k4 k0
  grind

theorem exRun_ok {m : Mode0} {cfgMots : List Nat} {drop : Bool} {shapeEmpty : Nat → Bool} {W : Nat} {sched : List Nat}
    {threads : List (List (Nat × List Nat))} (hm : exMode cfgMots drop shapeEmpty W sched threads = m) {n : Nat} (h : good (exRun m) n = true) :
    RunOk { m with map := exMap } (fun tr ecm => exNet (key m.c tr) ecm) (fun a => Journey.turn exGraph (exFare a)) n := by
  have hgen : ∀ tr, m.gen tr = exGen := by subst hm; intro _; rfl
  simp only [good, Bool.and_eq_true] at h
  obtain ⟨h1, h2⟩ := h
  refine { near := ?near, lt := ?lt, thr := ?thr, done := ?done, merge := ?merge, ecm := ?ecm, laws := ?laws, finite := ?finite, cands := ?cands,
           progr := ?progr, slow := ?slow, search := ?search, walk := ?walk, small := ?small, cache := ?cache, times := ?times, forward := ?forward }
  case near => subst hm; intro p; simp [exMode, Build.exC]
  case lt => subst hm; exact ⟨by simp [exMode, Build.exC], by simp [exMode, Build.exC]; omega, by simp [exMode, Build.exC]; omega⟩
  case thr => subst hm; exact Nat.zero_lt_two
  case done =>
    intro s hs i l hl
    rw [show Trie.cinit (exRun m).c (exRun m).thr (List.range n) = some s from hs] at h2
    simp only [List.all_eq_true, List.mem_range, decide_eq_true_eq] at h2
    have := h2 i (List.getElem?_eq_some_iff.mp hl).1
    rw [hl] at this
    exact this
  case merge => subst hm; intro t; simp [exMode, Build.exC]
  case ecm => intro _ _; rfl
  case laws => intro _ _; exact Router.exCost_laws
  case finite => intro _ _; exact Router.exCost_finite
  case cands =>
    intro tr _
    show Router.Placeholder _ (m.gen tr)
    rw [hgen]
    refine ⟨rfl, fun i => ?_, fun _ _ => rfl⟩
    simp only [exGen]
    split <;> exact ⟨_, _, rfl, rfl, rfl⟩
  case progr =>
    intro tr i c hc _
    rw [show (m.gen tr) = exGen from hgen tr] at hc
    exact (exGen_in i c hc).1
  case slow => intro _ _; rfl
  case search => intro tr ecm; exact Table.searchOk (exWalk_ok (key m.c tr)) (exNet (key m.c tr) ecm).h rfl
  case walk => intro tr ecm; exact exWalk_ok (key m.c tr)
  case small =>
    intro fs _ f _ tr _ ecm he
    rw [show (m.gen tr) = exGen from hgen tr] at he
    exact ⟨100, exSmall _ he⟩
  case cache => subst hm; exact Or.inr rfl
  case times =>
    intro fs hfs f hf tr htr
    rw [show Build.cluster (exRun m) n = some fs from hfs] at h1
    simp only [List.all_eq_true] at h1
    exact noShort_ecm (h1 f hf) tr htr
  case forward =>
    intro fs hfs pre tr post hf ecm he s hs nid hops hlt hne hr
    rw [show Build.cluster (exRun m) n = some fs from hfs] at h1
    simp only [List.all_eq_true] at h1
    exact noShort_at (m := exRun m) (h1 _ hf) (after_stateOf hs) he hlt hne hr

theorem exTown_ok {m : Mode0} {cfgMots : List Nat} {drop : Bool} {shapeEmpty : Nat → Bool} {W : Nat} {sched : List Nat}
    {threads : List (List (Nat × List Nat))} (hm : exMode cfgMots drop shapeEmpty W sched threads = m) {n : Nat} (h : good (exRun m) n = true) :
    TownOk (exTown m) n := by
  have hgen : ∀ tr, m.gen tr = exGen := by subst hm; intro _; rfl
  refine { filter := ?filter, opts := ?opts, order := ?order, nodes := ?nodes, simplify := ?simplify, doc := ?doc, tidy := ?tidy, loops := ?loops,
           fare := ?fare, offers := ?offers, run := ?run }
  case filter => exact Turns.exKeep_ok
  case opts => exact Whole.exOpts_flagged
  case order => exact fun _ _ => .refl _
  case nodes => exact fun n u => List.mem_range
  case simplify => exact fun _ => ⟨rfl, rfl⟩
  case doc => exact Whole.exCross_ok
  case tidy => exact exTidy
  case loops =>
    have : ∀ e ∈ exGraph.es, e.src ≠ e.dst := by decide +kernel
    exact fun e he hs => absurd hs (this e he)
  case fare => exact exFare_ok
  case offers =>
    rintro tr e ⟨i, c, hc, he⟩
    rw [show (exTown m).m.gen tr = exGen from hgen tr] at hc
    show e < exGraph.es.length
    rw [exLen]
    exact (exGen_in i c hc).2 e he
  case run =>
    have e : (exTown m).mode0 = { m with map := exMap } := by
      show ({ m with map := mapOf exGraph } : Mode0) = _
      rw [exMap_eq]
    rw [e, exNet_eq]
    exact exRun_ok hm h

/-! ## With `--drop-shapes` -/

def exTown1 := exTown (exMode [3] true (fun _ => false) 2 [0, 0, 0, 1, 1, 1, 0, 1, 0, 1, 0, 1, 0, 1] [[(7, [0])], [(7, [1])]])
def exTown2 := exTown (exMode [2] true (fun _ => false) 1 (List.replicate 6 0) [[(7, [3])]])
def exTowns := [exTown1, exTown2]

theorem exTowns_ok : ∀ q ∈ exTowns, TownOk q 4 := by
  intro m hm
  simp only [exTowns, List.mem_cons, List.not_mem_nil, or_false] at hm
  rcases hm with rfl | rfl
  · exact exTown_ok rfl (by decide +kernel)
  · exact exTown_ok rfl (by decide +kernel)

def exEnc (q : Line.ShpPt Nat) : Shapes.Point := ⟨[q.p], [q.p], Dists.exEncD q.d⟩

/-- What is needed of the items: they are computed. -/
def view (m : Mode0) : Option (List (List Shapes.Workers.Leaf) × List (Nat × List Nat) × List Nat × List (List (List Nat))) :=
  (Build.items exGeo m 4).map fun its =>
    (its.map (·.map (Build.Item.leaf exEnc)), its.flatten.map (Build.Item.color 7), its.flatten.map (·.shp.pts.length),
      its.flatten.map fun it => it.hops.map (·.edges))

/-- The first trip rides from stop A through the crossing to B, to the end of the street there and back, and through the crossing to C. -/
def exPts1 : List Shapes.Point := [⟨[1], [1], [0]⟩, ⟨[2], [2], [1]⟩, ⟨[2], [2], [1]⟩, ⟨[2], [2], [1]⟩, ⟨[2], [2], [1]⟩, ⟨[3], [3], [2]⟩, ⟨[3], [3], [2]⟩,
  ⟨[2], [2], [3]⟩, ⟨[2], [2], [3]⟩, ⟨[4], [4], [5]⟩]
def exPts2 : List Shapes.Point := [⟨[1], [1], [0]⟩, ⟨[2], [2], [1]⟩, ⟨[2], [2], [1]⟩, ⟨[2], [2], [1]⟩]

def exJobs1 : List (List Shapes.Workers.Leaf) := [[⟨3, [0], exPts1⟩], [⟨3, [1], exPts2⟩]]
def exJobs2 : List (List Shapes.Workers.Leaf) := [[⟨3, [3], exPts2⟩]]

set_option synthInstance.maxSize 1024 in
theorem exView1 : view exTown1.mode = some (exJobs1, [(7, [0]), (7, [1])], [10, 4], [[[2, 4, 1], [1, 0]], [[1, 0]]]) := by
  rw [exTown1, exMode_eq]; decide +kernel
set_option synthInstance.maxSize 1024 in
theorem exView2 : view exTown2.mode = some (exJobs2, [(7, [3])], [4], [[[1, 0]]]) := by
  rw [exTown2, exMode_eq]; decide +kernel

theorem view_items {m : Mode0} {v} (h : view m = some v) {its} (hi : Build.items exGeo m 4 = some its) :
    its.map (·.map (Build.Item.leaf exEnc)) = v.1 ∧ its.flatten.map (Build.Item.color 7) = v.2.1 ∧ its.flatten.map (·.shp.pts.length) = v.2.2.1 := by
  rw [view, hi] at h
  cases h
  exact ⟨rfl, rfl, rfl⟩

theorem exSpread : Build.Spread exGeo 7 4 (exTowns.map Town.mode) := by
  intro m hm its hi
  simp only [exTowns, List.map_cons, List.map_nil, List.mem_cons, List.not_mem_nil, or_false] at hm
  rcases hm with rfl | rfl
  · exact List.Perm.of_eq (view_items exView1 hi).2.1.symm
  · exact List.Perm.of_eq (view_items exView2 hi).2.1.symm

theorem exEncOk : Build.EncOk exGeo exEnc Dists.exEncD Shapes.w1 4 (exTowns.map Town.mode) := by
  refine ⟨fun _ => rfl, fun _ => ⟨rfl, rfl, rfl⟩, ?_⟩
  intro m hm its hi it hit
  have key : ∀ l : List Nat, its.flatten.map (·.shp.pts.length) = l → (∀ x ∈ l, x < 256 ^ 8) → it.shp.pts.length < 256 ^ 8 :=
    fun l e h => h _ (by rw [← e]; exact List.mem_map.mpr ⟨it, hit, rfl⟩)
  simp only [exTowns, List.map_cons, List.map_nil, List.mem_cons, List.not_mem_nil, or_false] at hm
  rcases hm with rfl | rfl
  · exact key _ (view_items exView1 hi).2.2 (by decide)
  · exact key _ (view_items exView2 hi).2.2 (by decide)

theorem exStops : Build.StopsOk (exTowns.map Town.mode) Dists.exTables.trips Dists.exRows := by
  have h : ∀ q ∈ exTowns, ∀ k, k < 4 → ∀ t ∈ Dists.exTables.trips[k]?, (q.m.c.stops k).length = (Dists.exRows.filter fun r => r.trip = t.id).length := by
    intro m hm
    simp only [exTowns, List.mem_cons, List.not_mem_nil, or_false] at hm
    rcases hm with rfl | rfl <;> decide +kernel
  intro m hm k t ht
  obtain ⟨q, hq, rfl⟩ := List.mem_map.mp hm
  exact h q hq k (List.getElem?_eq_some_iff.mp ht).1 t ht

theorem exDone (a : Bool) {rs : List (Dists.MRun (List Nat))} (h : Build.mruns exGeo exEnc Dists.exEncD 4 (exTowns.map Town.mode) = some rs) :
    Result.Done 100 a 4 (rs.map (·.run)) (Result.start Dists.exTables.trips Result.exSrc) := by
  have ok := modes_ok exTowns_ok
  obtain ⟨i1, h1, _⟩ := Build.items_ok exGeo_ok (ok exTown1.mode (List.mem_cons_self ..))
  obtain ⟨i2, h2, _⟩ := Build.items_ok exGeo_ok (ok exTown2.mode (List.mem_cons_of_mem _ (List.mem_cons_self ..)))
  have e : rs = [Build.mrun exEnc Dists.exEncD exTown1.mode i1, Build.mrun exEnc Dists.exEncD exTown2.mode i2] := by
    simp only [Build.mruns, exTowns, List.map_cons, List.map_nil, Content.collect, h1, h2, Option.map_some] at h
    cases h
    rfl
  subst e
  have e1 : (Build.mrun exEnc Dists.exEncD exTown1.mode i1).run = ⟨exJobs1, exTown1.m.W, exTown1.m.sched, exTown1.m.keep, exTown1.m.threads⟩ := by
    simp only [Build.mrun, (view_items exView1 h1).1]
    rfl
  have e2 : (Build.mrun exEnc Dists.exEncD exTown2.mode i2).run = ⟨exJobs2, exTown2.m.W, exTown2.m.sched, exTown2.m.keep, exTown2.m.threads⟩ := by
    simp only [Build.mrun, (view_items exView2 h2).1]
    rfl
  simp only [List.map_cons, List.map_nil, e1, e2]
  refine ⟨⟨by decide, by decide, ?_⟩, ⟨by decide, by decide, ?_⟩, trivial⟩
  · intro w hw
    match w, hw, a with
    | 0, _, true => decide +kernel
    | 1, _, true => decide +kernel
    | 0, _, false => decide +kernel
    | 1, _, false => decide +kernel
  · intro w hw
    match w, hw, a with
    | 0, _, true => decide +kernel
    | 0, _, false => decide +kernel

/-- The hypotheses of `C88_drop_partial` hold (those about the feed alone are shown with C86): two towns with the crossing as map. -/
example : (∀ q ∈ exTowns, TownOk q Dists.exTables.trips.length) ∧ Line.GeoOk exGeo exPt ∧
    Build.EncOk exGeo exEnc Dists.exEncD Shapes.w1 4 (exTowns.map Town.mode) ∧ Build.Spread exGeo 7 4 (exTowns.map Town.mode) ∧
    Build.Apart (exTowns.map Town.mode) ∧ (∀ t ∈ Dists.exTables.trips, ∀ ty x, t.shape ≠ Shapes.shapeId ty x) ∧
    Build.StopsOk (exTowns.map Town.mode) Dists.exTables.trips Dists.exRows ∧ Dists.readTimes Dists.exTables.trips Dists.exRows = some Dists.exRead ∧
    (∃ rs, Build.mruns exGeo exEnc Dists.exEncD 4 (exTowns.map Town.mode) = some rs ∧
      ∀ a, Result.Done 100 a 4 (rs.map (·.run)) (Result.start Dists.exTables.trips Result.exSrc)) := by
  refine ⟨exTowns_ok, exGeo_ok, exEncOk, exSpread, ?_, ?_, exStops, by decide +kernel, ?_⟩
  · refine List.pairwise_cons.mpr ⟨?_, List.pairwise_singleton ..⟩
    intro m hm
    have hm : m = exTown2.mode := List.mem_singleton.mp hm
    subst hm
    exact ⟨rfl, (by decide : ∀ x ∈ [3], x ∉ [2])⟩
  · intro t ht ty x e
    have h : ∀ t ∈ Dists.exTables.trips, t.shape.length ≤ 1 := by decide
    have := h t ht
    rw [e] at this
    simp [Shapes.shapeId] at this
  · obtain ⟨rs, h⟩ := Build.mruns_some exGeo_ok exEnc Dists.exEncD (modes_ok exTowns_ok)
    exact ⟨rs, h, fun a => exDone a h⟩

/-! ## Without `--drop-shapes` -/

/-- Only the last trip has no shape. Both configurations have its type: the second one does not match it again. -/
def exKeep1 := exTown (exMode [2] false (fun k => k = 3) 1 (List.replicate 6 0) [[(7, [3])]])
def exKeep2 := exTown (exMode [2, 3] false (fun _ => false) 1 [0] [])

theorem exKeeps_ok : ∀ q ∈ [exKeep1, exKeep2], TownOk q 4 := by
  intro m hm
  simp only [List.mem_cons, List.not_mem_nil, or_false] at hm
  rcases hm with rfl | rfl
  · exact exTown_ok rfl (by decide +kernel)
  · exact exTown_ok rfl (by decide +kernel)

set_option synthInstance.maxSize 1024 in
/-- The hypotheses of `C88_no_drop_partial` about the configurations hold. -/
example : ∃ rs, Build.mruns exGeo exEnc Dists.exEncD 4 [exKeep1.mode, exKeep2.mode] = some rs ∧
    Result.Done 100 true 4 (rs.map (·.run)) (Result.start Dists.exTables.trips Result.exSrc) ∧
    Build.Follows 100 true 4 [exKeep1.mode, exKeep2.mode] rs (Result.start Dists.exTables.trips Result.exSrc) ∧
    Build.Spread exGeo 7 4 [exKeep1.mode, exKeep2.mode] ∧ ∀ q ∈ [exKeep1, exKeep2], q.m.c.dropShapes = false := by
  have ok := modes_ok exKeeps_ok
  obtain ⟨rs, h⟩ := Build.mruns_some exGeo_ok exEnc Dists.exEncD ok
  have v1 : view exKeep1.mode = some (exJobs2, [(7, [3])], [4], [[[1, 0]]]) := by rw [exKeep1, exMode_eq]; decide +kernel
  have v2 : view exKeep2.mode = some ([], [], [], []) := by rw [exKeep2, exMode_eq]; decide +kernel
  obtain ⟨i1, h1, _⟩ := Build.items_ok exGeo_ok (ok exKeep1.mode (List.mem_cons_self ..))
  obtain ⟨i2, h2, _⟩ := Build.items_ok exGeo_ok (ok exKeep2.mode (List.mem_cons_of_mem _ (List.mem_cons_self ..)))
  have e : rs = [Build.mrun exEnc Dists.exEncD exKeep1.mode i1, Build.mrun exEnc Dists.exEncD exKeep2.mode i2] := by
    simp only [Build.mruns, List.map_cons, List.map_nil, Content.collect, h1, h2, Option.map_some] at h
    cases h
    rfl
  subst e
  have e1 : (Build.mrun exEnc Dists.exEncD exKeep1.mode i1).run = ⟨exJobs2, exKeep1.m.W, exKeep1.m.sched, exKeep1.m.keep, exKeep1.m.threads⟩ := by
    simp only [Build.mrun, (view_items v1 h1).1]
    rfl
  have e2 : (Build.mrun exEnc Dists.exEncD exKeep2.mode i2).run = ⟨[], exKeep2.m.W, exKeep2.m.sched, exKeep2.m.keep, exKeep2.m.threads⟩ := by
    simp only [Build.mrun, (view_items v2 h2).1]
    rfl
  refine ⟨_, h, ?_, ?_, ?_, by intro m hm; simp only [List.mem_cons, List.not_mem_nil, or_false] at hm; rcases hm with rfl | rfl <;> rfl⟩
  · simp only [List.map_cons, List.map_nil, e1, e2]
    refine ⟨⟨by decide, by decide, ?_⟩, ⟨by decide, by decide, ?_⟩, trivial⟩ <;>
    · intro w hw
      match w, hw with
      | 0, _ => decide +kernel
  · simp only [Build.Follows, e1]
    rw [exKeep1, exKeep2, exMode_eq, exMode_eq]
    exact ⟨by decide +kernel, by decide +kernel, trivial⟩
  · intro m hm its hi
    simp only [List.mem_cons, List.not_mem_nil, or_false] at hm
    rcases hm with rfl | rfl
    · exact List.Perm.of_eq (view_items v1 hi).2.1.symm
    · exact List.Perm.of_eq (view_items v2 hi).2.1.symm

end Verif.Tour
