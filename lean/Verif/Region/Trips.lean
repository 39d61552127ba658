import Verif.Region.Props
import Verif.Area.Props

/-!
# C93: the boxes of the trips of several feeds
-/

namespace Verif.Region
open Verif.BBoxIdx (Pt Box InBox treeHas)
open Verif.Area (Env Trip ST gtfsBoxes boxLoop WillBeShaped Outlier Around)

variable {S : Type}

/-- The padded boxes of the trips of a feed. -/
def tripBoxes (env : Env S) (mots : List Nat) (tid : List Nat) (dropShapes : Bool) (v : Rat) (pad : Box → Box) (trips : List (Trip S)) : List Box :=
  (gtfsBoxes env mots tid dropShapes v trips).filterMap fun b => b.map pad

theorem mem_tripBoxes (env : Env S) (mots : List Nat) (tid : List Nat) (dropShapes : Bool) (v : Rat) (pad : Box → Box) (trips : List (Trip S)) (c : Box) :
    c ∈ tripBoxes env mots tid dropShapes v pad trips ↔
      ∃ t ∈ trips, WillBeShaped mots tid dropShapes t ∧ ∃ b, boxLoop env v t.sts 0 none t.sts = some b ∧ c = pad b := by
  unfold tripBoxes
  rw [Area.boxes_eq, Area.filter_looked]
  simp only [List.mem_filterMap, List.mem_map, List.mem_filter, Option.map_eq_some_iff]
  constructor
  · rintro ⟨_, ⟨t, ⟨h1, h2⟩, h3⟩, b, rfl, rfl⟩
    exact ⟨t, h1, (Area.looked_iff _ _ _ _).1 h2, b, h3, rfl⟩
  · rintro ⟨t, h1, h2, b, h3, rfl⟩
    exact ⟨_, ⟨t, ⟨h1, (Area.looked_iff _ _ _ _).2 h2⟩, h3⟩, b, rfl, rfl⟩

/-- With a greater speed fewer stops are left out, and the box of a trip is not smaller. -/
theorem box_mono (env : Env S) (hsym : ∀ a b, env.dist a b = env.dist b a) (hd : ∀ a b, 0 ≤ env.dist a b) (v w : Rat) (hv : 0 < v) (hw : v ≤ w) (t : Trip S)
    (h2 : 2 ≤ t.sts.length) (b : Box) (hb : boxLoop env v t.sts 0 none t.sts = some b) :
    ∃ c, boxLoop env w t.sts 0 none t.sts = some c ∧ Within [b] c := by
  obtain ⟨b', ps, hb', ha, hp⟩ := Area.tripBox env hsym v hv t h2
  rw [hb] at hb'
  cases hb'
  obtain ⟨c, qs, hc, ha', hq⟩ := Area.tripBox env hsym w (by grind) t h2
  refine ⟨c, hc, ?_⟩
  have sub : ∀ p ∈ ps, InBox p c := by
    intro p h
    obtain ⟨i, st, h3, h4, h5⟩ := (hp p).1 h
    refine ha'.1 p ((hq p).2 ⟨i, st, h3, ?_, h5⟩)
    rintro ⟨a1, a2, a3, g1, g2, g3, g4, g5, g6⟩
    exact h4 ⟨a1, a2, a3, g1, g2, g3, g4, Area.cannotReach_mono env hd v w hv hw _ _ g5, Area.cannotReach_mono env hd v w hv hw _ _ g6⟩
  obtain ⟨_, ⟨p1, m1, e1⟩, ⟨p2, m2, e2⟩, ⟨p3, m3, e3⟩, ⟨p4, m4, e4⟩⟩ := ha
  intro x hx
  rw [List.mem_singleton.1 hx, ← e1, ← e2, ← e3, ← e4]
  exact ⟨(sub _ m1).1, (sub _ m2).2.1, (sub _ m3).2.2.1, (sub _ m4).2.2.2⟩

/-- C93: a file is filtered for all trips of all feeds (`all`), with the modes of all configurations and the greatest speed. For a feed, some of the modes
and a smaller speed, all boxes of trips lie in the area of the file; and so does the area that is read, if no two of these boxes have an area in common. -/
theorem C93_trips (env : Env S) (hsym : ∀ a b, env.dist a b = env.dist b a) (hd : ∀ a b, 0 ≤ env.dist a b) (mots used : List Nat)
    (hm : ∀ m ∈ used, m ∈ mots) (tid : List Nat) (dropShapes : Bool) (v w : Rat) (hv : 0 < v) (hw : v ≤ w) (trips all : List (Trip S))
    (ht : ∀ t ∈ trips, t ∈ all) (area : Box → Option Box → Int) (pad : Box → Box) (hpad : ∀ b c, Within [b] c → Within [pad b] (pad c)) (q : Pt) :
    ((∃ c ∈ tripBoxes env used tid dropShapes v pad trips, InBox q c) →
      treeHas q (BBoxIdx.build area (tripBoxes env mots tid true w pad all)) = true) ∧
    (Apart area (tripBoxes env used tid dropShapes v pad trips) →
      treeHas q (BBoxIdx.build area (tripBoxes env used tid dropShapes v pad trips)) = true →
      treeHas q (BBoxIdx.build area (tripBoxes env mots tid true w pad all)) = true) := by
  have key : (∃ c ∈ tripBoxes env used tid dropShapes v pad trips, InBox q c) →
      treeHas q (BBoxIdx.build area (tripBoxes env mots tid true w pad all)) = true := by
    rintro ⟨c, hc, hq⟩
    obtain ⟨t, h1, h2, b, h3, rfl⟩ := (mem_tripBoxes env used tid dropShapes v pad trips c).1 hc
    obtain ⟨b', h4, h5⟩ := box_mono env hsym hd v w hv hw t h2.2.2.1 b h3
    refine BBoxIdx.C21_covers area _ (pad b') ((mem_tripBoxes env mots tid true w pad all _).2
      ⟨t, ht t h1, ⟨fun _ => .inr rfl, h2.2.1, h2.2.2.1, hm _ h2.2.2.2⟩, b', h4, rfl⟩) q ?_
    obtain ⟨a1, a2, a3, a4⟩ := hpad b b' h5 (pad b) List.mem_cons_self
    exact ⟨Int.le_trans a1 hq.1, Int.le_trans hq.2.1 a2, Int.le_trans a3 hq.2.2.1, Int.le_trans hq.2.2.2 a4⟩
  exact ⟨key, fun ha h => key ((area_apart ha q).1 h)⟩

/-! ### example -/

/-- Stops are points on two lines. -/
def exStops : Env Nat := ⟨fun s => ⟨s, s % 2⟩, fun a b => if a ≤ b then (b - a : Nat) else (a - b : Nat), fun _ => none⟩

/-- A bus, a bus far away that has a shape, and a tram. -/
def exTrips : List (Trip Nat) :=
  [⟨[1], false, 3, [⟨0, 0, 0⟩, ⟨3, 60, 60⟩, ⟨4, 120, 120⟩]⟩, ⟨[2], true, 3, [⟨20, 0, 0⟩, ⟨23, 60, 60⟩]⟩, ⟨[3], false, 0, [⟨2, 0, 0⟩, ⟨7, 60, 60⟩]⟩]

/-- C93 for trips is not vacuous: the map is filtered for all trips and read for the buses without shape, or for all buses. -/
example : (∀ a b, exStops.dist a b = exStops.dist b a) ∧ (∀ a b, 0 ≤ exStops.dist a b) ∧ (∀ b c, Within [b] c → Within [exPad b] (exPad c)) ∧
    tripBoxes exStops [3] [] false 1 exPad exTrips = [⟨-1, -1, 5, 2⟩] ∧
    tripBoxes exStops [3] [] true 1 exPad exTrips = [⟨-1, -1, 5, 2⟩, ⟨19, -1, 24, 2⟩] ∧
    tripBoxes exStops [0, 3] [] true 2 exPad exTrips = [⟨-1, -1, 5, 2⟩, ⟨19, -1, 24, 2⟩, ⟨1, -1, 8, 2⟩] ∧
    Apart BBoxIdx.exArea (tripBoxes exStops [3] [] true 1 exPad exTrips) := by
  have e : tripBoxes exStops [3] [] true 1 exPad exTrips = [⟨-1, -1, 5, 2⟩, ⟨19, -1, 24, 2⟩] := by decide +kernel
  refine ⟨?_, ?_, ?_, by decide +kernel, e, by decide +kernel, by rw [e]; unfold Apart; decide⟩
  · intro a b
    show (if a ≤ b then ((b - a : Nat) : Rat) else ((a - b : Nat) : Rat)) = if b ≤ a then ((a - b : Nat) : Rat) else ((b - a : Nat) : Rat)
    by_cases h : a ≤ b
    · by_cases h' : b ≤ a
      · have : a = b := by omega
        subst this
        rfl
      · rw [if_pos h, if_neg h']
    · rw [if_neg h, if_pos (by omega)]
  · intro a b
    show 0 ≤ if a ≤ b then ((b - a : Nat) : Rat) else ((a - b : Nat) : Rat)
    split <;> exact Rat.natCast_nonneg
  · intro b c h x hx
    have := h b List.mem_cons_self
    rw [List.mem_singleton.1 hx]
    simp only [exPad]
    omega

end Verif.Region
