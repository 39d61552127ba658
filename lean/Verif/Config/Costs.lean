import Init.Data.Rat.Lemmas
/-!
# Penalties of a configuration (C61)

`src/pfaedle/config/MotConfigReader.cpp:327-373` and `398`. Costs are tenths of a second in 32 bits.
-/

namespace Verif.Config

/-- `std::numeric_limits<uint32_t>::max()` -/
def maxU32 : Nat := 4294967295

/-- Conversion of a double that is not negative to `uint32_t`; it is undefined if the integral part does not fit. -/
def toU32 (v : Rat) : Option Nat := if v < 4294967296 then some v.floor.toNat else none

/-- MotConfigReader.cpp:337-340 and 365-369: limited to the greatest value. -/
def limited (v : Rat) : Rat := if v > (maxU32 : Nat) then ((maxU32 : Nat) : Rat) else v

/-- MotConfigReader.cpp:364-372, `routing_full_turn_penalty`. -/
def fullTurnCost (pen : Rat) : Option Nat := toU32 (limited (pen * 10))

/-- MotConfigReader.cpp:337-342, then 398: `turnRestrCost *= 10.0`. -/
def turnRestrCost (entry : Rat) : Option Nat := (toU32 (limited (entry * 10))).bind fun t => toU32 ((t : Rat) * 10)

/-- Seconds as tenths, limited to the greatest cost. -/
def tenths (s : Rat) : Nat := min (s * 10).floor.toNat maxU32

theorem floor_of_nat (n : Nat) : ((n : Rat)).floor.toNat = n := by
  have : ((n : Rat)).floor = (n : Int) := by
    have h := Rat.floor_intCast (n : Int)
    have e : (((n : Nat) : Int) : Rat) = ((n : Nat) : Rat) := by norm_cast
    rw [e] at h
    exact h
  rw [this]
  rfl

theorem limited_lt (v : Rat) : limited v < 4294967296 := by
  unfold limited maxU32
  split <;> grind

theorem limited_floor (v : Rat) (h : 0 ≤ v) : (limited v).floor.toNat = min v.floor.toNat maxU32 := by
  have h0 : (0 : Int) ≤ v.floor := Rat.le_floor_iff.2 (by simpa using h)
  unfold limited
  split
  case isTrue hv =>
    rw [floor_of_nat]
    have : ((maxU32 : Nat) : Int) ≤ v.floor := Rat.le_floor_iff.2 (by
      have : (((maxU32 : Nat) : Int) : Rat) = ((maxU32 : Nat) : Rat) := by norm_cast
      rw [this]; grind)
    omega
  case isFalse hv =>
    have : v.floor < ((maxU32 : Nat) : Int) + 1 := Rat.floor_lt_iff.2 (by
      have : ((((maxU32 : Nat) : Int) + 1 : Int) : Rat) = ((maxU32 : Nat) : Rat) + 1 := by norm_cast
      rw [this]; grind)
    omega

/-- **C61 (full turns).** The cost of a full turn is the configured penalty in tenths of a second, limited to the greatest cost. -/
theorem C61_full_turn (pen : Rat) (h : 0 ≤ pen) : fullTurnCost pen = some (tenths pen) := by
  have hp : 0 ≤ pen * 10 := by grind
  rw [fullTurnCost, toU32, if_pos (limited_lt _), limited_floor _ hp]
  rfl

/-- **C61, in parts (forbidden turns).** The cost of a forbidden turn is ten times the one-way entry cost in tenths of a second, if that
fits. Missing: it should be that cost itself, for any entry cost. -/
theorem C61_turn_partial (entry : Rat) (h : 0 ≤ entry) (hf : tenths entry ≤ 429496729) : turnRestrCost entry = some (tenths entry * 10) := by
  have h1 := C61_full_turn entry h
  rw [fullTurnCost] at h1
  rw [turnRestrCost, h1, Option.bind_some, toU32, if_pos]
  · have : ((tenths entry : Nat) : Rat) * 10 = ((tenths entry * 10 : Nat) : Rat) := by norm_cast
    rw [this, floor_of_nat]
  · have : ((tenths entry * 10 : Nat) : Rat) < 4294967296 := by
      have : tenths entry * 10 < 4294967296 := by omega
      exact_mod_cast this
    have e : ((tenths entry : Nat) : Rat) * 10 = ((tenths entry * 10 : Nat) : Rat) := by norm_cast
    rw [e]; exact this

/-- **C61 (negation).** It is not the configured cost, unless that is 0 ... -/
theorem C61_negation (entry : Rat) (h : 0 ≤ entry) (h0 : 0 < tenths entry) : turnRestrCost entry ≠ some (tenths entry) := by
  intro he
  by_cases hf : tenths entry ≤ 429496729
  · rw [C61_turn_partial entry h hf] at he
    have := Option.some.inj he
    omega
  · have h1 := C61_full_turn entry h
    rw [fullTurnCost] at h1
    rw [turnRestrCost, h1, Option.bind_some, toU32] at he
    split at he
    case isTrue hlt =>
      have e : ((tenths entry : Nat) : Rat) * 10 = ((tenths entry * 10 : Nat) : Rat) := by norm_cast
      rw [e, floor_of_nat] at he
      simp at he
      omega
    case isFalse => cases he

/-- **C61 (negation).** ... and for a large entry cost, such as one meant to forbid such turns altogether, the conversion is undefined. -/
theorem C61_negation_undefined (entry : Rat) (h : 0 ≤ entry) (hf : 429496729 < tenths entry) : turnRestrCost entry = none := by
  have h1 := C61_full_turn entry h
  rw [fullTurnCost] at h1
  rw [turnRestrCost, h1, Option.bind_some, toU32, if_neg]
  have e : ((tenths entry : Nat) : Rat) * 10 = ((tenths entry * 10 : Nat) : Rat) := by norm_cast
  rw [e]
  have : 4294967296 ≤ tenths entry * 10 := by omega
  have : (4294967296 : Rat) ≤ ((tenths entry * 10 : Nat) : Rat) := by exact_mod_cast this
  grind

/-- The shipped configuration: 300 seconds, and a huge value. -/
example : turnRestrCost 300 = some 30000 ∧ tenths 300 = 3000 ∧ fullTurnCost 180 = some 1800 ∧
    fullTurnCost 10000000000 = some maxU32 ∧ turnRestrCost 10000000000 = none := by decide +kernel

end Verif.Config
