import Mathlib.Data.Rat.Floor

/-
  Independent specification of rounding to `d` decimals.
-/
namespace Atl.Spec.RealText

/-- Half a unit of the last of `d` decimals as an arithmetic that rounds with `rnd` finds it: one half, divided by ten `d` times. -/
def halfUnit (rnd : Rat → Rat) (d : Nat) : Rat := (fun h => rnd (h / 10))^[d] (1 / 2)

/-- `n` units of the last of `d` decimals are the nonnegative value `y` rounded, half-way values up. -/
def RoundsHalfUp (d : Nat) (y : Rat) (n : Nat) : Prop := (n : Rat) - 1 / 2 ≤ y * 10 ^ d ∧ y * 10 ^ d < n + 1 / 2

/-- The value lies half-way between two texts with `d` decimals. -/
def HalfWay (d : Nat) (y : Rat) : Prop := ∃ k : Int, y * 10 ^ d = k + 1 / 2

/-- The half-way values with two decimals that a 32-bit `double` of AVR is rounded up from. -/
def roundedUp (y : Rat) : Prop :=
  y = 5 / 8 ∨ y = 7 / 8 ∨ y = 13 / 8 ∨ y = 15 / 8 ∨ 2 ≤ y ∧ y < 16 ∨ 32 ≤ y ∧ y < 64 ∨ 128 ≤ y ∧ y < 2048 ∨ 2 ^ 14 ≤ y ∧ y < 2 ^ 15 ∨ 2 ^ 16 ≤ y ∧ y < 2 ^ 17

instance (y : Rat) : Decidable (roundedUp y) := by unfold roundedUp; infer_instance

end Atl.Spec.RealText
