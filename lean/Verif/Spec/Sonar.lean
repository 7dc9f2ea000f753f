import Mathlib.Data.List.Basic

/-
  The URM37 serial protocol by its manual: frames of four bytes, the last one the sum of the first three (low byte).
-/
namespace Atl.Spec.Sonar

/-- A frame. -/
def frame (command high low : Nat) : List Nat := [command, high, low, (command + high + low) % 256]

/-- All are bytes. -/
def Bytes (l : List Nat) : Prop := ∀ x ∈ l, x < 256

/-- `g` is `f` with exactly one byte changed. -/
def OneByteChanged (f g : List Nat) : Prop := ∃ i x, i < f.length ∧ f[i]? ≠ some x ∧ g = f.set i x

end Atl.Spec.Sonar
