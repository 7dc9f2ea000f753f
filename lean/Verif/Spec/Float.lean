import Mathlib.Data.Rat.Floor

/-
  Independent specification of binary floating point: the representable numbers and rounding to nearest, with any rule for ties.
-/
namespace Atl.Spec.Float

/-- The finite numbers of a binary format with `p` bits of precision and smallest exponent `emin` (of the last bit), without upper limit.
    binary32: `p = 24`, `emin = -149`; binary64: `p = 53`, `emin = -1074`. -/
def Representable (p : Nat) (emin : Int) (y : Rat) : Prop := ∃ m k : Int, |m| < 2 ^ p ∧ emin ≤ k ∧ y = m * (2 : Rat) ^ k

/-- A function that rounds to a nearest representable number. -/
structure Rounding (p : Nat) (emin : Int) (rnd : Rat → Rat) : Prop where
  rep : ∀ y, Representable p emin (rnd y)
  nearest : ∀ y z, Representable p emin z → |rnd y - y| ≤ |z - y|

end Atl.Spec.Float
