import Mathlib.Data.Rat.Defs
import Mathlib.Algebra.Order.Group.Unbundled.Abs
import Mathlib.Algebra.Order.Ring.Rat
import Mathlib.Algebra.Order.Ring.Int
/-
  Textbook PID step with dead band and clamped integrator over the rationals, as documented in PID.h 27-38
  (with the sign of the D term as implemented).
-/
namespace Atl.Spec.PID

/-- Nearest value in `[lo, hi]`. -/
def clamp (lo hi x : Rat) : Rat := max lo (min x hi)

/-- One step from integrator `acc` and last error `last`: output, new integrator, new last error. -/
def step (lo hi acc last sp fb tol dt kp ki kd : Rat) : Rat × Rat × Rat :=
  let dead := |sp - fb| ≤ tol
  let e := if dead then 0 else sp - fb
  let base := if dead then 0 else acc
  let i := if ki = 0 then base else clamp lo hi (base + ki * e * dt)
  (clamp lo hi (kp * e + i + kd * (e - last) / dt), i, e)

/-- Nearest integer in `[lo, hi]`. -/
def clampInt (lo hi x : Int) : Int := max lo (min x hi)

/-- The same step on unbounded integers; the derivative is rounded towards zero. -/
def stepInt (lo hi acc last sp fb tol : Int) (dt : Nat) (kp ki kd : Int) : Int × Int × Int :=
  let dead := |sp - fb| ≤ tol
  let e := if dead then 0 else sp - fb
  let base := if dead then 0 else acc
  let i := if ki = 0 then base else clampInt lo hi (base + e * dt * ki)
  (clampInt lo hi (e * kp + i + ((e - last) * kd).tdiv dt), i, e)

/-- A value that a signed type of `w` bits can hold. -/
def FitsSigned (w : Nat) (x : Int) : Prop := -2 ^ (w - 1) ≤ x ∧ x ≤ 2 ^ (w - 1) - 1

end Atl.Spec.PID
