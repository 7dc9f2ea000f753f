import Verif.Model.PID
import Mathlib.Data.Rat.Defs
import Mathlib.Algebra.Order.Ring.Rat

/-
  The low pass filter that the documentation of PID.h (39-47) tells the implementer of `BaseT` to write, in exact arithmetic.
-/
namespace Atl.PID

/-- PID.h 39-40: `Filtered = (1 - filterConstant) * previousFiltered + filterConstant * Unfiltered`; the state is the previous filtered value. -/
def lowPass (c : Rat) (f e : Rat) (_dt : Nat) : Rat × Rat :=
  let y := (1 - c) * f + c * e
  (y, y)

/-- PID.h 43-44: the same with `filterConstant = deltaTime / (deltaTime + timeConstant)`. -/
def lowPassTime (tc : Rat) (f e : Rat) (dt : Nat) : Rat × Rat := lowPass (dt / (dt + tc)) f e dt

end Atl.PID
