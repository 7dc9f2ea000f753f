import Verif.Model.PID
import Mathlib.Algebra.Order.Ring.Rat
/-
  A PID controller in a closed loop: `BaseT::getFeedback()` (PID.h 71) measures something that the value returned by `Process` acts upon.
  The library leaves this to the application; any plant with a state of type `X` is allowed here. Exact arithmetic, no low pass filter ("If you don't want to
  implement the LowPassFilter just return the parameter value", PID.h 46-47).
-/
namespace Atl.PID.Loop
open Atl.Range

/-- What is controlled: what `getFeedback` (PID.h 71) measures, and how the plant reacts to a value between two calls of `Process` (PID.h 69-80). -/
structure Plant (X : Type) where
  out : X → Rat
  next : X → Rat → X

/-- Calls of `Process` (PID.h 69-80), one per element (whose feedback is replaced by the measured one), each followed by the reaction of the plant. Result: what was measured
    at each call, and the state of the plant and of the controller after the last one. -/
def loop {X : Type} (P : Plant X) (r : Rng Rat) (order : List Term) : X → Mem Rat Unit → List (Input Rat) → Res (List Rat × X × Mem Rat Unit)
  | x, m, [] => .ok ([], x, m)
  | x, m, c :: cs => do
    let (v, m') ← process rat r (fun f e _ => (e, f)) order { c with feedback := P.out x } m
    let (ys, x', m'') ← loop P r order (P.next x v) m' cs
    .ok (P.out x :: ys, x', m'')

end Atl.PID.Loop
