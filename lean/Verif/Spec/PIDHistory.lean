import Verif.Spec.PID

/-
  What a PID controller is supposed to remember, as functions of the whole history of samples, without any state machine:
  the integral of the error since it was last acceptable, and the smoothed error.
-/
namespace Atl.Spec.PID

/-- One sample: set point minus feedback, the tolerance, the time step and the gain of the integral. -/
structure Sample where
  diff : Rat
  tol : Rat
  dt : Rat
  ki : Rat

/-- The error that counts. -/
def Sample.err (s : Sample) : Rat := if |s.diff| ≤ s.tol then 0 else s.diff

/-- The samples after the last acceptable one, and whether there was one. -/
def sinceOk : List Sample → List Sample × Bool
  | [] => ([], false)
  | s :: ss =>
    let (r, b) := sinceOk ss
    if b then (r, true) else if |s.diff| ≤ s.tol then (r, true) else (s :: r, false)

/-- Gain times error times time step, summed. -/
def area (l : List Sample) : Rat := (l.map fun s => s.ki * s.diff * s.dt).sum

/-- The integral: everything since the error was last acceptable, on top of the start value if it never was. -/
def integral (a : Rat) (l : List Sample) : Rat := (if (sinceOk l).2 then 0 else a) + area (sinceOk l).1

/-- The exponentially weighted mean of the errors (oldest first): the newest counts `c`, each older one `1 - c` times as much. -/
def weighted (c : Rat) : List Rat → Rat
  | [] => 0
  | e :: es => c * (1 - c) ^ es.length * e + weighted c es

/-- The smoothed error: the weighted mean on top of what is left of the start value. -/
def smooth (c y : Rat) (es : List Rat) : Rat := (1 - c) ^ es.length * y + weighted c es

end Atl.Spec.PID
