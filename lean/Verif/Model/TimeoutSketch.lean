import Verif.Model.Arduino
import Verif.Model.Delays
import Verif.Model.Misc

/-
  Model of the example program ATL_Process/examples/TimeoutTask (TimeoutTask.ino with OutputPinTask.h; Source/Code/Arduino Libraries): output pins that are toggled
  by timeout tasks which share one delay table. The number of tasks, their pins and timeouts and the capacity of the table are parameters (the example has 4, 4).
-/
namespace Atl.TimeoutSketch
open Atl.Spec.Arduino

/-- `TimeoutTask<OutputPinTask<pin>, TaskSchedule, timeout>` at an address in memory (TimeoutTask.ino 26-29). -/
structure Task where
  address : Nat
  pin : Nat
  timeout : Nat
  deriving DecidableEq, Repr

/-- The variables of the program: `_ticks` of the `Time` in `Delays`, the table, `_task` of each task; and the pins (TimeoutTask.ino 15-29). -/
structure State where
  ticks : Nat
  delays : Delays.State
  vars : List Nat
  board : Board

/-- The constructors before `setup` (TimeoutTask.h 45-47, DigitalOutputPin.h 38-41, Time.h 50-54): `now` is what `millis()` reads. -/
def State.init (tasks : List Task) (now : Nat) (board : Board) : State :=
  ⟨Time.create now, Delays.State.init, tasks.map fun _ => TimeoutTask.State.init.task, tasks.foldl (fun b t => Arduino.outputPin t.pin b) board⟩

/-- `OnTimeout` (OutputPinTask.h 17-20), called `n` times. -/
def onTimeout (ext : Nat → Bool) (pin : Nat) : Nat → Board → Board
  | 0, b => b
  | n + 1, b => onTimeout ext pin n (Arduino.toggle ext pin b)

/-- The `Execute` calls of `loop` (TimeoutTask.ino 42-45); `ext t` are the levels at the input pins when task `t` runs. -/
def executeAll (N : Nat) (ext : Task → Nat → Bool) : List Task → List Nat → Delays.State → Board → Res (List Nat × Delays.State × Board)
  | t :: ts, v :: vs, d, b => do
    let ((_, n), r) ← (TimeoutTask.State.mk v d).execute N (Misc.getId t.address) t.timeout
    let (vs', d', b') ← executeAll N ext ts vs r.delays (onTimeout (ext t) t.pin n b)
    .ok (r.task :: vs', d', b')
  | _, vs, d, b => .ok (vs, d, b)

/-- `loop` (TimeoutTask.ino 36-47): `now` is what `millis()` reads. -/
def State.loop (N : Nat) (tasks : List Task) (s : State) (now : Nat) (ext : Task → Nat → Bool) : Res State := do
  let (delta, ticks) := Time.update s.ticks now
  let (vars, delays, board) ← executeAll N ext tasks s.vars (s.delays.update delta) s.board
  .ok ⟨ticks, delays, vars, board⟩

/-- The program: the pins after each round of `loop` (TimeoutTask.ino 36-47). -/
def State.run (N : Nat) (tasks : List Task) (s : State) : List (Nat × (Task → Nat → Bool)) → Res (List Board)
  | [] => .ok []
  | (now, ext) :: l => do
    let s1 ← s.loop N tasks now ext
    let bs ← s1.run N tasks l
    .ok (s1.board :: bs)

end Atl.TimeoutSketch
