import Verif.Model.Basic
import Verif.Model.Task
import Verif.Model.Delays
import Verif.Model.PushButton

/-
  Model of the example program ATL_Process/examples/Task (Task.ino, CounterTask.h; Source/Code/Arduino Libraries), over the task macros of Model/Task.lean, and the bodies of
  `TimeoutTask::Execute` and `PushButton::ScanButton` written with these macros.
-/
namespace Atl.CounterSketch
open Atl.Task

/-- The variables of a `CounterTask` (CounterTask.h 43-49) but `_task`, and what has been printed; `overflow`: a signed overflow has happened. -/
structure Vars where
  counter : Int
  maxCount : Int
  overflow : Bool
  out : List String
  deriving DecidableEq, Repr

/-- `IncrementCount` (CounterTask.h 37-41); `long` has 32 bits. -/
def increment (v : Vars) : Bool × Vars :=
  (decide (v.maxCount < v.counter + 1), { v with counter := v.counter + 1, overflow := v.overflow || decide (2147483647 < v.counter + 1) })

/-- The body of `Execute` (CounterTask.h 16-33); `Task_YieldUntil` is on line 22. -/
def body : Prog Vars :=
  .while (fun v => (true, v)) (.seq (.yieldUntil 22 increment)
    (.seq (.act fun v => { v with counter := 0 })
      (.seq (.act fun v => { v with out := v.out ++ ["Counted to "] })
        (.act fun v => { v with out := v.out ++ [toString v.maxCount ++ "\r\n"] }))))

/-- A task object: `_task` (an `int`, 16 bits) and the other variables (CounterTask.h 43-49). -/
abbrev Obj := Nat × Int × Int

/-- `Execute` of the task in the program state `overflow`, `out`. `none`: does not return within `fuel` steps (CounterTask.h 16-33). -/
def execute (fuel : Nat) (o : Obj) (overflow : Bool) (out : List String) : Option (Obj × Bool × List String) :=
  (call 16 fuel body.expand o.1 ⟨o.2.1, o.2.2, overflow, out⟩).map fun r => ((r.2.1, r.2.2.counter, r.2.2.maxCount), r.2.2.overflow, r.2.2.out)

/-- `loop` (Task.ino 24-30): all tasks in turn. -/
def loop (fuel : Nat) : List Obj → Bool → List String → Option (List Obj × Bool × List String)
  | [], o, out => some ([], o, out)
  | x :: xs, o, out =>
    (execute fuel x o out).bind fun r => (loop fuel xs r.2.1 r.2.2).map fun q => (r.1 :: q.1, q.2)

/-- `n` rounds of `loop` (Task.ino 24-30). -/
def rounds (fuel : Nat) : Nat → List Obj → Bool → List String → Option (List Obj × Bool × List String)
  | 0, xs, o, out => some (xs, o, out)
  | n + 1, xs, o, out => (loop fuel xs o out).bind fun r => rounds fuel n r.1 r.2.1 r.2.2

/-- The program: the constructors (Task.ino 14-15, CounterTask.h 9; `_task` of a global object is 0), `setup` (17-22) and `n` rounds of `loop`; what was printed. -/
def program (fuel n : Nat) (maxCounts : List Int) : Option (Bool × List String) :=
  (rounds fuel n (maxCounts.map fun m => (0, 0, m)) false ["Counter Task demo:\r\n"]).map fun r => r.2

/-- The body of `TimeoutTask::Execute` (TimeoutTask.h 52-59); the state is the delay table and the number of calls of `OnTimeout`, or undefined behaviour. -/
def timeoutBody (N id timeout : Nat) : Prog (Res (Delays.State × Nat)) :=
  .while (fun s => (true, s)) (.seq
    (.yieldUntil 56 fun s => match s with
      | .ub => (true, .ub)
      | .ok (d, n) => match d.wait N id timeout with
        | .ub => (true, .ub)
        | .ok (b, d') => (b, .ok (d', n)))
    (.act fun s => match s with
      | .ub => .ub
      | .ok (d, n) => .ok (d, n + 1)))

/-- The variables of a `PushButton` but `_task` (PushButton.h 93-98). -/
structure PB where
  cur : PushButton.BState
  prev : PushButton.BState
  delays : Delays.State

/-- PushButton.h 203-216. -/
def PB.ofState (s : PushButton.State) : PB := ⟨s.cur, s.prev, s.delays⟩
/-- PushButton.h 203-216. -/
def PB.toState (task : Nat) (s : PB) : PushButton.State := ⟨task, s.cur, s.prev, s.delays⟩

/-- A condition on the variables of the button, unless there has been undefined behaviour (PushButton.h 106-132). -/
def pbCond (f : PB → Res (Bool × PB)) : Expr (Res PB) := fun s => match s with
  | .ub => (true, .ub)
  | .ok s => match f s with
    | .ub => (true, .ub)
    | .ok (b, s') => (b, .ok s')

/-- A statement on the variables of the button (PushButton.h 106-132). -/
def pbAct (f : PB → PB) : Prog (Res PB) := .act fun s => match s with
  | .ub => .ub
  | .ok s => .ok (f s)

/-- The part of `PushButton::ScanButton` on holding (PushButton.h 119-131), with `WaitForHold` (223-226). -/
def holdBody (N id hold : Nat) : Prog (Res PB) :=
  .ite (pbCond fun s => .ok (decide (s.cur = .closed), s))
    (.ite (pbCond fun s => (s.delays.wait N id hold).bind fun r => .ok (r.1, ⟨s.cur, s.prev, r.2⟩))
      (.seq (pbAct fun s => ⟨s.cur, s.cur, s.delays⟩) (pbAct fun s => ⟨.hold, s.prev, s.delays⟩))
      .skip)
    (.ite (pbCond fun s => .ok (s.delays.isWaiting N id, s))
      (pbAct fun s => ⟨s.cur, s.prev, s.delays.clear N id⟩)
      .skip)

/-- The body of `PushButton::ScanButton` (PushButton.h 106-132): `SampleButtonState` (168-181), `DebounceButton` (183-201), `WaitForDebounce` (218-221);
    `Task_YieldUntil` is on line 113. -/
def scanBody (N id debounce hold : Nat) (inverse pin : Bool) : Prog (Res PB) :=
  .seq (pbAct fun s => .ofState ((s.toState 0).sample inverse pin))
    (.seq
      (.ite (pbCond fun s => if (s.toState 0).mustDebounce then .ok (true, ⟨.pending, s.prev, s.delays.clear N id⟩) else .ok (false, s))
        (.seq
          (.yieldUntil 113 (pbCond fun s => (s.delays.wait N id debounce).bind fun r => .ok (r.1, ⟨s.cur, s.prev, r.2⟩)))
          (.seq (pbAct fun s => ⟨s.cur, s.cur, s.delays⟩) (pbAct fun s => ⟨PushButton.convert inverse pin, s.prev, s.delays⟩)))
        .skip)
      (holdBody N id hold))

end Atl.CounterSketch
