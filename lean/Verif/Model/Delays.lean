import Verif.Model.Basic
/-
  Model of Delays.h, Time.h, Arduino/Time_Arduino.h and TimeoutTask.h (Source/Code/ArduinoTemplateLibrary).
  Parameters of type uint16_t / uint32_t are natural numbers; the one subtraction on them (`_delays[i] -= _delta`) is guarded by a
  comparison in the code, so it does not wrap.
-/
namespace Atl

/-- `for (int i = i0; k more rounds; i++) body` (the loops of Delays.h 59, 76, 98, 121, 143). -/
def forUp {σ : Type} (body : Nat → σ → σ) : Nat → Nat → σ → σ
  | 0, _, s => s
  | k + 1, i, s => forUp body k (i + 1) (body i s)

/-- One element of an array replaced (stores in the arrays Delays.h 171-172). -/
def upd (f : Nat → Nat) (i v : Nat) : Nat → Nat := fun j => if j = i then v else f j

namespace Delays

/-- The static members of `Delays<TimeT, MaxItems>` (Delays.h 169-172) except `_time`; the arrays are their elements
    `0 .. MaxItems-1`. -/
structure State where
  delta : Nat
  ids : Nat → Nat
  delays : Nat → Nat

/-- Delays.h 180-187. -/
def State.init : State := ⟨0, fun _ => 0, fun _ => 0⟩

/-- `Update` (47-51); `d` is what `_time.Update()` returned. -/
def State.update (s : State) (d : Nat) : State := { s with delta := d }

/-- The loop of `IsWaiting` (59-65), `k` rounds left. -/
def isWaitingLoop (ids : Nat → Nat) (id : Nat) : Nat → Nat → Bool
  | 0, _ => false
  | k + 1, i => if ids i = id then true else isWaitingLoop ids id k (i + 1)

/-- `IsWaiting` (57-68). -/
def State.isWaiting (N : Nat) (s : State) (id : Nat) : Bool := isWaitingLoop s.ids id N 0

/-- `Abort` (74-83). -/
def State.abort (N : Nat) (s : State) (id : Nat) : State :=
  { s with delays := forUp (fun i ds => if s.ids i = id then upd ds i 0 else ds) N 0 s.delays }

/-- `Clear` (141-150). -/
def State.clear (N : Nat) (s : State) (id : Nat) : State :=
  { s with ids := forUp (fun i ids => if ids i = id then upd ids i 0 else ids) N 0 s.ids }

/-- Result of the search loop of `Wait`: a listed id, or the value of `emptyIndex` at the end (Delays.h 94-137). -/
inductive Scan where
  | hit (i : Nat)
  | miss (emptyIndex : Int)
  deriving Repr, DecidableEq

/-- The first loop of `Wait` (98-117), `k` rounds left. -/
def scan (ids : Nat → Nat) (id : Nat) : Nat → Nat → Int → Scan
  | 0, _, e => .miss e
  | k + 1, i, e =>
    if e = -1 ∧ ids i = 0 then scan ids id k (i + 1) i
    else if ids i = id then .hit i
    else scan ids id k (i + 1) e

/-- The second loop of `Wait` (121-129). -/
def findEmpty (ids : Nat → Nat) : Nat → Nat → Int
  | 0, _ => -1
  | k + 1, i => if ids i = 0 then i else findEmpty ids k (i + 1)

/-- `Wait` (94-136).  Storing through `emptyIndex == -1` (132-133) is undefined behaviour. -/
def State.wait (N : Nat) (s : State) (id time : Nat) : Res (Bool × State) :=
  match scan s.ids id N 0 (-1) with
  | .hit i =>
    if s.delta ≥ s.delays i then .ok (true, { s with ids := upd s.ids i 0 })
    else .ok (false, { s with delays := upd s.delays i (s.delays i - s.delta) })
  | .miss e =>
    let e := if e = -1 then findEmpty s.ids N 0 else e
    if e < 0 then .ub
    else .ok (false, { s with ids := upd s.ids e.toNat id, delays := upd s.delays e.toNat time })

/-- `getLastDeltaTime` (163-166) returns uint16_t. -/
def State.getLastDeltaTime (s : State) : Nat := s.delta % 2 ^ 16

/-- The calls a program can make (Delays.h 47-165). -/
inductive Op where
  | update (d : Nat)
  | wait (id time : Nat)
  | abort (id : Nat)
  | clear (id : Nat)
  | isWaiting (id : Nat)
  deriving Repr, DecidableEq

/-- One call, with the value it returns to the caller (for the boolean functions) (Delays.h 47-165). -/
def State.step (N : Nat) (s : State) : Op → Res (Option Bool × State)
  | .update d => .ok (none, s.update d)
  | .wait id t => do let (b, s') ← s.wait N id t; .ok (some b, s')
  | .abort id => .ok (none, s.abort N id)
  | .clear id => .ok (none, s.clear N id)
  | .isWaiting id => .ok (some (s.isWaiting N id), s)

/-- A history of calls (Delays.h 47-165). -/
def State.run (N : Nat) (s : State) : List Op → Res (List (Option Bool) × State)
  | [] => .ok ([], s)
  | op :: ops => do
    let (o, s1) ← s.step N op
    let (os, s2) ← State.run N s1 ops
    .ok (o :: os, s2)

end Delays

namespace Time

/-- `Time::Update` (Time_Arduino.h 33-53): `now` is the value of `millis()` / `micros()`; returns the delta and the new
    `_ticks`. -/
def update (ticks now : Nat) : Nat × Nat := (toU 32 ((now : Int) - ticks), now)

/-- The constructor `Time()` (Time.h 50-54): `_ticks(0)`, then `Update()`. -/
def create (now : Nat) : Nat := (update 0 now).2

/-- Repeated `Update`: the deltas returned (Time.h 59). -/
def updates (ticks : Nat) : List Nat → List Nat × Nat
  | [] => ([], ticks)
  | n :: ns =>
    let (d, t) := update ticks n
    let (ds, t') := updates t ns
    (d :: ds, t')

/-- Time.h 107-119, milliseconds resolution. -/
def msGetMilliseconds (ticks : Nat) : Nat := ticks
/-- `getMicroseconds`, milliseconds resolution (Time.h 115-119). -/
def msGetMicroseconds (ticks : Nat) : Nat := toU 32 ((ticks : Int) * 1000)
/-- Time.h 123-135, microseconds resolution. -/
def usGetMilliseconds (ticks : Nat) : Nat := ticks / 1000
/-- `getMicroseconds`, microseconds resolution (Time.h 131-135). -/
def usGetMicroseconds (ticks : Nat) : Nat := ticks

/-- `TimeEx` (Time.h 141-192). -/
structure Ex where
  ticks : Nat
  start : Nat
  previous : Nat
  deriving Repr, DecidableEq

/-- `TimeEx()` (146-149) with `Reset` (153-156). -/
def Ex.reset (t : Ex) : Ex := { t with start := t.ticks, previous := t.ticks }
/-- `TimeEx()` (Time.h 146-149). -/
def Ex.create (now : Nat) : Ex := Ex.reset ⟨Time.create now, 0, 0⟩
/-- `TimeEx::Update` (161-166). -/
def Ex.update (t : Ex) (now : Nat) : Nat × Ex :=
  let previous := t.ticks
  let (d, ticks) := Time.update t.ticks now
  (d, { t with ticks := ticks, previous := previous })
/-- `getDeltaTime` (184-187). -/
def Ex.getDeltaTime (t : Ex) : Nat := toU 16 (toU 32 ((t.ticks : Int) - t.previous))

/-- `TimeResolution` (Time.h 31-38). -/
inductive Resolution where
  | milliseconds | microseconds
  deriving Repr, DecidableEq

/-- `getMilliseconds(ticks)` of the two specialisations (Time.h 107-110, 123-126). -/
def getMilliseconds : Resolution → Nat → Nat
  | .milliseconds => msGetMilliseconds
  | .microseconds => usGetMilliseconds
/-- `getMicroseconds(ticks)` (Time.h 115-118, 131-134). -/
def getMicroseconds : Resolution → Nat → Nat
  | .milliseconds => msGetMicroseconds
  | .microseconds => usGetMicroseconds

/-- What a program does with a `TimeEx`; `now` is what the tick counter reads (Time.h 141-192). -/
inductive Ex.Op where
  | update (now : Nat)
  | reset
  deriving Repr, DecidableEq
/-- One call (Time.h 146-166). -/
def Ex.step (t : Ex) : Ex.Op → Ex
  | .update now => (t.update now).2
  | .reset => t.reset
/-- A history after construction (Time.h 146-166). -/
def Ex.run (now : Nat) (l : List Ex.Op) : Ex := l.foldl Ex.step (Ex.create now)

end Time

namespace TimeoutTask
open Delays

/-- `_task` (TimeoutTask.h 70) and the shared delay table. -/
structure State where
  task : Nat
  delays : Delays.State

/-- TimeoutTask.h 45-47. -/
def State.init : State := ⟨0, Delays.State.init⟩

/-- `Execute` (52-60) with the macros of Task.h 43-50, 68-73 and 101-108 expanded; `case 56` is the line of `Task_YieldUntil`.
    Returns the result, the number of calls of `OnTimeout`, and the new state.  `OnTimeout` is assumed not to use this delay id. -/
def State.execute (N id timeout : Nat) (s : State) : Res ((Bool × Nat) × State) :=
  if s.task = 0 then
    -- case 0: while (true) { _yield_ = true; _task = 56; if (_yield_ ...) return true;
    .ok ((true, 0), { s with task := 56 })
  else if s.task = 56 then do
    -- case 56: _yield_ is false here
    let (b, d) ← s.delays.wait N id timeout
    if !b then .ok ((true, 0), { s with delays := d })
    else
      -- OnTimeout(); next round of the while loop: _yield_ = true; _task = 56; return true
      .ok ((true, 1), { task := 56, delays := d })
  else .ok ((false, 0), { s with task := 0 })

/-- What happens around a timeout task: time updates, calls of `Execute`, and use of the delay table by others (Delays.h 47-52, TimeoutTask.h 52-60). -/
inductive SOp where
  | execute
  | other (op : Op)
  deriving Repr, DecidableEq

/-- One step; returns the number of `OnTimeout` calls (TimeoutTask.h 52-60). -/
def State.step (N id timeout : Nat) (s : State) : SOp → Res (Nat × State)
  | .execute => do let ((_, n), s') ← s.execute N id timeout; .ok (n, s')
  | .other op => do let (_, d) ← s.delays.step N op; .ok (0, { s with delays := d })

/-- A schedule: number of `OnTimeout` calls per step (TimeoutTask.h 52-60). -/
def State.run (N id timeout : Nat) (s : State) : List SOp → Res (List Nat × State)
  | [] => .ok ([], s)
  | op :: ops => do
    let (n, s1) ← s.step N id timeout op
    let (ns, s2) ← State.run N id timeout s1 ops
    .ok (n :: ns, s2)

end TimeoutTask
end Atl
