import Verif.Model.PushButton
import Verif.Model.Misc

/-
  A program with any number of push buttons (PushButton.h) and timeout tasks (TimeoutTask.h) that share one delay table (Delays.h is all static members), each
  identified by its address (IdentifiableObject.h): the intended use of these classes together. `loop` calls ScanButton and Execute in any order and number.
-/
namespace Atl.FrontPanel
open Atl.PushButton (BState)

/-- An object of the program: `PushButton<BaseT, DelaysT, DebounceTimeout, HoldTimeout, InverseValue>` (PushButton.h 85-90) or `TimeoutTask<BaseT, DelaysT, Timeout>`
    (TimeoutTask.h 38-41) with `BaseT` an IdentifiableObject. -/
inductive Client where
  | button (address debounce hold : Nat) (inverse : Bool)
  | timer (address timeout : Nat)
  deriving DecidableEq, Repr

/-- Where it is (IdentifiableObject.h 37-40). -/
def Client.address : Client → Nat
  | .button a _ _ _ => a
  | .timer a _ => a

/-- Its variables: `_task` and `_states` (PushButton.h 165-166), `_task` (TimeoutTask.h 70). -/
inductive Vars where
  | button (task : Nat) (cur prev : BState)
  | timer (task : Nat)
  deriving DecidableEq, Repr

/-- After construction (PushButton.h 165-166, TimeoutTask.h 45-47). -/
def Client.init : Client → Vars
  | .button .. => .button PushButton.State.init.task PushButton.State.init.cur PushButton.State.init.prev
  | .timer .. => .timer TimeoutTask.State.init.task

/-- What a call shows: the state of the button after the scan (PushButton.h 138-141), or how often OnTimeout was called (TimeoutTask.h 57). -/
inductive Seen where
  | state (s : BState)
  | fired (n : Nat)
  | nothing
  deriving DecidableEq, Repr

/-- One call of ScanButton with `pin` the level at the pin (PushButton.h 106-133), or of Execute (TimeoutTask.h 52-60). -/
def Client.call (N : Nat) (c : Client) (v : Vars) (pin : Bool) (d : Delays.State) : Res (Vars × Seen × Delays.State) :=
  match c, v with
  | .button a deb hold inverse, .button task cur prev => do
    let (_, s) ← (PushButton.State.mk task cur prev d).scan N (Misc.getId a) deb hold inverse pin
    .ok (.button s.task s.cur s.prev, .state s.cur, s.delays)
  | .timer a timeout, .timer task => do
    let ((_, n), s) ← (TimeoutTask.State.mk task d).execute N (Misc.getId a) timeout
    .ok (.timer s.task, .fired n, s.delays)
  | _, v => .ok (v, .nothing, d)

/-- What the program does: `Delays::Update` (Delays.h 47-51) with the time elapsed, or a call of object `i`. -/
inductive Ev where
  | update (d : Nat)
  | call (i : Nat) (pin : Bool)
  deriving DecidableEq, Repr

/-- The variables of the program (Delays.h 169-172 and those of the objects). -/
structure State where
  delays : Delays.State
  vars : List Vars

/-- All objects constructed (Delays.h 180-187). -/
def State.init (cs : List Client) : State := ⟨Delays.State.init, cs.map Client.init⟩

/-- One step (Delays.h 47-51, PushButton.h 106-133, TimeoutTask.h 52-60). -/
def State.step (N : Nat) (cs : List Client) (s : State) : Ev → Res (State × Seen)
  | .update d => .ok ({ s with delays := s.delays.update d }, .nothing)
  | .call i pin =>
    match cs[i]?, s.vars[i]? with
    | some c, some v => do
      let (v, o, d) ← c.call N v pin s.delays
      .ok (⟨d, s.vars.set i v⟩, o)
    | _, _ => .ok (s, .nothing)

/-- A run of the program, with what every step shows (Delays.h 47-51, PushButton.h 106-133, TimeoutTask.h 52-60). -/
def State.run (N : Nat) (cs : List Client) (s : State) : List Ev → Res (State × List Seen)
  | [] => .ok (s, [])
  | e :: es => do
    let (s1, o) ← s.step N cs e
    let (s2, os) ← State.run N cs s1 es
    .ok (s2, o :: os)

end Atl.FrontPanel
