import Verif.Model.Delays
import Verif.Model.Bits
/-
  Model of PushButton.h and DigitalInput.h (Source/Code/ArduinoTemplateLibrary).
-/
namespace Atl.PushButton
open Delays

/-- `ButtonStates` (PushButton.h 32-44). -/
inductive BState where
  | unknown | opened | closed | hold | pending
  deriving Repr, DecidableEq

/-- `ConvertBoolToButtonState<InverseValue>::Convert` (50-72). -/
def convert (inverse : Bool) (value : Bool) : BState :=
  if inverse then (if value then .opened else .closed) else (if value then .closed else .opened)

/-- `_states` (166) holds the current state in bits 0..2 and the previous state in bits 3..5 (96-98); the model keeps the two
    fields apart (`packed_fields` in Props/PushButton shows that the bit array behaves that way). -/
structure State where
  task : Nat
  cur : BState
  prev : BState
  delays : Delays.State

/-- `_states` starts as 0 (BitArray.h constructor); `_task` has no initialiser (165): it is 0 for an object of static storage
    duration, which is assumed here. -/
def State.init : State := ⟨0, .unknown, .unknown, Delays.State.init⟩

/-- `SampleButtonState` (168-181). -/
def State.sample (inverse : Bool) (s : State) (pin : Bool) : State :=
  let newState := convert inverse pin
  let state := s.cur
  if state ≠ newState ∧ ¬ (newState = .closed ∧ state = .hold) then { s with prev := state, cur := newState } else s

/-- The condition of `DebounceButton` (189-193). -/
def State.mustDebounce (s : State) : Bool :=
  decide (s.prev ≠ s.cur) && decide (s.cur ≠ .hold) && decide (s.prev ≠ .unknown) && decide (s.prev ≠ .pending)

/-- The part of `ScanButton` after debouncing (119-133). -/
def State.tail (N id holdTimeout : Nat) (s : State) : Res (Bool × State) :=
  if s.cur = .closed then do
    let (b, d) ← s.delays.wait N id holdTimeout
    let s := { s with delays := d }
    let s := if b then { s with prev := s.cur, cur := .hold } else s
    .ok (false, { s with task := 0 })
  else if s.delays.isWaiting N id then
    .ok (false, { s with delays := s.delays.clear N id, task := 0 })
  else .ok (false, { s with task := 0 })

/-- `ScanButton` (106-133) with the Task macros expanded; `pin` is the level any `BaseT::Read()` of this call returns (there is at most
    one). -/
def State.scan (N id debounceTimeout holdTimeout : Nat) (inverse : Bool) (s : State) (pin : Bool) : Res (Bool × State) :=
  if s.task = 0 then
    let s := s.sample inverse pin
    if s.mustDebounce then
      -- DebounceButton 195-197, then Task_YieldUntil (113): _yield_ = true; _task = 113; return true
      .ok (true, { s with delays := s.delays.clear N id, cur := .pending, task := 113 })
    else s.tail N id holdTimeout
  else if s.task = 113 then do
    let (b, d) ← s.delays.wait N id debounceTimeout
    if !b then .ok (true, { s with delays := d })
    else ({ s with delays := d, prev := s.cur, cur := convert inverse pin } : State).tail N id holdTimeout
  else .ok (false, { s with task := 0 })

/-- What happens around a button: scans (with the level at the pin), time updates and other use of the delay table (PushButton.h 106-132, Delays.h 47-52). -/
inductive POp where
  | scan (pin : Bool)
  | other (op : Op)
  deriving Repr, DecidableEq

/-- One step (PushButton.h 106-132, Delays.h 47-52). -/
def State.step (N id D H : Nat) (inverse : Bool) (s : State) : POp → Res State
  | .scan pin => do let (_, s') ← s.scan N id D H inverse pin; .ok s'
  | .other op => do let (_, d) ← s.delays.step N op; .ok { s with delays := d }

/-- A schedule; returns the value of `getState()` after every step (PushButton.h 106-132, Delays.h 47-52). -/
def State.run (N id D H : Nat) (inverse : Bool) (s : State) : List POp → Res (List BState × State)
  | [] => .ok ([], s)
  | op :: ops => do
    let s1 ← s.step N id D H inverse op
    let (os, s2) ← State.run N id D H inverse s1 ops
    .ok (s1.cur :: os, s2)

end Atl.PushButton

namespace Atl.DigitalInput

/-- `DigitalInput::Read` (DigitalInput.h 44-55): the result and the new `_value`; `_value` starts as false (37). -/
def read (value pin : Bool) : Bool × Bool := if value ≠ pin then (true, pin) else (false, value)

/-- Repeated `Read`: the results and the final `getValue()` (60-63). -/
def reads (value : Bool) : List Bool → List Bool × Bool
  | [] => ([], value)
  | p :: ps =>
    let (r, v) := read value p
    let (rs, v') := reads v ps
    (r :: rs, v')

end Atl.DigitalInput
