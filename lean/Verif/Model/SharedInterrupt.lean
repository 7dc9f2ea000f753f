import Verif.Model.SharedRegister

/-
  Motors on the outputs of one shift register chain (TB6612FNG_DriverSerial3Wire.h), commanded by main code and by interrupt handlers. Main code runs access by access:
  each `op=` on the shared word is a load and a store, each pin is written in one step. A handler gives a whole command and is not interrupted. As in
  `Model/SharedRegister.lean`, `BaseT::Write` is `Serial3WireOutput::WriteReverse`. The PWM pin counts as one step.
-/
namespace Atl.SharedInterrupt
open Atl.Bits Atl.Motor Atl.Shared

/-- Where main code is in `Send` (TB6612FNG_DriverSerial3Wire.h 81-95); `second` tells the second `Set` (84) from the first (83), `t` is the value to be stored. -/
inductive Pc (n : Nat) where
  /-- Outside `Send` (TB6612FNG_DriverSerial3Wire.h 81). -/
  | idle
  /-- Before the load of `_bits &= ~mask` (BitArray.h 116). -/
  | load (second : Bool)
  /-- Before its store (BitArray.h 116). -/
  | clear (second : Bool) (t : BitVec n)
  /-- Before the load of `_bits |= mask` (BitArray.h 121). -/
  | reload (second : Bool)
  /-- Before its store (BitArray.h 121). -/
  | set (second : Bool) (t : BitVec n)
  /-- Before the test of the loop condition and the load in `IsTrue(i)` (Serial3WireOutput.h 47-49). -/
  | bit (i : Nat)
  /-- Before the data pin is written (Serial3WireOutput.h 49). -/
  | data (i : Nat) (b : Bool)
  /-- Before the clock goes high (Serial3WireOutput.h 80). -/
  | high (i : Nat)
  /-- Before the clock goes low (Serial3WireOutput.h 81). -/
  | low (i : Nat)
  /-- Before the latch goes high (Serial3WireOutput.h 89). -/
  | latch
  /-- Before the latch goes low (Serial3WireOutput.h 90). -/
  | unlatch
  /-- Before the PWM pin is written (TB6612FNG_DriverSerial3Wire.h 87-94). -/
  | speed
  deriving Repr, DecidableEq

/-- The shared word (`_bits`), the pin writes so far, the PWM pins, the place of main code and the command it is giving (TB6612FNG_DriverSerial3Wire.h 81-103). -/
structure St (n : Nat) where
  reg : BitVec n
  pins : List Serial3Wire.Ev
  pwm : Nat → Nat
  pc : Pc n
  motor : Nat
  cmd : Cmd

variable (W : Nat) {n : Nat} (x : Nat → Nat × Nat)

/-- What follows a `Set` (TB6612FNG_DriverSerial3Wire.h 83-85). -/
def afterSet (second : Bool) : Pc n := if second then .bit 0 else .load true

/-- The bit index and the value of a `Set` (TB6612FNG_DriverSerial3Wire.h 83-84). -/
def St.target (s : St n) (second : Bool) : Nat × Bool :=
  if second then ((x s.motor).2, (args s.cmd).2.1) else ((x s.motor).1, (args s.cmd).1)

/-- The PWM pin of motor `m` written (TB6612FNG_DriverSerial3Wire.h 87-94). -/
def setPwm (p : Nat → Nat) (m v : Nat) : Nat → Nat := fun k => if k = m then v else p k

/-- One access of main code (BitArray.h 110-126, Serial3WireOutput.h 44-91, TB6612FNG_DriverSerial3Wire.h 81-95). -/
def mainStep (s : St n) : Res (St n) :=
  match s.pc with
  | .idle => .ok s
  | .load second =>
    if !BitArray.isValidIndex n (s.target x second).1 1 then .ok { s with pc := afterSet second }
    else (do
      let m ← shlOne W (s.target x second).1
      .ok { s with pc := .clear second (s.reg &&& ~~~(intToT n m)) })
  | .clear second t => .ok { s with reg := t, pc := if (s.target x second).2 then .reload second else afterSet second }
  | .reload second => (do
      let m ← shlOne W (s.target x second).1
      .ok { s with pc := .set second (s.reg ||| intToT n m) })
  | .set second t => .ok { s with reg := t, pc := afterSet second }
  | .bit i =>
    if i < n then (do
      let b ← BitArray.isTrue W s.reg i
      .ok { s with pc := .data i b })
    else .ok { s with pc := .latch }
  | .data i b => .ok { s with pins := s.pins ++ [(.data, b)], pc := .high i }
  | .high i => .ok { s with pins := s.pins ++ [(.clock, true)], pc := .low i }
  | .low i => .ok { s with pins := s.pins ++ [(.clock, false)], pc := .bit (i + 1) }
  | .latch => .ok { s with pins := s.pins ++ [(.latch, true)], pc := .unlatch }
  | .unlatch => .ok { s with pins := s.pins ++ [(.latch, false)], pc := .speed }
  | .speed => .ok { s with pwm := setPwm s.pwm s.motor (duty (args s.cmd).2.2), pc := .idle }

/-- A command given by a handler: `Send` (TB6612FNG_DriverSerial3Wire.h 81-95) as a whole. -/
def handler (s : St n) (m : Nat) (c : Cmd) : Res (St n) := do
  let (r, _) ← sendSerial W (x m).1 (x m).2 (some s.reg) (args c).1 (args c).2.1 (args c).2.2
  let t ← Serial3Wire.writeReverse W r
  .ok { s with reg := r, pins := s.pins ++ t, pwm := setPwm s.pwm m (duty (args c).2.2) }

/-- What happens: main code starts a command, main code goes on by one access, a handler gives a command (TB6612FNG_Controller.h 40-66). -/
inductive Ev where
  | start (m : Nat) (c : Cmd)
  | main
  | handler (m : Nat) (c : Cmd)
  deriving Repr

/-- One event (TB6612FNG_Controller.h 40-66). Main code starts a command only outside of `Send`. -/
def step (s : St n) : Ev → Res (St n)
  | .start m c => if s.pc = .idle then .ok { s with pc := .load false, motor := m, cmd := c } else .ok s
  | .main => mainStep W x s
  | .handler m c => handler W x s m c

/-- A history (TB6612FNG_Controller.h 40-66). -/
def run (s : St n) : List Ev → Res (St n)
  | [] => .ok s
  | e :: es => do
    let s ← step W x s e
    run s es

/-- After the last `setDataRegister` (TB6612FNG_DriverSerial3Wire.h 56-66): the word has been written to the chain (100-103). -/
def ready (reg : BitVec n) (pwm : Nat → Nat) : Res (St n) := do
  let t ← Serial3Wire.writeReverse W reg
  .ok ⟨reg, t, pwm, .idle, 0, .stop⟩

end Atl.SharedInterrupt
