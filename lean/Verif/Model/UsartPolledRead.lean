import Verif.Model.Usart

/-
  The polled receiver, `UsartReceive` (AVR/UsartReceive.h 119-232), used by main code and by interrupt handlers. Main code is interrupted between any two accesses of the
  registers; a handler calls `TryRead` as a whole.  `Read()` makes the accesses of `Read(outResult)` and looks at the result afterwards (AVR/UsartReceive.h 119-126).
  Simplified: nothing is written to UCSRB meanwhile; a frame lost to an overrun is one that does not arrive.
-/
namespace Atl.UsartPolledRead
open Atl.Usart

/-- Where main code is (AVR/UsartReceive.h 132-224). -/
inductive Pc where
  | idle
  /-- In `WaitIsComplete` of `Read` (AVR/UsartReceive.h 100-103, 134). -/
  | waiting
  /-- Before the test of `TryRead` (AVR/UsartReceive.h 147). -/
  | trying
  /-- Before the test of FE (AVR/UsartReceive.h 194). -/
  | fe
  /-- Before the test of UPE (AVR/UsartReceive.h 197). -/
  | upe
  /-- Before the test of DOR (AVR/UsartReceive.h 200). -/
  | dor
  /-- The result is known; before the test for nine bits (AVR/UsartReceive.h 214). -/
  | nine (r : RxResult)
  /-- Before the test of RXB8 (AVR/UsartReceive.h 216). -/
  | ninth (r : RxResult)
  /-- Before the load of UDR; `hi` the ninth bit (AVR/UsartReceive.h 222). -/
  | data (r : RxResult) (hi : Nat)
  deriving DecidableEq, Repr

/-- The USART, the place of main code, and as history variables the completed calls (of main code, `true`, or a handler; what was returned) and the frames received (AVR/UsartReceive.h 132-157). -/
structure St where
  hw : Hw
  pc : Pc
  log : List (Bool × Bool × Nat × RxResult)
  arrived : List Frame

/-- What happens (AVR/UsartReceive.h 132-224). -/
inductive Ev where
  /-- Main code calls `Read`. -/
  | read
  /-- Main code calls `TryRead`. -/
  | tryRead
  /-- Main code goes on. -/
  | main
  /-- A handler calls `TryRead`. -/
  | handler
  /-- A frame is received. -/
  | arrive (f : Frame)
  deriving DecidableEq, Repr

/-- The next access of main code (AVR/UsartReceive.h 132-224). -/
def mainStep (y : St) : St :=
  match y.pc with
  | .idle => y
  | .waiting => if rxComplete y.hw then { y with pc := .fe } else y
  | .trying => if rxComplete y.hw then { y with pc := .fe } else { y with pc := .idle, log := y.log ++ [(true, false, 0, .notReady)] }
  | .fe => { y with pc := if isTrue 4 y.hw.readA then .nine .frameError else .upe }
  | .upe => { y with pc := if isTrue 2 y.hw.readA then .nine .parityError else .dor }
  | .dor => { y with pc := .nine (if isTrue 3 y.hw.readA then .dataOverRun else .success) }
  | .nine r => { y with pc := if is9 y.hw then .ninth r else .data r 0 }
  | .ninth r => { y with pc := .data r (if isTrue 1 y.hw.readB then 0x100 else 0) }
  | .data r hi => { y with hw := y.hw.readUDR.2, pc := .idle, log := y.log ++ [(true, true, hi ||| y.hw.readUDR.1, r)] }

/-- One event (AVR/UsartReceive.h 132-224); main code begins a call only outside of calls. -/
def step (y : St) : Ev → St
  | .read => if y.pc = .idle then { y with pc := .waiting } else y
  | .tryRead => if y.pc = .idle then { y with pc := .trying } else y
  | .main => mainStep y
  | .handler =>
    let r := Usart.tryRead y.hw
    { y with hw := r.2, log := y.log ++ [(false, r.1)] }
  | .arrive f => { y with hw := { y.hw with rx := y.hw.rx ++ [f] }, arrived := y.arrived ++ [f] }

/-- A history (AVR/UsartReceive.h 132-224). -/
def run (y : St) : List Ev → St
  | [] => y
  | e :: es => run (step y e) es

/-- After opening, `b` the control register (AVR/Usart.h 64-81). -/
def St.init (b : BitVec 8) : St := ⟨{ ucsrb := b }, .idle, [], []⟩

end Atl.UsartPolledRead
