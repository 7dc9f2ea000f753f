import Verif.Model.Sonar
import Verif.Model.Usart

/-!
  `URM37V32_Controller<URM37V32_Driver<InputStreamT, OutputStreamT> >` with the interrupt driven `UsartInputStream` of the AVR as input stream: main code calls
  `EndDistance` again and again, the receive complete interrupt comes at any moment, also inside the call.
-/
namespace Atl.SonarUsart
open Atl.Sonar Atl.Usart

/-- Where main code is inside `ReceiveResponse` (URM37V32_Driver.h 75-89): outside, before the second `getLength` (88), or with some of the four bytes read (79-83). -/
inductive Phase where
  | idle
  | second
  | reading (got : List Nat)
  deriving DecidableEq, Repr

/-- The stream, main code, the program's variable for the distance; `results`: what the calls of `EndDistance` returned with that variable afterwards;
    `answers`: those among them for which a whole response was read (history) (URM37V32_Controller.h 109-131). -/
structure Sys where
  rx : InSys
  phase : Phase
  dist : Nat
  results : List (Result × Nat)
  answers : List (Result × Nat)

/-- What can happen next (URM37V32_Driver.h 75-89, AVR/UsartInputStream.h 48-90). -/
inductive SysEv where
  /-- the line delivers a frame -/
  | arrive (f : Frame)
  /-- the receive complete interrupt, if enabled and pending -/
  | isr
  /-- main code calls `EndDistance`, or goes on inside it -/
  | main
  deriving DecidableEq, Repr

namespace Sys
/-- Main code (URM37V32_Driver.h 77-88 inside URM37V32_Controller.h 109-131): the first `getLength`, the second one, or one `Read`, whose `int16_t` is stored in a
    `uint8_t`; with the fourth byte the call ends as `endDistance` does. -/
def main (o : Out) (y : Sys) : Res Sys := match y.phase with
  | .idle => .ok { y with phase := if RingBuffer.getLength y.rx.s.buf > 3 then .reading [] else .second }
  | .second =>
    let r := if RingBuffer.getLength y.rx.s.buf > 0 then Result.pending else Result.none
    .ok { y with phase := .idle, results := y.results ++ [(r, y.dist)] }
  | .reading got => do
    let (s, v) ← y.rx.s.read
    let rx := { y.rx with s := s, returned := if v = -1 then y.rx.returned else y.rx.returned ++ [v.toNat] }
    let got := got ++ [toU 8 v]
    if got.length < 4 then .ok { y with rx := rx, phase := .reading got }
    else
      let (r, d, _) := endDistance o y.dist got
      .ok { rx := rx, phase := .idle, dist := d, results := y.results ++ [(r, d)], answers := y.answers ++ [(r, d)] }

/-- One event (URM37V32_Driver.h 75-89, AVR/UsartInputStream.h 48-90). -/
def step (o : Out) (y : Sys) : SysEv → Res Sys
  | .arrive f => do let r ← y.rx.step (.arrive f); .ok { y with rx := r }
  | .isr => do let r ← y.rx.step .isr; .ok { y with rx := r }
  | .main => y.main o

/-- A history (URM37V32_Driver.h 75-89, AVR/UsartInputStream.h 48-90). -/
def run (o : Out) (y : Sys) : List SysEv → Res Sys
  | [] => .ok y
  | e :: es => do let y ← step o y e; run o y es

/-- The stream just constructed, `g` its uninitialised buffer memory, `b` the control register, `d` the program's variable (AVR/UsartInputStream.h 41-112). -/
def init (g : List Nat) (b : BitVec 8) (d : Nat) : Sys :=
  { rx := { s := { buf := RingBuffer.mk g, hw := { ucsrb := b } }, returned := [], kept := [] }, phase := .idle, dist := d, results := [], answers := [] }
end Sys
end Atl.SonarUsart
