import Verif.Model.Lcd

/-
  A display on six pins (HD44780_Driver.h) written by main code and by interrupt handlers. Main code runs pin write by pin write; a handler writes a whole byte and is not
  interrupted. Delays are not modelled. A pin write is one step.
-/
namespace Atl.LcdInterrupt
open Atl.Lcd Atl.Lcd.Parallel

/-- The pin writes so far and those main code has yet to make for the byte it is writing (HD44780_Driver.h 65-107). -/
structure St where
  done : List (Pin × Bool)
  rest : List (Pin × Bool)
  deriving Repr, DecidableEq

/-- What happens (HD44780_Driver.h 65-131). -/
inductive Ev where
  /-- Main code calls `WriteData` or `WriteCommand` and makes its first pin write, `_rs` (HD44780_Driver.h 67, 77). -/
  | start (c : Call)
  /-- Main code makes its next pin write (HD44780_Driver.h 95-103, 126-131). -/
  | main
  /-- A handler makes a call (HD44780_Driver.h 65-79). -/
  | handler (c : Call)
  deriving Repr, DecidableEq

/-- The next pin write of main code (HD44780_Driver.h 65-107). -/
def next (s : St) : St :=
  match s.rest with
  | [] => s
  | w :: r => ⟨s.done ++ [w], r⟩

/-- One event (HD44780_Driver.h 65-131). -/
def step (s : St) : Ev → St
  | .start c => next { s with rest := call c }
  | .main => next s
  | .handler c => { s with done := s.done ++ call c }

/-- A history (HD44780_Driver.h 65-131). -/
def run (s : St) (es : List Ev) : St := es.foldl step s

/-- Behind the constructor (HD44780_Driver.h 49-51). -/
def start : St := ⟨init, []⟩

end Atl.LcdInterrupt
