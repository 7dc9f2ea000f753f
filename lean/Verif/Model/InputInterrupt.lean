import Verif.Model.PushButton

/-
  One `DigitalInput` read by main code and by interrupt handlers (DigitalInput.h 44-63): main code is interrupted between reading the pin, loading `_value` and storing it; handlers' calls run as a whole.
  Simplified: main code loads `_value` once in a call; the test and the store behind the load are one access, because a call that does not store makes no other.
-/
namespace Atl.InputInterrupt

/-- Where main code is: outside, before it reads the pin (DigitalInput.h 46), before it loads `_value` (48), before it stores the level or returns (50-54). -/
inductive Pc where
  | idle
  | begin_
  | sampled (level : Bool)
  | loaded (level old : Bool)
  deriving DecidableEq, Repr

/-- A call that has returned: made by main code, the level it read, its result (DigitalInput.h 44-55). -/
structure Report where
  main : Bool
  level : Bool
  new : Bool
  deriving DecidableEq, Repr

/-- The pin, `_value` (DigitalInput.h 66), the place of main code; as history variables the calls that have returned and the levels the pin has had. -/
structure St where
  pin : Bool
  value : Bool
  pc : Pc
  log : List Report
  levels : List Bool
  deriving DecidableEq, Repr

/-- What happens (DigitalInput.h 44-55). -/
inductive Ev where
  /-- Main code calls `Read`. -/
  | read
  /-- Main code makes its next access. -/
  | main
  /-- A handler calls `Read`. -/
  | handler
  /-- The level at the pin changes or stays. -/
  | pin (b : Bool)
  deriving DecidableEq, Repr

/-- The next access of main code (DigitalInput.h 46-54). -/
def mainStep (y : St) : St :=
  match y.pc with
  | .idle => y
  | .begin_ => { y with pc := .sampled y.pin }
  | .sampled v => { y with pc := .loaded v y.value }
  | .loaded v old =>
    if old ≠ v then { y with value := v, pc := .idle, log := y.log ++ [⟨true, v, true⟩] }
    else { y with pc := .idle, log := y.log ++ [⟨true, v, false⟩] }

/-- One event (DigitalInput.h 44-55); main code begins a call only outside of calls. -/
def step (y : St) : Ev → St
  | .read => if y.pc = .idle then { y with pc := .begin_ } else y
  | .main => mainStep y
  | .handler =>
    let (r, v) := DigitalInput.read y.value y.pin
    { y with value := v, log := y.log ++ [⟨false, y.pin, r⟩] }
  | .pin b => { y with pin := b, levels := y.levels ++ [b] }

/-- A history (DigitalInput.h 44-55). -/
def run (y : St) (es : List Ev) : St := es.foldl step y

/-- At the beginning (DigitalInput.h 36-38). -/
def St.init (pin : Bool) : St := ⟨pin, false, .idle, [], [pin]⟩

end Atl.InputInterrupt
