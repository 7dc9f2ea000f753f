import Verif.Model.Array

/-
  One `FixedString<n>` used by main code and by interrupt handlers (FixedString.h 79-91): main code is interrupted between any two accesses of a character, handlers' calls run as a whole.
  The string is read through `getBuffer()` (Array.h 108-111) up to the terminating zero, as `TextWriter::Write` does (TextWriter.h 57-66).
  Simplified: every character is loaded once; the source texts belong to their callers and do not change.
-/
namespace Atl.StringInterrupt

/-- Where main code is: outside, in `strncpy` before the store at `i` with `rest` of the text left (FixedString.h 81), or before the load at `i` with `out` read so far (TextWriter.h 61-65). -/
inductive Pc where
  | idle
  | copying (rest : List Int) (i : Nat)
  | printing (i : Nat) (out : List Int)
  deriving DecidableEq, Repr

/-- The characters (Array.h 114), the place of main code; as history variables the texts main code and handlers have read (TextWriter.h 57-66). -/
structure St where
  chars : List Int
  pc : Pc
  printed : List (List Int)
  seen : List (List Int)

/-- What happens (FixedString.h 79-91, TextWriter.h 57-66); texts without their terminator. -/
inductive Ev where
  /-- Main code calls `CopyFrom`. -/
  | copy (t : List Int)
  /-- Main code begins to read the string. -/
  | print
  /-- Main code makes its next access. -/
  | main
  /-- A handler calls `CopyFrom`. -/
  | handler (t : List Int)
  /-- A handler reads the string. -/
  | look
  deriving DecidableEq, Repr

/-- A handler's loop over the characters (TextWriter.h 61-65): undefined behind the array. -/
def readOut : List Int → Res (List Int)
  | [] => .ub
  | c :: r => if c = 0 then .ok [] else do
    let t ← readOut r
    .ok (c :: t)

/-- The next access of main code (FixedString.h 81: `strncpy` stores `n` characters, zeros behind the text; TextWriter.h 61-65). -/
def mainStep (n : Nat) (y : St) : Res St :=
  match y.pc with
  | .idle => .ok y
  | .copying rest i =>
    if i < n then do
      let c ← cSet y.chars i (rest.head?.getD 0)
      .ok { y with chars := c, pc := .copying rest.tail (i + 1) }
    else .ok { y with pc := .idle }
  | .printing i out => do
    let c ← cGet y.chars i
    if c = 0 then .ok { y with pc := .idle, printed := y.printed ++ [out] } else .ok { y with pc := .printing (i + 1) (out ++ [c]) }

/-- One event (FixedString.h 79-91, TextWriter.h 57-66); main code begins a call only outside of calls. -/
def step (n : Nat) (y : St) : Ev → Res St
  | .copy t => .ok (if y.pc = .idle then { y with pc := .copying t 0 } else y)
  | .print => .ok (if y.pc = .idle then { y with pc := .printing 0 [] } else y)
  | .main => mainStep n y
  | .handler t => do
    let s ← FixedString.copyFrom n ⟨y.chars, 0⟩ t
    .ok { y with chars := s.items }
  | .look => do
    let t ← readOut y.chars
    .ok { y with seen := y.seen ++ [t] }

/-- A history (FixedString.h 79-91). -/
def run (n : Nat) (y : St) : List Ev → Res St
  | [] => .ok y
  | e :: es => do
    let y ← step n y e
    run n y es

/-- Constructed with a text over storage `g` (FixedString.h 53-57). -/
def St.init (n : Nat) (g : List Int) (t : List Int) : Res St := do
  let s ← FixedString.initText n ⟨g, 0⟩ t
  .ok ⟨s.items, .idle, [], []⟩

end Atl.StringInterrupt
