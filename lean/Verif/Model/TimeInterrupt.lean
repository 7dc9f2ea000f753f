import Verif.Model.Delays

/-
  One `Time` object updated by main code and by interrupt handlers (as `Delays::Update`, Delays.h 47-51, does). `Update` of main code runs access by access, a handler makes
  whole calls. `_ticks` is not volatile: with `keep` the compiler computes the result from the value it has just read from the clock, without `keep` it loads `_ticks` again.
  Simplified: a 32-bit member is read and written in one step.
-/
namespace Atl.TimeInterrupt

/-- Where main code is in `Update` (Time_Arduino.h 33-40, 46-53). -/
inductive Pc where
  /-- Outside. -/
  | idle
  /-- Behind `previous = _ticks` (Time_Arduino.h 35). -/
  | loaded (previous : Nat)
  /-- The clock has been read (Time_Arduino.h 37). -/
  | clocked (previous now : Nat)
  /-- `_ticks` has been stored and will be loaded again (Time_Arduino.h 37-39). -/
  | stored (previous : Nat)
  deriving Repr, DecidableEq

/-- An answer of `Update`: of main code or a handler, whether main code was in `Update` when the handler ran, and the delta (Time_Arduino.h 39). -/
structure Entry where
  byMain : Bool
  inside : Bool
  delta : Nat
  deriving Repr, DecidableEq

/-- `_ticks` (Time.h 100), the place of main code, the answers so far (Time_Arduino.h 33-40). -/
structure St where
  ticks : Nat
  pc : Pc
  log : List Entry
  deriving Repr, DecidableEq

/-- What happens; `t` is the time in ticks since the start of the board, without wrap (Time_Arduino.h 33-40). -/
inductive Ev where
  /-- Main code calls `Update` (Time_Arduino.h 35). -/
  | start
  /-- Main code makes its next access (Time_Arduino.h 37-39). -/
  | main (t : Nat)
  /-- A handler calls `Update` (Time_Arduino.h 33-40). -/
  | handler (t : Nat)
  deriving Repr, DecidableEq

/-- What `millis()` or `micros()` return (Time_Arduino.h 37, 50). -/
def clock (t : Nat) : Nat := t % 2 ^ 32

/-- Constructed at time `t` (Time.h 50-54). -/
def St.init (t : Nat) : St := ⟨Time.create (clock t), .idle, []⟩

variable (keep : Bool)

/-- One access of main code (Time_Arduino.h 37-39). -/
def mainStep (s : St) (t : Nat) : St :=
  match s.pc with
  | .idle => s
  | .loaded p => { s with pc := .clocked p (clock t) }
  | .clocked p n =>
    if keep then ⟨n, .idle, s.log ++ [⟨true, false, toU 32 ((n : Int) - p)⟩]⟩
    else { s with ticks := n, pc := .stored p }
  | .stored p => { s with pc := .idle, log := s.log ++ [⟨true, false, toU 32 ((s.ticks : Int) - p)⟩] }

/-- One event (Time_Arduino.h 33-40). -/
def step (s : St) : Ev → St
  | .start => { s with pc := .loaded s.ticks }
  | .main t => mainStep keep s t
  | .handler t =>
    let (d, ticks) := Time.update s.ticks (clock t)
    { s with ticks := ticks, log := s.log ++ [⟨false, decide (s.pc ≠ .idle), d⟩] }

/-- A history (Time_Arduino.h 33-40). -/
def run (s : St) (es : List Ev) : St := es.foldl (step keep) s

end Atl.TimeInterrupt
