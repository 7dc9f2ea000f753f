import Verif.Model.TimeInterrupt

/-
  One `TimeEx` object (Time.h 141-192) used by main code and by interrupt handlers.  Main code's calls run access by access, a handler makes whole calls.  The members are not
  volatile: with `keep` the compiler uses the count it loaded for `_previous` also in `Time::Update`, without it loads it again; `ticksFirst` says which of the two members
  `getDeltaTime` loads first (C++ leaves it open).
  Simplified: a 32-bit member is read and written in one step.
-/
namespace Atl.TimeExInterrupt
open Atl.TimeInterrupt (clock)

/-- Where main code is (Time.h 153-187, Time_Arduino.h 33-40). -/
inductive Pc where
  /-- Outside. -/
  | idle
  /-- In `Update`, the count loaded for `_previous` (Time.h 163). -/
  | looked (v : Nat)
  /-- `_previous` is stored (Time.h 163). -/
  | saved (v : Nat)
  /-- In `Time::Update`, behind `previous = _ticks` (Time_Arduino.h 35). -/
  | loaded (p : Nat)
  /-- The clock has been read, at time `t` (Time_Arduino.h 37). -/
  | clocked (p t : Nat)
  /-- In `Reset`, the count loaded (Time.h 155). -/
  | resetting (v : Nat)
  /-- In `Reset`, `_previous` is stored and `_start` is not (Time.h 155). -/
  | half (v : Nat)
  /-- In `getDeltaTime`, one of the two members loaded (Time.h 186). -/
  | reading (x : Nat)
  deriving Repr, DecidableEq

/-- What happened, seen from outside; times are in ticks since the start of the board, without wrap (Time.h 153-187, Time_Arduino.h 33-40). -/
inductive Entry where
  /-- `_ticks` is now the time `t`, and `Update` answers `told` (Time_Arduino.h 37-39). -/
  | captured (t told : Nat)
  /-- `_previous` is now the count (Time.h 155). -/
  | reset
  /-- Main code's `getDeltaTime` has loaded its first member (Time.h 186). -/
  | look
  /-- Main code's `getDeltaTime` answers (Time.h 186). -/
  | read (value : Nat)
  /-- A handler's `getDeltaTime` answers; `inside`: main code has stored `_previous` and not yet `_ticks` in `Update` (Time.h 163-165, 186). -/
  | heard (inside : Bool) (value : Nat)
  deriving Repr, DecidableEq

/-- The object (Time.h 190-191, 100), the place of main code, what happened so far. -/
structure St where
  ex : Time.Ex
  pc : Pc
  log : List Entry
  deriving Repr, DecidableEq

/-- What happens (Time.h 153-187, Time_Arduino.h 33-40). -/
inductive Ev where
  /-- Main code calls `Update` (Time.h 161) and loads the count (163). -/
  | update
  /-- Main code calls `Reset` (Time.h 153) and loads the count (155). -/
  | reset
  /-- Main code calls `getDeltaTime` (Time.h 184) and loads the first member (186). -/
  | read
  /-- Main code makes its next access, at time `t` (Time.h 153-187, Time_Arduino.h 33-40). -/
  | main (t : Nat)
  /-- A handler calls `Update` (Time.h 161-166). -/
  | tick (t : Nat)
  /-- A handler calls `Reset` (Time.h 153-156). -/
  | clear
  /-- A handler calls `getDeltaTime` (Time.h 184-187). -/
  | ask
  deriving Repr, DecidableEq

variable (keep ticksFirst : Bool)

/-- The difference of the two members, `x` loaded before (Time.h 186). -/
def difference (x : Nat) (e : Time.Ex) : Nat :=
  if ticksFirst then toU 16 (toU 32 ((x : Int) - e.previous)) else toU 16 (toU 32 ((e.ticks : Int) - x))

/-- One access of main code (Time.h 153-187, Time_Arduino.h 33-40). -/
def mainStep (s : St) (t : Nat) : St :=
  match s.pc with
  | .idle => s
  | .looked v => { s with ex := { s.ex with previous := v }, pc := .saved v }
  | .saved v => { s with pc := .loaded (if keep then v else s.ex.ticks) }
  | .loaded p => { s with pc := .clocked p t }
  | .clocked p u => ⟨{ s.ex with ticks := clock u }, .idle, s.log ++ [.captured u (toU 32 ((clock u : Int) - p))]⟩
  | .resetting v => ⟨{ s.ex with previous := v }, .half v, s.log ++ [.reset]⟩
  | .half v => { s with ex := { s.ex with start := v }, pc := .idle }
  | .reading x => { s with pc := .idle, log := s.log ++ [.read (difference ticksFirst x s.ex)] }

/-- Main code has stored `_previous` and not yet `_ticks` (Time.h 163-165). -/
def Pc.inside : Pc → Bool
  | .saved _ | .loaded _ | .clocked _ _ => true
  | _ => false

/-- One event (Time.h 153-187, Time_Arduino.h 33-40). -/
def step (s : St) : Ev → St
  | .update => { s with pc := .looked s.ex.ticks }
  | .reset => { s with pc := .resetting s.ex.ticks }
  | .read => { s with pc := .reading (if ticksFirst then s.ex.ticks else s.ex.previous), log := s.log ++ [.look] }
  | .main t => mainStep keep ticksFirst s t
  | .tick t => { s with ex := (s.ex.update (clock t)).2, log := s.log ++ [.captured t (s.ex.update (clock t)).1] }
  | .clear => { s with ex := s.ex.reset, log := s.log ++ [.reset] }
  | .ask => { s with log := s.log ++ [.heard s.pc.inside s.ex.getDeltaTime] }

/-- A history (Time.h 153-187). -/
def run (s : St) (es : List Ev) : St := es.foldl (step keep ticksFirst) s

/-- Constructed at time `t` (Time.h 146-149). -/
def St.init (t : Nat) : St := ⟨Time.Ex.create (clock t), .idle, []⟩

end Atl.TimeExInterrupt
