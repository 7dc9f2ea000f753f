import Verif.Model.TimeInterrupt

/-
  One `Time` object used by main code and by interrupt handlers on an 8-bit processor: `_ticks` (Time.h 100) is four bytes, main code loads and stores them one at a time, and a
  handler runs in between.  A handler is not interrupted, so its calls are whole.  `low` says whether the lowest byte is accessed first (the compiler chooses).
  Simplified: `Update` computes its result from the value it has just read from the clock; `millis()` and `micros()` themselves are whole (the core disables interrupts in them).
-/
namespace Atl.TimeTorn

/-- Where main code is (Time.h 63-66, 70-73; Time_Arduino.h 33-40). -/
inductive Pc where
  /-- Outside. -/
  | idle
  /-- In `getMilliseconds` or `getMicroseconds`: `_ticks` at the call, and the bytes loaded so far (Time.h 63-66, 70-73). -/
  | reading (first : Nat) (got : List Nat)
  /-- In `Update`, the bytes of `previous = _ticks` loaded so far (Time_Arduino.h 35). -/
  | loading (got : List Nat)
  /-- The clock has been read (Time_Arduino.h 37); `k` bytes are stored; `_ticks` was `old` before. -/
  | storing (previous now k old : Nat)
  deriving Repr, DecidableEq

/-- What was answered (Time.h 63-73, Time_Arduino.h 39). -/
inductive Entry where
  /-- To main code by a getter; `_ticks` was `first` at the call and `last` at the last load (Time.h 63-73). -/
  | read (first last value : Nat)
  /-- To a handler by a getter; main code was replacing `old` by `new` (equal if it was not) (Time.h 63-73). -/
  | heard (old new value : Nat)
  /-- By `Update`, to main code or a handler (Time_Arduino.h 39). -/
  | delta (byMain : Bool) (value : Nat)
  deriving Repr, DecidableEq

/-- `_ticks` as it is in memory (Time.h 100), the place of main code, the answers so far. -/
structure St where
  ticks : Nat
  pc : Pc
  log : List Entry
  deriving Repr, DecidableEq

/-- What happens; `t` is what the clock reads (Time.h 63-73, Time_Arduino.h 33-40). -/
inductive Ev where
  /-- Main code calls a getter (Time.h 63-73). -/
  | read
  /-- Main code calls `Update` (Time_Arduino.h 33). -/
  | update
  /-- Main code makes its next access (Time.h 63-73; Time_Arduino.h 35-37). -/
  | main (t : Nat)
  /-- A handler calls `Update` (Time_Arduino.h 33-40). -/
  | tick (t : Nat)
  /-- A handler calls a getter (Time.h 63-73). -/
  | ask
  deriving Repr, DecidableEq

/-- Byte `i` of a 32-bit value (Time.h 100). -/
def byteOf (v i : Nat) : Nat := v / 256 ^ i % 256

/-- The byte accessed as number `k` of four (Time.h 100). -/
def place (low : Bool) (k : Nat) : Nat := if low then k else 3 - k

/-- The value whose bytes were loaded in this order (Time.h 63-73). -/
def valueOf (low : Bool) (got : List Nat) : Nat :=
  if low then got.foldr (fun b v => b + 256 * v) 0 else got.foldl (fun v b => 256 * v + b) 0

/-- Byte `i` of `v` replaced by that of `n` (Time_Arduino.h 37). -/
def putByte (v n i : Nat) : Nat := v % 256 ^ i + 256 ^ i * byteOf n i + 256 ^ (i + 1) * (v / 256 ^ (i + 1))

variable (low : Bool)

/-- One access of main code (Time.h 63-73; Time_Arduino.h 35-39). -/
def mainStep (s : St) (t : Nat) : St :=
  match s.pc with
  | .idle => s
  | .reading f got =>
    let got := got ++ [byteOf s.ticks (place low got.length)]
    if got.length = 4 then { s with pc := .idle, log := s.log ++ [.read f s.ticks (valueOf low got)] }
    else { s with pc := .reading f got }
  | .loading got =>
    if got.length = 4 then { s with pc := .storing (valueOf low got) t 0 s.ticks }
    else { s with pc := .loading (got ++ [byteOf s.ticks (place low got.length)]) }
  | .storing p n k o =>
    let ticks := putByte s.ticks n (place low k)
    if k + 1 = 4 then ⟨ticks, .idle, s.log ++ [.delta true (toU 32 ((n : Int) - p))]⟩
    else { s with ticks := ticks, pc := .storing p n (k + 1) o }

/-- One event (Time.h 63-73; Time_Arduino.h 33-40). -/
def step (s : St) : Ev → St
  | .read => { s with pc := .reading s.ticks [] }
  | .update => { s with pc := .loading [] }
  | .main t => mainStep low s t
  | .tick t =>
    let (d, ticks) := Time.update s.ticks t
    { s with ticks := ticks, log := s.log ++ [.delta false d] }
  | .ask =>
    match s.pc with
    | .storing _ n _ o => { s with log := s.log ++ [.heard o n s.ticks] }
    | _ => { s with log := s.log ++ [.heard s.ticks s.ticks s.ticks] }

/-- A history (Time.h 63-73; Time_Arduino.h 33-40). -/
def run (s : St) (es : List Ev) : St := es.foldl (step low) s

/-- Constructed when the clock reads `t` (Time.h 50-54). -/
def St.init (t : Nat) : St := ⟨Time.create t, .idle, []⟩

end Atl.TimeTorn
