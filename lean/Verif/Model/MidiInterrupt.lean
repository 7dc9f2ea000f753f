import Verif.Model.Midi

/-
  One `MidiWriter` (MidiWriter.h 35-101) used by main code and by interrupt handlers.  `Write` of main code runs access by access - the test of `_runningStatus`, its store, and each
  byte given to `BaseT::Write` - and a handler makes whole calls in between.
  Simplified: `BaseT::Write` takes a byte as a whole and keeps the order; a message is not changed by a handler while main code writes it.
-/
namespace Atl.MidiInterrupt
open Atl.Midi

/-- Where main code is in `Write` (MidiWriter.h 48-96). -/
inductive Pc where
  /-- Outside. -/
  | idle
  /-- Before the test of `_runningStatus` (MidiWriter.h 57). -/
  | test (m : Msg)
  /-- Before its store (MidiWriter.h 59). -/
  | store (m : Msg)
  /-- Before the store that cancels it (MidiWriter.h 73). -/
  | cancel (m : Msg)
  /-- These bytes are still to be given to `BaseT::Write` (MidiWriter.h 60, 76, 81, 86, 95). -/
  | out (bs : List Nat)

/-- `_runningStatus` (MidiWriter.h 99), the place of main code, and as history variables the bytes given to `BaseT::Write` and the calls in the order in which they were decided; the
    flags tell a handler that ran while main code had bytes to give. -/
structure St where
  running : Nat
  pc : Pc
  wire : List (Bool × Nat)
  sent : List (Bool × WCall)

/-- What happens (MidiWriter.h 48-96). -/
inductive Ev where
  /-- Main code calls `Write` (MidiWriter.h 48, 93). -/
  | call (c : WCall)
  /-- Main code makes its next access (MidiWriter.h 57-95). -/
  | main
  /-- A handler calls `Write` (MidiWriter.h 48-96). -/
  | handler (c : WCall)

variable (L : Layout)

/-- The data bytes written, MidiWriter.h 79-87. -/
def dataOf (m : Msg) : List Nat :=
  (if getMessageLength m.type > 1 then [m.getDataByte1 L] else []) ++ (if getMessageLength m.type > 2 then [m.getDataByte2 L] else [])

/-- To the bytes, or out of the function if there are none (MidiWriter.h 79-88). -/
def Pc.give (bs : List Nat) : Pc := if bs = [] then .idle else .out bs

/-- Main code enters `Write` (MidiWriter.h 48-56, 68-73, 93-96). -/
def begin (s : St) : WCall → St
  | .msg m =>
    if isChannelMessage m.type then { s with pc := .test m }
    else if isSystemCommonMessage m.type then { s with pc := .cancel m }
    else { s with pc := .out (m.getStatusByte :: dataOf L m), sent := s.sent ++ [(false, .msg m)] }
  | .type t => { s with pc := .out [t % 256], sent := s.sent ++ [(false, .type t)] }

/-- One access of main code (MidiWriter.h 57-95). -/
def mainStep (s : St) : St :=
  match s.pc with
  | .idle => s
  | .test m =>
    if s.running ≠ m.getStatusByte then { s with pc := .store m }
    else { s with pc := Pc.give (dataOf L m), sent := s.sent ++ [(false, .msg m)] }
  | .store m => { s with running := m.getStatusByte, pc := .out (m.getStatusByte :: dataOf L m), sent := s.sent ++ [(false, .msg m)] }
  | .cancel m => { s with running := 0, pc := .out (m.getStatusByte :: dataOf L m), sent := s.sent ++ [(false, .msg m)] }
  | .out [] => { s with pc := .idle }
  | .out (b :: bs) => { s with pc := Pc.give bs, wire := s.wire ++ [(false, b)] }

/-- Main code has bytes to give (MidiWriter.h 60, 76, 81, 86, 95). -/
def Pc.giving : Pc → Bool
  | .out _ => true
  | _ => false

/-- One event (MidiWriter.h 48-96). -/
def step (s : St) : Ev → St
  | .call c => begin L s c
  | .main => mainStep L s
  | .handler c =>
    let (r, bs) := writeCall L s.running c
    { s with running := r, wire := s.wire ++ bs.map (fun b => (s.pc.giving, b)), sent := s.sent ++ [(s.pc.giving, c)] }

/-- A history (MidiWriter.h 48-96). -/
def run (s : St) (es : List Ev) : St := es.foldl (step L) s

/-- Constructed (MidiWriter.h 40-42). -/
def St.init : St := ⟨0, .idle, [], []⟩

end Atl.MidiInterrupt
