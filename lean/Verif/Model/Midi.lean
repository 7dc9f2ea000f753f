import Verif.Model.Basic

/-
  Model of Midi.h, MidiMessage.h, MidiReader.h, MidiWriter.h (Source/Code/ArduinoTemplateLibrary).
  Bytes are natural numbers below 256.
-/
namespace Atl.Midi

/-! ### Midi.h -/

/-- Midi.h 112-115. -/
def isStatus (b : Nat) : Bool := decide (b &&& 0x80 > 0)

/-- Midi.h 121-137; `InvalidType` is 0 (70). -/
def getMessageType (b : Nat) : Nat :=
  if isStatus b then
    let status := b &&& 0xF0
    if status = 0xF0 then b else status
  else 0

/-- Midi.h 144-181. -/
def getMessageLength (statusByte : Nat) : Int :=
  match getMessageType statusByte with
  | 0xFA | 0xFB | 0xFC | 0xF8 | 0xFE | 0xFF | 0xF6 => 1
  | 0xC0 | 0xD0 | 0xF1 | 0xF3 => 2
  | 0x90 | 0x80 | 0xB0 | 0xE0 | 0xA0 | 0xF2 => 3
  | 0xF0 => -1
  | _ => 0

/-- Midi.h 187-190. -/
def isChannelMessage (b : Nat) : Bool := decide (b ≥ 0x80) && decide (b ≤ 0xE0)
/-- Midi.h 196-199. -/
def isRealtimeMessage (b : Nat) : Bool := decide (b ≥ 0xF8) && decide (b ≤ 0xFF)
/-- Midi.h 205-208. -/
def isSystemCommonMessage (b : Nat) : Bool := decide (b ≥ 0xF0) && decide (b ≤ 0xF7)
/-- Midi.h 214-217. -/
def isSystemMessage (b : Nat) : Bool := decide (b ≥ 0xF0) && decide (b ≤ 0xFF)

/-! ### MidiMessage.h -/

/-- Where the compiler puts the members of the union MidiMessage.h 67-108: `Channel`, `Beats`, `SongNumber` and `Data` at offset 0;
    `Note`/`Number` and `Bend` at `off`, `Velocity`/`Value`/`Pressure` at `off + 1`; `Bend` is an `int` of `w` bytes. -/
structure Layout where
  off : Nat
  w : Nat
  deriving Repr, DecidableEq

/-- avr-gcc: no alignment, 2-byte int (the compiler for MidiMessage.h 54-110). -/
def Layout.avr : Layout := ⟨1, 2⟩
/-- 32-bit host: `int` is 4 bytes, 4-aligned (the compiler for MidiMessage.h 54-110). -/
def Layout.host : Layout := ⟨4, 4⟩

/-- MidiMessage.h 54-108: the type and the bytes of the union. -/
structure Msg where
  type : Nat
  mem : Nat → Nat

/-- Little-endian load of `k` bytes (reads of the union MidiMessage.h 66-110). -/
def load (m : Nat → Nat) (o : Nat) : Nat → Nat
  | 0 => 0
  | k + 1 => m o + 256 * load m (o + 1) k

/-- Little-endian store of `k` bytes (writes to the union MidiMessage.h 66-110). -/
def store (m : Nat → Nat) (o : Nat) : Nat → Nat → (Nat → Nat)
  | 0, _ => m
  | k + 1, v => fun a => if a = o then v % 256 else store m (o + 1) k (v / 256) a

/-- MidiMessage.h 59-62. -/
def Msg.init : Msg := ⟨0, fun _ => 0⟩

/-- MidiMessage.h 72. -/
def Msg.channel (m : Msg) : Nat := m.mem 0
/-- MidiMessage.h 81-83 (`Note` / `Number`). -/
def Msg.note (L : Layout) (m : Msg) : Nat := m.mem L.off
/-- MidiMessage.h 89-93 (`Velocity` / `Value` / `Pressure`). -/
def Msg.velocity (L : Layout) (m : Msg) : Nat := m.mem (L.off + 1)
/-- MidiMessage.h 98, the bit pattern of the `int` (its value whenever that is not negative). -/
def Msg.bend (L : Layout) (m : Msg) : Nat := load m.mem L.off L.w
/-- MidiMessage.h 103. -/
def Msg.beats (m : Msg) : Nat := load m.mem 0 2
/-- MidiMessage.h 105-107 (`SongNumber` / `Data`). -/
def Msg.dataField (m : Msg) : Nat := m.mem 0

/-- MidiMessage.h 116-124. -/
def Msg.getStatusByte (m : Msg) : Nat :=
  if isSystemMessage m.type then m.type else m.type ||| m.channel

/-- MidiMessage.h 129-141. -/
def Msg.setStatusByte (L : Layout) (m : Msg) (statusByte : Nat) : Msg :=
  let m := { m with type := getMessageType statusByte }
  let m := { m with mem := store m.mem L.off L.w 0 }
  let m := { m with mem := store m.mem 0 2 0 }
  if !isSystemMessage m.type then { m with mem := store m.mem 0 1 (statusByte &&& 0x0F) } else m

/-- MidiMessage.h 146-185. -/
def Msg.getDataByte1 (L : Layout) (m : Msg) : Nat :=
  match m.type with
  | 0x90 | 0x80 | 0xA0 | 0xB0 | 0xC0 => m.note L &&& 0x7F
  | 0xD0 => m.velocity L
  | 0xF3 | 0xF1 => m.dataField &&& 0x7F
  | 0xE0 => (m.bend L &&& 0x7F) &&& 0x7F
  | 0xF2 => (m.beats &&& 0x7F) &&& 0x7F
  | _ => 0

/-- MidiMessage.h 190-225. -/
def Msg.setDataByte1 (L : Layout) (m : Msg) (b : Nat) : Msg :=
  match m.type with
  | 0x90 | 0x80 | 0xA0 | 0xB0 | 0xC0 => { m with mem := store m.mem L.off 1 b }
  | 0xD0 => { m with mem := store m.mem (L.off + 1) 1 b }
  | 0xF3 | 0xF1 => { m with mem := store m.mem 0 1 b }
  | 0xE0 => { m with mem := store m.mem L.off L.w b }
  | 0xF2 => { m with mem := store m.mem 0 2 b }
  | _ => m

/-- MidiMessage.h 230-258. -/
def Msg.getDataByte2 (L : Layout) (m : Msg) : Nat :=
  match m.type with
  | 0x90 | 0x80 | 0xA0 | 0xB0 => m.velocity L &&& 0x7F
  | 0xE0 => ((m.bend L &&& 0x3F80) >>> 7) &&& 0x7F
  | 0xF2 => ((m.beats &&& 0x3F80) >>> 7) &&& 0x7F
  | _ => 0

/-- MidiMessage.h 263-287. -/
def Msg.setDataByte2 (L : Layout) (m : Msg) (b : Nat) : Msg :=
  match m.type with
  | 0x90 | 0x80 | 0xA0 | 0xB0 => { m with mem := store m.mem (L.off + 1) 1 b }
  | 0xE0 => { m with mem := store m.mem L.off L.w (m.bend L ||| (b <<< 7)) }
  | 0xF2 => { m with mem := store m.mem 0 2 (m.beats ||| (b <<< 7)) }
  | _ => m

/-! ### MidiReader.h -/

/-- MidiReader.h 73-81. -/
inductive PState where
  | notSet | statusByte | dataByte1 | dataByte2 | sox | eox
  deriving Repr, DecidableEq

/-- Calls into the base class (MidiReader.h 98-112); OnMessage gets a pointer to the message, the model records its
    contents at that moment. -/
inductive Ev where
  | onMessage (m : Msg)
  | onRealtime (type : Nat)
  | onSysEx

/-- MidiReader.h 71-96. -/
structure Reader where
  msg : Msg
  running : Nat
  parse : PState
  endState : PState

/-- MidiReader.h 42-44. -/
def Reader.init : Reader := ⟨Msg.init, 0, .statusByte, .notSet⟩

/-- MidiReader.h 114-118. -/
def Reader.resetState (r : Reader) : Reader := { r with parse := .statusByte, endState := .notSet }

/-- MidiReader.h 211-252.  The OnSysEx callback is assumed not to read from the reader itself. -/
def Reader.processStatus (L : Layout) (r : Reader) (b : Nat) : Reader × List Ev × Bool :=
  match getMessageLength b with
  | 1 => (r, [.onRealtime b], true)
  | 2 => ({ r with msg := r.msg.setStatusByte L b, parse := .dataByte1, endState := .dataByte1 }, [], true)
  | 3 => ({ r with msg := r.msg.setStatusByte L b, parse := .dataByte1, endState := .dataByte2 }, [], true)
  | -1 => ({ r with running := 0, parse := .sox, endState := .eox }, [.onSysEx], true)
  | _ => (({ r with running := 0 } : Reader).resetState, [], false)

/-- MidiReader.h 255-277. -/
def Reader.processData (L : Layout) (r : Reader) (b : Nat) : Reader × Bool :=
  match r.parse with
  | .dataByte1 =>
    ({ r with msg := r.msg.setDataByte1 L b, parse := if r.parse ≠ r.endState then .dataByte2 else .notSet }, true)
  | .dataByte2 => ({ r with msg := r.msg.setDataByte2 L b, parse := .notSet }, true)
  | _ => (r, false)

/-- MidiReader.h 187-205, the part after the byte was processed. -/
def Reader.finish (x : Reader × List Ev × Bool) : Reader × List Ev × Bool :=
  let (r, ev, success) := x
  if success && decide (r.parse = .notSet) then
    let r := { r with running := if isChannelMessage r.msg.type then r.msg.type ||| r.msg.channel else 0 }
    let ev := if r.endState ≠ .eox then ev ++ [.onMessage r.msg] else ev
    (r.resetState, ev, success)
  else (r, ev, success)

/-- MidiReader.h 134-208. -/
def Reader.dispatch (L : Layout) (r : Reader) (b : Nat) : Reader × List Ev × Bool :=
  let status := getMessageType b
  Reader.finish <|
    if r.parse = .statusByte then
      if status = 0 ∧ r.running ≠ 0 then
        let (r1, ev, success) := r.processStatus L r.running
        if success then
          let (r2, success) := r1.processData L b
          (r2, ev, success)
        else (r1, ev, success)
      else if status > 0 then r.processStatus L b
      else (r, [], false)
    else if r.parse = .sox then (r, [], false)
    else
      if status > 0 then
        if isRealtimeMessage status then r.processStatus L b else (r, [], false)
      else
        let (r1, success) := r.processData L b
        (r1, [], success)

/-- Repeated MidiReader::Read (53-68) until the input is used up: the events raised per byte. -/
def Reader.trace (L : Layout) (r : Reader) : List Nat → Reader × List (List Ev)
  | [] => (r, [])
  | b :: bs =>
    let (r1, ev, _) := r.dispatch L b
    let (r2, evs) := Reader.trace L r1 bs
    (r2, ev :: evs)

/-- All events raised for a byte stream (MidiReader.h 53-68, 98-112). -/
def Reader.events (L : Layout) (r : Reader) (bs : List Nat) : List Ev := (r.trace L bs).2.flatten

/-- The reader after a byte stream (MidiReader.h 53-68). -/
def Reader.after (L : Layout) (r : Reader) (bs : List Nat) : Reader := (r.trace L bs).1

/-! ### MidiWriter.h -/

/-- MidiWriter.h 48-88: new running status and the bytes handed to `BaseT::Write`.  (The NULL test of line 50 has no counterpart.) -/
def writeMsg (L : Layout) (running : Nat) (m : Msg) : Nat × List Nat :=
  let len := getMessageLength m.type
  let statusByte := m.getStatusByte
  let (running, out) :=
    if isChannelMessage m.type then
      if running ≠ statusByte then (statusByte, [statusByte]) else (running, [])
    else (if isSystemCommonMessage m.type then 0 else running, [statusByte])
  let out := if len > 1 then out ++ [m.getDataByte1 L] else out
  let out := if len > 2 then out ++ [m.getDataByte2 L] else out
  (running, out)

/-- A sequence of MidiWriter::Write calls; `none` stands for `Write(Midi::MessageTypes)` (93-96), which sends one byte. -/
inductive WCall where
  | msg (m : Msg)
  | type (t : Nat)

/-- One call (MidiWriter.h 48-96). -/
def writeCall (L : Layout) (running : Nat) : WCall → Nat × List Nat
  | .msg m => writeMsg L running m
  | .type t => (running, [t % 256])

/-- A sequence of calls (MidiWriter.h 48-96). -/
def writeAll (L : Layout) (running : Nat) : List WCall → Nat × List Nat
  | [] => (running, [])
  | c :: cs =>
    let (r1, o1) := writeCall L running c
    let (r2, o2) := writeAll L r1 cs
    (r2, o1 ++ o2)

end Atl.Midi
