/-
  Independent specification: MIDI 1.0 messages (without System Exclusive) and a conforming receiver.
  Written from the MIDI 1.0 Detailed Specification (Table I "MIDI status bytes", section "Running status"), not from
  the library code.
-/
namespace Atl.Spec.Midi

/-- MIDI messages by meaning. -/
inductive Msg where
  | noteOff (ch note vel : Nat)
  | noteOn (ch note vel : Nat)
  | polyPressure (ch note pressure : Nat)
  | controlChange (ch number value : Nat)
  | programChange (ch number : Nat)
  | channelPressure (ch pressure : Nat)
  | pitchBend (ch value : Nat)
  | timeCode (data : Nat)
  | songPosition (beats : Nat)
  | songSelect (song : Nat)
  | tuneRequest
  | realTime (status : Nat)
  deriving Repr, DecidableEq

/-- The defined real-time status bytes. -/
def realTimes : List Nat := [0xF8, 0xFA, 0xFB, 0xFC, 0xFE, 0xFF]

/-- Field ranges of MIDI 1.0. -/
def Msg.Valid : Msg → Prop
  | .noteOff c a b | .noteOn c a b | .polyPressure c a b | .controlChange c a b => c < 16 ∧ a < 128 ∧ b < 128
  | .programChange c a | .channelPressure c a => c < 16 ∧ a < 128
  | .pitchBend c v => c < 16 ∧ v < 16384
  | .timeCode d => d < 128
  | .songPosition b => b < 16384
  | .songSelect s => s < 128
  | .tuneRequest => True
  | .realTime s => s ∈ realTimes

instance (m : Msg) : Decidable m.Valid := by cases m <;> unfold Msg.Valid <;> infer_instance

/-- Status byte of a message. -/
def Msg.status : Msg → Nat
  | .noteOff c _ _ => 0x80 + c
  | .noteOn c _ _ => 0x90 + c
  | .polyPressure c _ _ => 0xA0 + c
  | .controlChange c _ _ => 0xB0 + c
  | .programChange c _ => 0xC0 + c
  | .channelPressure c _ => 0xD0 + c
  | .pitchBend c _ => 0xE0 + c
  | .timeCode _ => 0xF1
  | .songPosition _ => 0xF2
  | .songSelect _ => 0xF3
  | .tuneRequest => 0xF6
  | .realTime s => s

/-- Data bytes of a message, least significant 7 bits first. -/
def Msg.data : Msg → List Nat
  | .noteOff _ a b | .noteOn _ a b | .polyPressure _ a b | .controlChange _ a b => [a, b]
  | .programChange _ a | .channelPressure _ a => [a]
  | .pitchBend _ v => [v % 128, v / 128]
  | .timeCode d => [d]
  | .songPosition b => [b % 128, b / 128]
  | .songSelect s => [s]
  | .tuneRequest | .realTime _ => []

/-- Complete encoding, with status byte. -/
def Msg.bytes (m : Msg) : List Nat := m.status :: m.data

def Msg.isChannel : Msg → Bool
  | .noteOff .. | .noteOn .. | .polyPressure .. | .controlChange .. | .programChange .. | .channelPressure ..
  | .pitchBend .. => true
  | _ => false

def Msg.isRealTime : Msg → Bool
  | .realTime _ => true
  | _ => false

/-- Total length in bytes of the message a status byte starts (MIDI 1.0 table); 0 for undefined status bytes, for the end of exclusive
    and for data bytes; -1 for the variable-length system exclusive. -/
def lengthTable (b : Nat) : Int :=
  if b < 0x80 then 0
  else if b < 0xC0 then 3
  else if b < 0xE0 then 2
  else if b < 0xF0 then 3
  else if b = 0xF0 then -1
  else if b = 0xF1 ∨ b = 0xF3 then 2
  else if b = 0xF2 then 3
  else if b = 0xF6 ∨ b ∈ realTimes then 1
  else 0

/-- A conforming receiver: the status in force (running status for channel messages) and the data bytes collected. -/
structure Rx where
  status : Option Nat
  data : List Nat
  deriving Repr, DecidableEq

def Rx.init : Rx := ⟨none, []⟩

/-- Number of data bytes a status byte asks for. -/
def need (s : Nat) : Nat := (lengthTable s - 1).toNat

/-- Meaning of a complete message. -/
def build (s : Nat) (d : List Nat) : Msg :=
  let a := d.getD 0 0
  let b := d.getD 1 0
  if s < 0x90 then .noteOff (s - 0x80) a b
  else if s < 0xA0 then .noteOn (s - 0x90) a b
  else if s < 0xB0 then .polyPressure (s - 0xA0) a b
  else if s < 0xC0 then .controlChange (s - 0xB0) a b
  else if s < 0xD0 then .programChange (s - 0xC0) a
  else if s < 0xE0 then .channelPressure (s - 0xD0) a
  else if s < 0xF0 then .pitchBend (s - 0xE0) (a + 128 * b)
  else if s = 0xF1 then .timeCode a
  else if s = 0xF2 then .songPosition (a + 128 * b)
  else .songSelect a

/-- One byte arriving at the receiver. -/
def Rx.step (r : Rx) (b : Nat) : Rx × List Msg :=
  if 0xF8 ≤ b then (r, if b ∈ realTimes then [.realTime b] else [])
  else if b = 0xF6 then (⟨none, []⟩, [.tuneRequest])
  else if 0x80 ≤ b then
    (if 0 < need b then ⟨some b, []⟩ else ⟨none, []⟩, [])
  else
    match r.status with
    | none => (r, [])
    | some s =>
      let d := r.data ++ [b]
      if d.length = need s then
        (⟨if s < 0xF0 then some s else none, []⟩, [build s d])
      else (⟨some s, d⟩, [])

def Rx.run (r : Rx) : List Nat → Rx × List Msg
  | [] => (r, [])
  | b :: bs =>
    let (r1, e1) := r.step b
    let (r2, e2) := Rx.run r1 bs
    (r2, e1 ++ e2)

/-- What a conforming receiver understands from a byte stream. -/
def receive (bs : List Nat) : List Msg := (Rx.run Rx.init bs).2

end Atl.Spec.Midi
