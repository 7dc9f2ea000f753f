import Verif.Spec.Midi

/-
  C111.  When does a MIDI byte stream leave no room for two opinions?  `Line` follows a stream and gives up (`none`) at the first byte
  whose treatment the reader and a conforming receiver do not share.  Independent of the code under test.
-/
namespace Atl.Spec.Midi

/-- Where a byte stream stands. -/
inductive Line where
  /-- Between two messages; the running status, if there is one. -/
  | idle (run : Option Nat)
  /-- A tune request has just cancelled a running status. -/
  | tuned (s : Nat)
  /-- An undefined real-time byte (F9, FD) has come while a running status was in force. -/
  | noised (s : Nat)
  /-- Inside a message: status byte and the data bytes so far. -/
  | inMsg (s : Nat) (d : List Nat)
  deriving Repr, DecidableEq

def Line.init : Line := .idle none

/-- A status byte between two messages. -/
def Line.status (l : Line) (b : Nat) : Option Line :=
  if 0 < need b then some (.inMsg b [])
  else if b = 0xF0 then none
  else if b = 0xF6 then
    match l with
    | .idle (some s) => some (.tuned s)
    | .tuned s => some (.tuned s)
    | _ => some (.idle none)
  else if b = 0xF9 ∨ b = 0xFD then
    match l with
    | .idle (some s) => some (.noised s)
    | .noised s => some (.noised s)
    | _ => some (.idle none)
  else some (.idle none)

/-- The next byte; `none`: the byte starts an exclusive message, interrupts a message, or is a data byte behind a tune request or
    an undefined real-time byte that met a running status. -/
def Line.step (l : Line) (b : Nat) : Option Line :=
  if b ∈ realTimes then some l
  else match l with
  | .inMsg s d =>
    if b < 0x80 then
      some (if d.length + 1 = need s then .idle (if s < 0xF0 then some s else none) else .inMsg s (d ++ [b]))
    else if b = s ∧ d = [] then some l
    else none
  | .idle none => if b < 0x80 then some l else l.status b
  | .idle (some s) =>
    if b < 0x80 then some (if need s = 1 then l else .inMsg s [b]) else l.status b
  | _ => if b < 0x80 then none else l.status b

def Line.run (l : Line) : List Nat → Option Line
  | [] => some l
  | b :: bs => (l.step b).bind (fun l' => Line.run l' bs)

/-- A stream in which every message is complete, tune requests and undefined bytes are followed by a status byte where they met a
    running status, and no exclusive message starts. -/
def Tidy (bs : List Nat) : Prop := (Line.init.run bs).isSome

instance (bs : List Nat) : Decidable (Tidy bs) := by unfold Tidy; infer_instance

end Atl.Spec.Midi
