import Verif.Model.Midi

/-!
  A MIDI thru program: the callbacks of `MidiReader` (MidiReader.h 98-112) hand what they get to `MidiWriter::Write` (MidiWriter.h 48-96).
-/
namespace Atl.Midi

/-- What a callback writes: `OnMessage` (MidiReader.h 98-101) the message (MidiWriter.h 48-88), `OnRealtime` (MidiReader.h 103-106) its type
    (MidiWriter.h 93-96), `OnSysEx` (MidiReader.h 108-112) nothing. -/
def forward : Ev → List WCall
  | .onMessage m => [.msg m]
  | .onRealtime t => [.type t]
  | .onSysEx => []

/-- The bytes written for the bytes read (MidiReader.h 53-68, MidiWriter.h 48-96). -/
def thru (L : Layout) (bs : List Nat) : List Nat := (writeAll L 0 ((Reader.init.events L bs).flatMap forward)).2

end Atl.Midi
