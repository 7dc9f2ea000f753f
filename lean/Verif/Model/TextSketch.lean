import Verif.Model.TextWriter
import Verif.Model.Arduino

/-
  The TextWriter and TextFormatInfo examples (Source/Code/Arduino Libraries/ATL_IO/examples/TextWriter/TextWriter.ino and
  ATL_IO/examples/TextFormatInfo/TextFormatInfo.ino, MyTextFormatInfo.h): `TextWriter<StreamOutputStream<HardwareSerial>, FormatInfoT>`.
-/
namespace Atl.TextSketch
open Atl.Text Atl.Arduino

/-- The argument of a `WriteLine`: memory with a string, an `int` (16 bits on AVR: the overload for `int16_t`) or a `float`. -/
inductive Item where
  | str (mem : List Nat)
  | int (x : Int)
  | real (x : Rat)

/-- `textStream.WriteLine(...)` (TextWriter.h 175-226): the bytes given to `StreamOutputStream::Write`. -/
def writeItem (rnd : Rat → Rat) (f : Format) : Item → Res (List Nat)
  | .str mem => withLine f (writePtr (some mem))
  | .int x => withLine f (writeI16 16 false f x)
  | .real x => withLine f (writeFloat rnd 16 f x)

/-- `BaseT::Write` byte by byte (StreamOutputStream.h 80-85). -/
def send (bytes : List Nat) (s : Option OutCore) : Option OutCore := bytes.foldl (fun s b => writeStream b s) s

/-- A sequence of `WriteLine` calls on the stream (TextWriter.ino 12-25, TextFormatInfo.ino 12-27). -/
def writeItems (rnd : Rat → Rat) (f : Format) : List Item → Option OutCore → Res (Option OutCore)
  | [], s => .ok s
  | i :: is, s => do
    let b ← writeItem rnd f i
    writeItems rnd f is (send b s)

/-- A sketch: the constructor leaves the stream without an Arduino stream (StreamOutputStream.h 39-41), `before` is written, then
    `AttachOutputStream(&Serial)` (54-57), then `after`. -/
def sketch (rnd : Rat → Rat) (f : Format) (before after : List Item) (serial : OutCore) : Res (Option OutCore) := do
  let _ ← writeItems rnd f before none
  writeItems rnd f after (some serial)

/-- `MyTextFormatInfo` (MyTextFormatInfo.h 20-24). -/
def myFormat : Format := ⟨[10], 4, 45, 44, 16⟩

/-- The literal 3.141592f in binary32 (TextWriter.ino 24). -/
def pi : Rat := 1647099 / 524288

/-- `"Hello World!"` with its terminator (TextWriter.ino 21). -/
def hello : List Nat := [72, 101, 108, 108, 111, 32, 87, 111, 114, 108, 100, 33, 0]

/-- `setup` of both sketches (TextWriter.ino 12-25, TextFormatInfo.ino 12-27). -/
def example_ (f : Format) (serial : OutCore) : Res (Option OutCore) := sketch (roundBin 24 126) f [] [.str hello, .int 42, .real pi] serial

end Atl.TextSketch
