import Verif.Model.RingBuffer
import Verif.Model.Delays
import Verif.Model.Bits
import Verif.Model.Midi
import Verif.Model.Array
import Verif.Model.TextWriter
import Verif.Model.Usart
import Verif.Model.UI
import Verif.Model.Sonar
import Verif.Model.Motor
import Verif.Model.Task
import Verif.Model.Arduino
import Verif.Model.Range
import Verif.Model.Delegate
import Mathlib.Algebra.Order.Ring.Int

/-
  The unit tests of the repository, run against the model. These are tests, not proofs of any claim: each checks that the model gives the values
  the C++ tests assert for the real code, and so guards the model's fidelity. Files are those of Source/Code/ArduinoTemplateLibrary.Tests and
  Source/Code/AvrTemplateLibrary.Tests. They run on a 32-bit host, so `int` has 32 bits here (`W = 32`, `Layout.host`), except for UsartConfig
  whose model fixes 16 bits (the values of the test do not depend on it).
-/
namespace Atl.Tests

/-- The value of a computation without undefined behaviour satisfies `p` (an `Assert` of the test framework, e.g. RingBufferTest.cpp 22-27). -/
def holds {α : Type} (r : Res α) (p : α → Bool) : Bool := match r with
  | .ok a => p a
  | .ub => false

/-! ### RingBufferTest.cpp -/

/-- `RingBuffer<unsigned char, 256>` (RingBufferTest.cpp 19-20, and in the other tests of that file). -/
def ring : RingBuffer.RB Nat := RingBuffer.mk (List.replicate 256 0xCC)

/-- `Write(i)` for `i = 0 … n-1` (RingBufferTest.cpp 22-25). -/
def fill (n : Nat) : List (RingBuffer.Op Nat) := (List.range n).map fun i => .write (i % 256)

/-- `Write(i)` and `Read()` in turn for `i = 0 … n-1` (RingBufferTest.cpp 51-58). -/
def inTurn (n : Nat) : List (RingBuffer.Op Nat) := (List.range n).flatMap fun i => [.write (i % 256), .read]

-- InitWithData_getLength_Test (17-28)
example : holds (RingBuffer.run ring (fill 255 ++ [.length])) (fun r => r.2 == List.replicate 255 (.accepted true) ++ [.len 255]) = true := by
  decide +kernel
-- InitWithData_ProtectAgainstOverrun_Test (31-42)
example : holds (RingBuffer.run ring (fill 255 ++ [.write 0xFF])) (fun r => r.2 == List.replicate 255 (.accepted true) ++ [.accepted false]) = true := by
  decide +kernel
-- InitWithData_ProtectAgainstOverrun_WithWrapAround_Test (45-66), InitWithData_WrapAround_Test (88-103)
example : holds (RingBuffer.run ring (inTurn 640 ++ fill 255 ++ [.write 0xFF])) (fun r =>
    r.2 == ((List.range 640).flatMap fun i => [.accepted true, .value (i % 256)]) ++ List.replicate 255 (.accepted true) ++ [.accepted false]) = true := by
  decide +kernel
-- InitWithData_Read_Test (69-85)
example : holds (RingBuffer.run ring (fill 255 ++ List.replicate 255 .read)) (fun r =>
    r.2 == List.replicate 255 (.accepted true) ++ (List.range 255).map .value) = true := by
  decide +kernel

/-! ### BufferedInputStreamTest.cpp, StreamInputStreamTest.cpp, StreamOutputStreamTest.cpp -/

example : holds (RingBuffer.brun (RingBuffer.mk (List.replicate 256 0)) ((List.range 128).map (fun i => .write (Fin.ofNat 256 i)) ++ List.replicate 129 .read))
    (fun r => r.2.drop 128 == (List.range 128).map (fun i => .got (i : Int)) ++ [.got (-1)]) = true := by
  decide +kernel

-- AttachStream_getLength_ReportsCorrectLength, AttachStream_Clear_RemovesAllData, AttachStream_Read_ReturnsCorrectData
example : Arduino.getLength (some [0, 0, 0, 0]) = 4 := by decide +kernel
example : Arduino.clear [[], [], [], [], []] (some [0, 0, 0, 0]) = some (some []) ∧ Arduino.getLength (some []) = 0 ∧ (Arduino.read (some [])).1 = -1 := by
  decide +kernel
example : Arduino.read (some [0, 1, 2, 3]) = (0, some [1, 2, 3]) ∧ Arduino.read (some [1, 2, 3]) = (1, some [2, 3]) ∧ Arduino.read (some [2, 3]) = (2, some [3])
    ∧ Arduino.read (some [3]) = (3, some []) := by decide +kernel
-- AttachStream_getLength_ReportsCorrectLength, AttachStream_Write_DataIntoBuffer
example : Arduino.outLength (some ⟨[], []⟩) = 0 ∧ Arduino.writeStream 0xF0 (Arduino.writeStream 0xFF (some ⟨[], []⟩)) = some ⟨[0xFF, 0xF0], []⟩ := by decide +kernel

/-! ### DelaysTest.cpp -/

-- Wait_ForDelay (17-27), for a first `Update` that returns 13
example : holds (Delays.State.run 4 Delays.State.init [.update 13, .wait 1 13, .update 13, .isWaiting 1, .wait 1 13])
    (fun r => r.1 == [none, some false, none, some true, some true]) = true := by decide +kernel
-- TimeTest.cpp, MillisecondsTime: `ticks + delta` is the new time
example : let t := Time.create 500; t + (Time.update t 1500).1 = (Time.update t 1500).2 := by decide +kernel

/-! ### BitArrayTest.cpp, BitFlagTest.cpp, BitTest .cpp -/

example : Bits.BitArray.isTrue 32 (0x04 : BitVec 8) 2 = .ok true := by decide +kernel
example : Bits.BitArray.isFalse 32 (0x04 : BitVec 8) 1 = .ok true := by decide +kernel
example : Bits.BitArray.setBool 32 (0 : BitVec 8) 3 true = .ok (8, true) := by decide +kernel
example : Bits.BitArray.setBool 32 (8 : BitVec 8) 3 false = .ok (0, true) := by decide +kernel
example : Bits.BitArray.setField 32 (0 : BitVec 8) 3 0x11 2 = .ok (8, true) := by decide +kernel
example : Bits.BitArray.getField 32 (8 : BitVec 8) 3 2 = .ok 1 := by decide +kernel
example : Bits.BitArray.reverse (0x55 : BitVec 8) = 0xAA ∧ Bits.BitArray.reverse8 0x55 = 0xAA ∧ Bits.BitArray.reverse16 0x5555 = 0xAAAA := by decide +kernel
example : Bits.BitFlag.set 32 (0 : BitVec 8) 2 = .ok 4 ∧ Bits.BitFlag.set 32 (0 : BitVec 16) 10 = .ok 0x400 ∧ Bits.BitFlag.set 32 (0 : BitVec 32) 18 = .ok 0x40000 := by
  decide +kernel
example : Bits.BitFlag.isTrue 32 (4 : BitVec 8) 2 = .ok true ∧ Bits.BitFlag.isTrue 32 (0x400 : BitVec 16) 10 = .ok true
    ∧ Bits.BitFlag.isTrue 32 (0x40000 : BitVec 32) 18 = .ok true ∧ Bits.BitFlag.isFalse 32 (0 : BitVec 8) 2 = .ok true := by decide +kernel
example : Bits.Bit.set 32 2 (0 : BitVec 8) = .ok 4 ∧ Bits.Bit.set 32 10 (0 : BitVec 16) = .ok 0x400 ∧ Bits.Bit.set 32 18 (0 : BitVec 32) = .ok 0x40000 := by
  decide +kernel
example : Bits.Bit.isTrue 32 2 (4 : BitVec 8) = .ok true ∧ Bits.Bit.isTrue 32 10 (0x400 : BitVec 16) = .ok true
    ∧ Bits.Bit.isTrue 32 18 (0x40000 : BitVec 32) = .ok true ∧ Bits.Bit.isFalse 32 2 (0 : BitVec 8) = .ok true := by decide +kernel

/-! ### ArrayTest.cpp, FixedArrayTest.cpp, FixedArrayRefTest.cpp, CollectionTest.cpp, CollectionRefTest.cpp -/

example : Arr.isValidIndex 2 2 = false ∧ Arr.isValidIndex 2 1 = true ∧ Arr.getAt 0 [7, 8] 2 = .ok 0 := by decide +kernel
example : holds (FixedArray.setAt ⟨[0, 0], 0⟩ 1 42) (fun a => Arr.getAt 0 a.items 1 == .ok 42) = true := by decide +kernel
example : (Collection.init (α := Nat) ⟨[1, 2], 0⟩).count = 0 ∧ Collection.getCapacity (Collection.init (α := Nat) ⟨[1, 2], 0⟩) = 2 := by decide +kernel
example : holds (Collection.add (Collection.init (α := Nat) ⟨[1, 2], 0⟩) 42) (fun c =>
    c.count == 1 && Collection.isValidIndex c 0 && !Collection.isValidIndex c 1 && Collection.getAt 0 c 0 == .ok 42) = true := by decide +kernel
example : holds ((List.range 10).foldl (fun c i => c >>= fun c => Collection.add c i) (.ok (Collection.init (α := Nat) ⟨[1, 2], 0⟩))) (fun c =>
    c.count == 2) = true := by decide +kernel

/-! ### MidiMessageTest.cpp, MidiReaderTest.cpp, MidiWriterTest.cpp -/

/-- The fields a test looks at: type, channel, note, velocity, bend (MidiMessageTest.cpp, e.g. `SequentialInit_ChannelMessage`). -/
def fields (m : Midi.Msg) : List Nat := [m.type, m.channel, m.note .host, m.velocity .host]

/-- A message built with `SetStatusByte`, `SetDataByte1`, `SetDataByte2` (MidiMessageTest.cpp, `SequentialInit_…`). -/
def message (s a b : Nat) : Midi.Msg := ((Midi.Msg.init.setStatusByte .host s).setDataByte1 .host a).setDataByte2 .host b

/-- A PitchBend message with its fields assigned (MidiMessageTest.cpp, `StructureDefinition_PitchBend`): channel 15, bend 1024. -/
def bend : Midi.Msg := ⟨0xE0, Midi.store (Midi.store (fun _ => 0) 0 1 15) Midi.Layout.host.off Midi.Layout.host.w 1024⟩

/-- A NoteOn message with its fields assigned (MidiMessageTest.cpp, `StructureDefinition_ChannelMessage`): channel 15, note 64, velocity 100. -/
def noteOn : Midi.Msg :=
  ⟨0x90, Midi.store (Midi.store (Midi.store (fun _ => 0) 0 1 15) Midi.Layout.host.off 1 64) (Midi.Layout.host.off + 1) 1 100⟩

-- StructureDefinition_…
example : bend.type = 0xE0 ∧ bend.channel = 15 ∧ bend.bend .host = 1024 := by decide +kernel
example : fields noteOn = [0x90, 15, 64, 100] := by decide +kernel
example : (⟨0xF2, Midi.store (fun _ => 0) 0 2 32000⟩ : Midi.Msg).beats = 32000 := by decide +kernel
-- SequentialInit_…
example : fields (message (0x80 ||| 15) 64 100) = [0x80, 15, 64, 100] := by decide +kernel
example : (message (0xE0 ||| 15) 0 8).type = 0xE0 ∧ (message (0xE0 ||| 15) 0 8).channel = 15 ∧ (message (0xE0 ||| 15) 0 8).bend .host = 1024 := by decide +kernel
-- SequentialExtraction_…
example : noteOn.getStatusByte = 0x9F ∧ noteOn.getDataByte1 .host = 64 ∧ noteOn.getDataByte2 .host = 100 := by decide +kernel
example : bend.getStatusByte = 0xEF ∧ bend.getDataByte1 .host = 0 ∧ bend.getDataByte2 .host = 8 := by decide +kernel

/-- An event as the test's base class records it (MidiReaderTest.cpp 13-40). -/
def seen : Midi.Ev → List Nat
  | .onMessage m => fields m
  | .onRealtime t => [t]
  | .onSysEx => []

/-- Everything the reader reports for these bytes (MidiReaderTest.cpp 47-161, the loops over `Read`). -/
def reports (bs : List Nat) : List (List Nat) := (Midi.Reader.events .host Midi.Reader.init bs).map seen

example : reports [0x91, 0x40, 0x70] = [[0x90, 1, 0x40, 0x70]] := by decide +kernel
example : reports [0x91, 0x40, 0xFF, 0x70] = [[0xFF], [0x90, 1, 0x40, 0x70]] := by decide +kernel
example : reports [0x91, 0xFF, 0x40, 0x70] = [[0xFF], [0x90, 1, 0x40, 0x70]] := by decide +kernel
example : reports [0x91, 0x40, 0x70, 0x81, 0x44, 0x68] = [[0x90, 1, 0x40, 0x70], [0x80, 1, 0x44, 0x68]] := by decide +kernel
example : reports [0x91, 0x40, 0x70, 0x44, 0x68] = [[0x90, 1, 0x40, 0x70], [0x90, 1, 0x44, 0x68]] := by decide +kernel
-- InitWithChannelMessage_Write_OutputsToStream
example : (Midi.writeMsg .host 0 (message 0x91 64 100)).2 = [0x91, 64, 100] := by decide +kernel

/-! ### TextWriterTest.cpp -/

/-- The character codes of a text (the buffers compared in TextWriterTest.cpp). -/
def codes (s : String) : List Nat := s.toList.map Char.toNat

/-- `double` of the host: 53 bits, the smallest exponent does not matter for these numbers (the arithmetic behind TextWriterTest.cpp, `PositiveDouble_…`). -/
def host : Rat → Rat := Text.roundBin 53 1074

example : Text.writeStr (codes "123456" ++ [0]) = .ok (codes "123456") := by decide +kernel
example : Text.writeI32 false {} 123456 = .ok (codes "123456") ∧ Text.writeI32 false {} (-23456) = .ok (codes "-23456") := by decide +kernel
example : Text.writeFloat host 32 {} (host (12456 / 1000)) = .ok (codes "12.46") := by decide +kernel
example : Text.writeFloat host 32 {} (host (-2356 / 100)) = .ok (codes "-23.56") := by decide +kernel
example : Text.writeLine {} = .ok [10, 13] := by decide +kernel

/-! ### TaskTest.cpp -/

/-- `CountingTask(loops)` (TaskTest.cpp 11-40): `Task_YieldUntil(++LoopCount == LoopEnd)` on line 28; the state is `LoopCount`. -/
def counting (loops : Nat) : Task.Stmt Nat := (Task.Prog.yieldUntil 28 fun c => (c + 1 == loops, c + 1)).expand

/-- `while (task.Execute()) {}` for at most `fuel` calls (TaskTest.cpp 51-53): the calls made and the final count. -/
def runTask (loops : Nat) : Nat → Nat → Nat → Option Nat
  | 0, _, _ => none
  | n + 1, task, c => match Task.call 32 20 (counting loops) task c with
    | some (true, task, c) => runTask loops n task c
    | some (false, _, c) => some c
    | none => none

-- CountingTaskTest, MultipleCountingTasksTest
example : runTask 5 100 0 0 = some 5 := by decide +kernel
example : runTask 7 100 0 0 = some 7 ∧ runTask 3 100 0 0 = some 3 ∧ runTask 15 100 0 0 = some 15 := by decide +kernel

/-! ### URM37V32_ControllerTest.cpp, TB6612FNG_ControllerTest.cpp -/

/-- The sensor answers with the command itself (URM37V32_ControllerTest.cpp 43-56). -/
def echo (a b : Nat) : List (List Nat) := [[0x44, a, b, (0x44 + a + b) % 256]]

-- SetAutonomousTriggerMode_CheckCommandsSent, SetPassiveControlMode_CheckCommandsSent
example : Sonar.setAutonomousTriggerMode ⟨0, 0, 0⟩ echo [] 67 =
    ([0x44, 0x02, 0xAA, 0xF0, 0x44, 0x00, 67, 0x87, 0x44, 0x01, 0x00, 0x45], some true) := by decide +kernel
example : Sonar.setPassiveControlMode ⟨0, 0, 0⟩ echo [] = ([0x44, 0x02, 0xBB, 0x01], some true) := by decide +kernel
-- the four commands
example : Motor.args .stop = (false, false, 0) ∧ Motor.args .brake = (true, true, 0) ∧ Motor.args (.clockwise 123) = (true, false, 123)
    ∧ Motor.args (.counterClockwise 123) = (false, true, 123) := by decide +kernel

/-! ### ValueContainerTest.cpp -/

/-- A container with arbitrary bounds (ValueContainerTest.cpp, every test starts from the constructor). -/
def fresh : ValueContainer.VC Int := ValueContainer.init (7, 3)

example : ValueContainer.isInRange (ValueContainer.setAny fresh) 12345 = true ∧ ValueContainer.isInRange (ValueContainer.setNone fresh) 12345 = false := by
  decide +kernel
example : ValueContainer.isInRange (ValueContainer.setSingle fresh 12345) 12345 = true ∧ (ValueContainer.setSingle fresh 12345).mode = .single
    ∧ (ValueContainer.setSingle fresh 12345).begin' = 12345 := by decide +kernel
example : ValueContainer.isInRange (ValueContainer.setRange fresh 1234 12345) 1234 = true ∧ ValueContainer.isInRange (ValueContainer.setRange fresh 1234 12345) 12345 = true
    ∧ ValueContainer.isInRange (ValueContainer.setRange fresh 12345 1234) 1234 = true
    ∧ ValueContainer.isInRange (ValueContainer.setRange fresh 12345 1234) 12345 = true := by decide +kernel
example : ValueContainer.normalize (ValueContainer.setRange fresh 12345 1234) = ⟨.range, 1234, 12345⟩ := by decide +kernel

/-! ### UsartConfigTest.cpp, UsartRegistersTest.cpp -/

-- InitAsync_9600_CorrectUBRRAndMode, InitAsync_31250_CorrectUBRRAndMode (F_CPU is 1 MHz, AvrTemplateLibrary.Tests/avr.h)
example : holds (Usart.Config.initAsync 1000000 9600 {}) (fun r => r.2 && r.1.ubrr == 12 && r.1.getMode == .asyncDouble) = true := by decide +kernel
example : holds (Usart.Config.initAsync 1000000 31250 {}) (fun r =>
    r.2 && r.1.ubrr == 1 && r.1.getMode == .async && Usart.Config.getBaudRate 1000000 r.1 == .ok 31250) = true := by decide +kernel
-- the addresses of USART 0
example : Usart.aUCSRA 0 = 0xC0 ∧ Usart.aUCSRB 0 = 0xC1 ∧ Usart.aUCSRC 0 = 0xC2 ∧ Usart.aUBRR 0 = 0xC4 := by decide +kernel

/-! ### HorizontalPanelTest.cpp, VerticalPanelTest.cpp, InputControlTest.cpp, PageTest.cpp, TextControlTest.cpp, UpDownControlTest.cpp -/

/-- A panel with two input controls and no current one (HorizontalPanelTest.cpp 30-36, VerticalPanelTest.cpp). -/
def panel (k : UI.Kind) : UI.Panel UI.Input := { kind := k, kids := [{}, {}] }

/-- Handled, and the current control afterwards (HorizontalPanelTest.cpp 38-42). -/
def key (r : Bool × UI.Panel UI.Input) : Bool × Option Nat := (r.1, r.2.cur)

example : key (UI.Panel.navHorizontal .left (panel .horizontal)) = (true, some 1) ∧ key (UI.Panel.navHorizontal .right (panel .horizontal)) = (true, some 0)
    ∧ key (UI.Panel.navHorizontal .up (panel .horizontal)) = (false, none) ∧ key (UI.Panel.navHorizontal .down (panel .horizontal)) = (false, none) := by
  decide +kernel
example : key (UI.Panel.navVertical .up (panel .vertical)) = (true, some 1) ∧ key (UI.Panel.navVertical .down (panel .vertical)) = (true, some 0)
    ∧ key (UI.Panel.navVertical .left (panel .vertical)) = (false, none) ∧ key (UI.Panel.navVertical .right (panel .vertical)) = (false, none) := by
  decide +kernel

-- InputControl_…
example : UI.Input.trySelect {} = (false, {}) ∧ UI.Input.tryDeselect {} = (false, {}) := by decide +kernel
example : UI.Input.trySelect (UI.Input.set .focused {}).2 = (true, { st := .selected }) ∧ UI.Input.onNav .enter (UI.Input.set .focused {}).2 = (true, { st := .selected }) := by
  decide +kernel
example : UI.Input.tryDeselect (UI.Input.set .selected {}).2 = (true, { st := .focused }) ∧ UI.Input.onNav .exit (UI.Input.set .selected {}).2 = (true, { st := .focused }) := by
  decide +kernel

/-- `Page<2> page(&line1, &line2)` with empty lines (PageTest.cpp 17-19). -/
def page : UI.Panel (UI.Panel UI.Input) := { kind := .plain, kids := [{ kind := .horizontal, kids := [] }, { kind := .horizontal, kids := [] }] }

-- Page_SetFirstInputControl_SelectsFirstLine, Page_TrySelectNextLine_SelectsSecondLine
example : (UI.Panel.setFirst page).1 = true ∧ (UI.Panel.setFirst page).2.cur = some 0 := by decide +kernel
example : (UI.Panel.navPage UI.Page.editing .down (UI.Panel.setFirst page).2).1 = true
    ∧ (UI.Panel.navPage UI.Page.editing .down (UI.Panel.setFirst page).2).2.cur = some 1 := by decide +kernel

/-- `TestCharArray` (TextControlTest.cpp 14-33): the characters 0 to 127, each at its own index. -/
def chars : UI.CharIter Int := UI.charIter ⟨fun i => decide (0 ≤ i) && decide (i ≤ 0x7F), fun i => .ok i, fun c => .ok c, 128, 0⟩ false

/-- `TestTextControl ctrl(&text, &iterator)` over an empty `FixedString<6>`, then `setState(Selected)` (TextControlTest.cpp 47-52). -/
def text : Bool × UI.Text Int := UI.Text.set .selected { text := List.replicate 7 0, capacity := 6, ops := chars, iter := Iterator.init }

-- TextControl_TryMoveCursorLeft_Selected_Success, …Right_Selected_Success, …Right_Selected_CursorNotMoved
example : text.1 = true ∧ (UI.Text.tryLeft text.2).1 = true ∧ (UI.Text.tryRight text.2).1 = true := by decide +kernel
example : chars.current (UI.Text.tryRight text.2).2.iter = chars.current text.2.iter := by decide +kernel

/-- `UpDownControl<TestValue> udc(&tv)` (UpDownControlTest.cpp 17-18, TestControls.h 11-47): 0 the initial text, 1 and 2 the other two. -/
def upDown : UI.UpDown Nat := { value := 0, increment := fun _ => 1, decrement := fun _ => 2 }

example : (UI.UpDown.tryUp upDown).1 = false ∧ (UI.UpDown.tryUp upDown).2.value ≠ 1 ∧ (UI.UpDown.tryDown upDown).1 = false
    ∧ (UI.UpDown.tryDown upDown).2.value ≠ 2 := by decide +kernel
example : (UI.UpDown.tryUp (UI.UpDown.set .selected upDown).2).1 = true ∧ (UI.UpDown.tryUp (UI.UpDown.set .selected upDown).2).2.value = 1
    ∧ (UI.UpDown.tryDown (UI.UpDown.set .selected upDown).2).1 = true ∧ (UI.UpDown.tryDown (UI.UpDown.set .selected upDown).2).2.value = 2 := by
  decide +kernel

/-! ### DelegateTest.cpp -/

/-- `TestClass` (DelegateTest.cpp 10-28): no state, `ReturnIntParamVoid` gives 42 and `ReturnIntParamInt` its argument. -/
def delegateMethods : Delegate.Methods Unit Int Int :=
  ⟨fun u => (u, 42), fun x u => (u, x), fun x _ u => (u, x), fun x _ _ u => (u, x), fun x _ _ _ u => (u, x), fun x _ _ _ _ u => (u, x)⟩

-- Delegate, Delegate1 (Delegate0 and Delegate01 assert nothing)
example : (match (Delegate.Dele.mk' 5).invoke delegateMethods (fun a => if a = 5 then some () else none) .a0 with | .ok r => r.2 | .ub => 0) = 42 := by decide
example : (match (Delegate.Dele.mk' 5).invoke delegateMethods (fun a => if a = 5 then some () else none) (.a1 42) with | .ok r => r.2 | .ub => 0) = 42 := by decide

end Atl.Tests
