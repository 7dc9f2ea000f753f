# Verification design for ATL (Arduino/AVR Template Library)

Source under study: `/repo/Source/Code/ArduinoTemplateLibrary` (header-only C++ templates).
All file names below are relative to that directory.

## 1. Layout of the Lean development

| directory | content |
|---|---|
| `lean/Verif/Model/*.lean` | function-by-function executable model; each definition cites file and lines |
| `lean/Verif/Spec/*.lean`  | small independent specifications (queue, list, device models, MIDI 1.0 receiver, ...) that do not use model helpers |
| `lean/Verif/Proof/*.lean` | helper lemmas |
| `lean/Verif/Props/*.lean` | property theorems only, each followed by `example`s showing the hypotheses are satisfiable |
| `lean/Verif/Tests/*.lean` | the unit tests of the repository evaluated on the model (fidelity checks, not claims) |

The claims are listed in `properties.jsonl`; `MANIFEST.json` maps every claim to theorem names.
A theorem ending in `_partial` proves less than the claim; the note in the manifest and the
section below say what is missing. A theorem ending in `_fails` is a proved counterexample:
the unchanged code violates the claim (or violates it outside the stated guard).

## 2. Conventions of the model

* **Undefined behaviour is an outcome.** `Res α = ok a | ub` (`Model/Basic.lean`). Out-of-bounds
  accesses, shifts by at least the promoted width, signed overflow where it matters, division by zero and
  NULL dereference produce `ub`. Non-termination is modelled by a fuel argument and the outcome `none`.
* **Target.** The library targets AVR (avr-gcc): `int` has 16 bits, `char` is signed, structures are
  packed (no alignment), pointers have 16 bits. Where the width of `int` matters the model takes it as
  a parameter `W` (16 for AVR, 32 for the Visual Studio host on which the repo's tests run).
* **Templates** become functions with the template arguments as parameters; the `BaseT` mix-in
  pattern becomes composition: calls into `BaseT` become a trace of events or a parameter.
* **Registers and pins** are bytes / booleans in a state record; writes to pins are recorded as a
  trace and fed to device models written from the data sheets (74HC595, HD44780, ATmega USART).
* Bytes are `Nat < 256` or `BitVec 8`, as convenient; wrap-around is explicit.
* **Floating point**: `roundBin p e` rounds an exact rational to the nearest value of the format (ties to even);
  `roundBin 24 126` is AVR `double`. C34 (real numbers as text), C113 (PID with reals) and C116 (software delays) use it
  after every operation. The other PID claims (C35, C36, C64, C120, C128) use integers or exact rationals.

## 3. Per property: what is modelled and how it is proved

C01, C02 ring buffer: pointers as indices into a list of `Size` slots; `Write`, `Read`, `Clear`,
`getLength` line by line, an index outside `0..Size-1` gives `ub`. Refinement: an abstraction map to a
list plus an invariant, proved for every operation, lifted by induction to all histories. `c01_any_history`
drops the precondition of `Read`: specification `Spec/QueueAny.lean`, in which a read too much fills the queue with old values.

C03 buffered input stream: `Read` on top of C01; prefix property by refinement. The unguarded
`RingBuffer::Read` on an empty buffer is shown to violate the queue (precondition is necessary).

C04 interrupt safety: small-step machine in which each source-level memory access of `Write`,
`getLength` and `Read` is one step (load of a pointer, store of a slot, increment, wrap). The
full claim is false at source level: between `_writePtr++` and the wrap (l.70-76) or
`_readPtr++` and the wrap (l.89-93) the pointer is transiently one past the end. Proved: concrete
failing schedules, and safety for *all* schedules when increment+wrap is one step (which is what
a single 16-bit store inside an atomic block gives). Torn 16-bit loads: C107. `Spec/SharedFifo.lean`
and `Proof/RingBufferExact.lean`: the source-level accesses against a queue of counters, exact in both
directions (one handler run more than values wait, or than there is room for, in the window of a wrapping pointer breaks it).

C05-C07, C85 BitArray: `BitVec n` words, masks as in the code; bit-extensional proofs for every width `n`.
Single-bit operations use `1 << bitIndex` in type `int`, so they are modelled with the int width `W`; exact
when `n < W` (and `n = W` with wrap semantics of the sign bit), counterexamples for 32-bit words on AVR.

C08 Bit/BitFlag: same technique; the guard `bitIndex > getMaxBits` is off by one (counterexample).

C09-C11 Array, ArrayRef, FixedArray, Collection, StaticArray: element lists, 16-bit signed
indices, return types narrowed explicitly (`char`, `int8_t`). List refinement, first-occurrence
spec independent of the loop; counterexamples for narrow returns (index >= 128) and for sizes
> 32767; non-termination of `StaticArray::IndexOf` for 256 items or more.

C12 FixedString: byte buffer of `MaxChars+1`, `strncpy` per the C standard. Invariant over histories.

C13 FixedArray::Clear: byte-level storage with `sizeof(T)`; counterexample for 2-byte items, proof
for one-byte items, and exact characterisation of which bytes are cleared.

C14, C15 iterators: index machine over an abstract array; induction over moves.

C16, C17 Range, ValueContainer: over any linear order; what the getters report after any history.

C18, C19, C20, C23 MIDI: writer as a fold producing bytes, reader as a byte-step machine producing
events (all of `Read`, `Dispatch`, `ProcessStatusByte`, `ProcessDataByte`), a separate MIDI 1.0
receiver as specification. Round trip and transparency by simulation/induction.
Recovery (C20) is false: a status byte arriving while data is expected is dropped and a SysEx start
byte deafens the reader forever (both proved); the `_partial` theorem states from which states recovery holds.

C21 MIDI message union: byte-level storage parametrised by the layout.

C22 classification: exhaustive over the 256 bytes (`decide` over the complete table, lifted).

C24-C26 Delays: table of (id, remaining) slots, refinement to a finite map; a `Wait` on a full
table with a new id writes slot -1: `ub` (counterexample); safety under the capacity guard.
`Props/DelaysExact.lean`: `c24_exact` is the refinement itself, for every history within capacity. `Props/DelayBook.lean`: `c24_capacity_exact` drops the fixed set of ids: a history may use any number of nonzero ids, and it is undefined exactly if at some moment one more delay is started than there are slots (`Spec/DelayBook.lean`, a list with at most that many lines). `Props/DelayAny.lean` adds calls with id 0: they never touch a slot that is taken (`wait_zero`, `ref_free`), so they change nothing for the other ids (`c25_any_history`), and `c24_any_history` says which answers they may get.

C27 Time: 32-bit modular subtraction; telescoping sum. C84: the clock against true times without bound.

C28 TimeoutTask, C29-C30 PushButton: coroutine state machines over the Delays model; invariants with ghost
history variables. `c28_exact` (against `Spec/Timer.lean`, the time counted since arming) covers every schedule, also with several
Execute calls per update.

C31 DigitalInput: induction over samples.

C32 TextWriter integers: digit loop writing backwards into a buffer of 11/21 bytes with bounds checks
(`ub` on underflow); parse-back theorem; counterexamples for base 2 and 3.

C33 strings/characters; `Write(char)` writes the number of the character (counterexample).

C34 reals over rationals, with every operation followed by a rounding function: exact arithmetic (identity), and any rounding to nearest of any
binary format (`Spec/Float.lean`, `Proof/Float.lean`; binary32 and binary64 with subnormal numbers are instances). Partial: an error term remains. `Props/TextExact.lean` says exactly what is written: numbers from four on lie on a
grid on which multiplying the fraction by ten is exact, so the text is the rounded sum of number and half unit, cut; hence a condition for the correctly
rounded text and, for the default format on AVR, the complete list of the half-way values rounded up (`Spec/RealText.lean`).

C35, C36 PID over a linearly ordered field / integers without overflow; all evaluation orders.
C64 the same source with the C integer conversions of AVR (`Model/PID.lean`, width as a parameter): 32-bit values give the textbook step when no step overflows; with `int` the derivative is divided as `unsigned int`, so the claim is false there. `Props/PIDInt16.lean` says exactly what all of `Process` computes with `int` (integral modulo 65536 before clipping, unsigned quotient), for every input.

C37, C38 Serial3WireOutput: pin trace fed to a 74HC595 model; `Write` never terminates (proved for all fuel).

C39-C41 HD44780 drivers: pin/port traces fed to a HD44780 model (`Spec/Lcd.lean`: falling-edge latch that is undetermined when another
line moves with E, 8-bit/4-bit interface with nibble phase, unconnected lines arbitrary, full instruction set, DDRAM). Delivery by
induction over calls. Initialisation: case analysis on the phase, every prior state. RS high and "display off" are counterexamples.

C42 controller flags: every setter sends one command whose execution changes just the flags of its group; histories by induction.
C43 view: refinement to a `Screen` (position and text) for text that fits, composed with C39 and C41 down to the pins; from any state and after any history a `SetCursor` into the screen restores the refinement (`c43_recovers`), and `c43_long_text` gives both positions after a text of any length; counterexamples at
line end, last row, after `Initialize`/`ClearDisplay`. C44 view port: nothing ever scrolls (all histories). C87: the
character memory of the same display model. C63 display writer: `GoTo`
proved, `SetCursor` with a don't-care coordinate is a counterexample. The HD44780 busy time and the delays of HD44780_Profile are in C98 and C117 only.

C45-C47, C66-C68 URM37 sonar: the driver over a byte list (what the stream holds), `WaitForResponse` polling a list of arriving pieces
(`none` = not returned yet). The protocol is `Spec/Sonar.lean` (frame, sum, one byte changed). C46 and C68 give exact success conditions; C66
and silence in C67 are counterexamples for every length.
C48 TB6612FNG: pin writes folded over a board; last request per motor over all histories; shift-register variant on `BitArray`.
C65 HD44780 over 3-wire: register words, the display lines read off the words (all outputs change at the store clock), latched like C39.

C49-C54, C70, C71 UI: a control is a value with its virtual methods as a type class (`Model/UI.lean`); labels, input, up/down and text
controls, panels with children by value (a pointer to a child is its index), pages of lines, page controllers.
`Display` is a list of calls on the display writer (`Out`); the characters of a C string read past its terminator are the outcome `undef`.
C49 single-control state machines by cases, histories by induction. C50 the class hierarchy is an inductive relation (`Spec/UI.lean`), compared
with the bit tests. C51 invariant "only the current child is active" for every kind of panel and lawful child (nested panels included); the
order of visits against `FirstAfter`/`LastBefore` and, on a line, the list of input positions; for any number of children the same among the first 128 (`Props/UILong.lean`). C52 invariant over pages of lines. C49 and C52 exactly: the state of every control at every moment against `Looks`, which only knows where the panel has been (`Spec/UIVisit.lean`, `Props/UIVisit.lean`). C53 step
relation of the text control for events = commands or state requests, any iterator. C54 against a two-state specification, also for a plain InputControl. C70 routing
equations composed to a whole screen. C80, C81: the calls are run on `Spec/Display.lean` (a screen with a write position, cells, a cursor);
lines and controls by induction, cells as a relation `Paints`. C82: sequences of `Page::Add`. C83: the same calls through `HD44780_DisplayWriter`
(`Model/UILcd.lean`) refine that screen on the display of `Spec/Lcd.lean` (`OnLcd`); for sequences
of pages the position is left open (`LcdReady`), since the first call of a page says row and column, and the last call of a text control is computed exactly. C71 the text control over the iterator model of C14/C15; `turn` is the specification of one step. For texts with characters outside the set the specification is a small editor that remembers its last place in the set (`Spec/TextEdit.lean`); `Props/UIOutside.lean` proves that every history of keys does what that editor does.

C55, C56, C61, C72 AVR USART configuration: `Model/Usart.lean` with the 16-bit arithmetic of `UsartConfig` and the data memory as a function
from addresses; `Spec/Usart.lean` has the producible rates and the field decoding of the data sheet. C57, C58, C73-C75 over a hardware model of one
USART (control register with side effects, receive FIFO with flags, transmit buffer, shift register, line); waiting loops poll a list of arrivals or
a fuel of frame times (`none` = not returned). C59, C76, C79 event systems (main code, interrupt, hardware) with an invariant; in C59 the
interrupt can also come between each load and store of `Write`; C86 adds `Flush` (as a whole, and with the handler between the two stores of `Clear`) and `Close`; `Model/UsartFlush.lean`, `Props/UsartFlush.lean` place the handler and the transmitter anywhere in both calls and give exactly what is sent. C88: `getMode`. C60, C77, C78 `Model/Port.lean` on the same memory. TXC is added in C112; MPCM and synchronous modes
are not modelled.

C62, C69 task macros: a small statement language with C's `switch` (a `case` label inside nested statements is found by search,
`Model/Task.lean`); the macros are their expansions. The specification is a coroutine with an explicit continuation (`Spec/Task.lean`); C62 is
a simulation for all programs and call histories. `goto`, exceptions and a `default:` of a nested `switch` are not modelled.

C89-C92 Arduino adapters: `Model/Arduino.lean` over a small model of the Arduino core (`Spec/Arduino.lean`: pins with latch, direction and PWM, a
stream as a byte list, the 32-byte buffer of Wire with a slave that takes a number of bytes). Histories by induction.
C93-C97 `Model/Misc.lean`: Math::Abs for every width, StaticString over the `strncpy` of C12, program memory as a function from addresses, Debug
and object ids as decision logic.
C98 `Model/LcdTiming.lean`: the parallel driver, controller and view with every delay, a display that refuses while busy (`Spec/LcdTiming.lean`, data sheet
times) and a clock that takes at least `c` for a pin write plus arbitrary extra time per step; an invariant "the display is free before the next latch".
`Props/LcdTimingExact.lean`: the conditions on the profile are necessary too, by following one program step by step without extra time. The I2C driver is timed in C117.
C99 `Model/TimeoutSketch.lean`: the TimeoutTask example as a whole program: `Delays::Update` from `millis()`, `Execute` of each task, ids from addresses, pins of the
Arduino core. Specification: `Spec/Lamp.lean`, one lamp per task that remembers since when it waits (absolute time, no countdown, no table). Proved by refinement to the
table specification of C24, for any number of tasks within capacity; pace, exact period for equal rounds and the drift follow from the lamp.

C100 `Model/ButtonSketch.lean`: the PushButton example as a whole program with a switch to ground and the pull-up. Specification: `Spec/Button.lean`, a deterministic button
in absolute time; refinement, so the LED is determined in every round.

C101 `Model/ButtonSketch.lean`: the DigitalInput and Blink examples (without their `delay`).

C102 `Model/CounterSketch.lean`: the Task example over the macro semantics of C62 (`long` with 32 bits, `int` `_task`, zero initialised as a global), and the macro source of
`TimeoutTask::Execute` and `PushButton::ScanButton`, proved equal to the hand-expanded models that C28, C29, C30, C99 and C100 use.

C103 `Model/LcdSketch.lean`: LCD.ino, I2CLCD.ino, Page.ino (with its own `LcdDisplayWriter`, whose `SetCursor` does nothing) and PageController.ino as the calls they make on the driver, composed with the driver models of C44 and C46 and
the display of `Spec/Lcd.lean`. Specification: `Spec/Pages.lean`, characters on the rows after k pages written over each other. `delay(1000)` is left out.

C104 `Model/TextBox.lean`: TextBox.ino as calls on the page, composed with the models of C83 (controls), C14 (iterator over a `StaticArray`), C63 and C44. Specification:
`Spec/TextBox.lean`, a dialogue of rows, place and text, and what the display is to look like. Proof: an invariant between page, text control, library registers, display
and dialogue; each command keeps it. Not covered: texts shorter than the buffer (fails, item 82), more than 128 characters (fails), the text control on a row other than 0 (C83: fails). `Props/TextBoxAny.lean` with `Spec/TextBoxAny.lean` (the editor of C71 and a display that is only written over) gives the exact display for every text and set: shorter texts, characters outside the set, repeated characters.

C105 `Model/TextSketch.lean`: TextWriter.ino and TextFormatInfo.ino as sequences of `WriteLine` calls over the models of C32-C34 and the stream adapter of C90. `Serial.begin` and
the buffer of `Serial` are outside (bytes handed to `write` count as sent). Specification: `Written` (what a value looks like on its line), over `Spec/Text.lean`.

C106 `Model/MidiLink.lean`: MidiWriter on UsartOutputStream, the wire, and MidiReader on UsartInputStream (the models of C18, C59 and C76) as one system of two programs; events are a Write call,
each further step of it, the two interrupts, the end of a frame (which arrives in the other side's FIFO), and a MidiReader::Read. `c106_defined`: all histories, no undefined behaviour.
`c106_link_partial`: by an invariant that says where each byte of the written messages is, in order (writer, buffer, transmitter, FIFO, buffer, reader), with C18 on the bytes read; hypothesis
`NoLoss` (no event of the history finds a full buffer or FIFO) and the receive interrupt on. `c106_arrives_partial`: a measure that falls with every turn. `c106_deaf_fails`: MidiReader asks
getLength first and so never makes the call of UsartInputStream::Read that switches the interrupt on. `c106_overflow_fails`: a run in which a dropped byte makes the reader report a message nobody
wrote. `c106_lossy` (`Props/MidiLinkLossy.lean`): every history, losses included: at each place the bytes are a sublist of those at the place before, so the reader's events are its events on a
sublist of the bytes written. `c106_one_byte_fails`: the family of histories behind it for running status, by C111 on the shifted bytes. Simplified: line without errors; ring buffer operations in one step.
C107 `Model/RingBufferTorn.lean`: the ring buffer of C04 with every pointer load and store split in its two bytes (either order, any base address), the handler running any number of times in each gap. `Proof/RingBufferPage.lean`: inside one page every such history is one of C04's model with the handler runs moved to neighbouring gaps. `Props/RingBufferTornRoom.lean` counts what the window of a pointer store tolerates across page boundaries: a reading handler may run once more than values wait, a writing handler as often as there is room.
  `consumeAt`/`produceAt` are the handler with the address it finds in the half stored pointer. Proof: in the window of a pointer store the handler, whatever it finds, does nothing or takes the oldest value / appends
  (`consumeAtN_win`, `produceAtL_win`), so with at most one run the invariant of C04 is restored by the last byte; a torn load differs from the pointer only if the handler has moved it, and then by a multiple of 256,
  which is outside a buffer of at most 256 elements (`c107_refusal_partial`). Counterexamples: `c107_refusal_fails`, `c107_length_fails`, `c107_twice_fails`. One-byte elements.

C108 `Model/UsartDuplex.lean`: both USART streams (the handlers of C59 and C76) on one USART as a system whose main code stands between any two memory accesses of `RingBuffer::Write`,
`getLength`, `Read` or of the two read-modify-write statements of `Bit<i>::Set(UCSRB)`; `Proof/UsartDuplex.lean` one invariant over both buffers (seen with a pending pointer wrap done), the
values of UCSRB main code holds, and the histories. The stale stores are harmless because only main code sets UDRIE and RXCIE, the handler clears UDRIE only on an empty buffer, and one more handler run
on an empty buffer only clears it again. Proved for at most one handler run per pointer window; with two it is false (`c108_twice_out_fails`, `c108_twice_in_fails`).
`Props/UsartDuplexExact.lean` removes the bound: the pointers main code moves are fixed by the histories (`PtrAt`), so a handler run in a window does harm exactly when `TxTooOften` or
`RxTooOften` holds of the histories, and `c108_streams_exact` is an equivalence (a calm history ⇔ both streams right at every point and one access later).

C109 `Model/BitsSigned.lean`: Bit.h and BitFlag.h for signed types, with the promotions written out (sign extension to the wider of `T` and `int`, conversion back). Positive below the sign bit,
`c109_sign_fails` at it.

C110 `Model/CoreSketch.lean`: Array.ino, Bit.ino, BitArray.ino and CollectionRef.ino as programs with their constants as parameters, over the models of C05-C10, C85 and C109. The loop of
CollectionRef.ino with its `unsigned char` counter is run with fuel; it ends exactly with fewer than 256 items (`c110_collection_fails`).

C111 `Spec/MidiTidy.lean`, `Props/MidiTidy.lean`: MidiReader (model of C18) against the conforming receiver of `Spec/Midi.lean` on every byte stream. `Tidy` follows the stream alone and gives up at the first byte
the two treat differently; proof by a simulation relation between reader state, receiver state and stream position. `c111_exact`: the condition is exact, at every first untidy byte a continuation separates the two.

C112 `Model/UsartComplete.lean`: the transmit complete functions of UsartTransmit.h over the USART of `Model/Usart.lean` with the TXC flag as the data sheet describes it (latched; cleared only by its interrupt or by
writing one). `c112_flag` by induction over histories; the class never clears the flag, hence the three `_fails` theorems.

C113 `Model/PIDFloat.lean`: PID.h for `T = float` on IEEE numbers (rational, infinite or NaN; any rounding function and largest number, with binary32 as an instance; no signed zero, see the file). Invariant over histories: the memory is `Props/PIDFloatExact.lean` drops the bound on the numbers: exact condition for NaN in one call, and a controller without D gain stays in range in every history.
finite and bounded, so no operation overflows and the clipped value is a number in the range; `c113_range_or_nan` without any hypothesis. `c113_formula` ties the model to the textbook step of C36.

C114 `Model/UsartNine.lean`: the buffered streams with a buffer of any type. Refinement to the mailbox of C76 with nine-bit values; for output an invariant over histories (nothing accepted has a ninth bit) and C59.

C115 `Model/AnalogPin.lean` `Props/AnalogPin.lean`: calls on AnalogOutputPins as C++ resolves them, over the board of Spec/Arduino.lean; simulation of a map from pins to duties by induction on the history; `Write(true)` refuted for every board.

C116 `Model/DelayAvr.lean` `Props/DelayAvr.lean`: `Wait` over the formula of avr-libc's util/delay.h (trusted, not in /repo; time and clock are compile-time constants there), for any rounding to nearest with 24 bits (`Rounding` of Spec/Float.lean); exactness from representability, otherwise four relative errors multiplied.

C117 `Model/LcdTiming.lean` (namespace `I2C`), `Props/LcdI2CTiming.lean`: the same display as in C98 behind the port expander, whose port changes at least `c` microseconds after the previous byte changed it; invariant `BusReady` kept by every operation (`step_closed`: each is made of plain commands, characters, clear and home), the start phase nibble by nibble. `c117_content` ties the bytes to the model without time; `Props/LcdI2CTimingExact.lean` shows the conditions necessary.

C118 `Model/UsartClear.lean`, `Props/UsartClear.lean`: the flush loop poll by poll and the two stores of the ring buffer's Clear, with lists of arrivals and handler runs in between. Invariants: `Sound` (the buffer is a queue) in the loop, `Cleared` between the stores (the write index counts what was put in since, the old read index only limits the room).

C119 `Model/TextUsart.lean`, `Props/TextUsart.lean`: the characters of `writeItem` (C105) handed one by one to the `OutSys` machine of C59, interleaved with interrupts, frame ends and loads. Invariant `CInv`: the accepted characters are a sublist of those handed over; each character is accepted exactly when the buffer has room (`con_give`). `c119_cut` and `c119_paced` compute the two extreme timings for texts of any length.

C120 `Model/PIDFilter.lean` adds the documented low pass filter; `Spec/PIDHistory.lean` gives the integral since the last acceptable error and the exponentially weighted mean as functions of the list of samples. Invariant over histories: the three memories are these functions. For errors of one sign the integrator is the integral cut at the limit, hence the time to saturation.

C121 `Model/SonarUsart.lean`: main code inside `ReceiveResponse` as phases (first length, four reads, second length), receive interrupt and arrivals in between, on the stream of C76. `Spec/SonarLink.lean`: the meaning of a byte stream in groups of four. Invariant: the bytes returned are the groups answered and the one being read, whose missing bytes are already buffered; so `Read` never finds the buffer empty inside a response. Completeness by a measure of main code steps left. Requests by C119.

C122 `Model/LcdConsole.lean` puts `TextUsart.lines` (the characters of WriteLine calls) on the view of LCD.ino. `Spec/LcdConsole.lean`: lines painted over each other. Invariant between lines: the view's row is the number of lines modulo rows + 1 (one too many), the display stands at the left edge of that row modulo rows. Composed with C32/C33 (the right texts), C39-C43 (pins, latches, device).

C123 compares the three drivers of C39, C40 and C65 directly: for every list of calls, nibbles included, and every display state the device of Spec/Lcd.lean receives the same over each. Not limited to a display in step, so it carries every property of the display proved over one driver to the others.

C124 `Model/MidiThru.lean` composes the callbacks of the reader with the writer. Invariant over the stream: the unfinished message with its data bytes and what it may still cost, the running status of reader and writer equal or the reader's cancelled. Soundness and rate come from the invariant, the rest from C18, C23 and C111.

C125 `Model/SharedRegister.lean` runs the display driver (C65) and the motor drivers (C48) on one register and sends every word through `WriteReverse` (C37). Invariant: Enable is high and the bits of each motor are those of its last request. The outputs of the chain take only the values of the words (trace of the chain over the pin writes), so the display latches exactly the nibbles of its own calls; the comparison with a display on pins uses C123.

`Props/Exact.lean` completes partial theorems where the property is false for some inputs: C06, C08 (every index and width), C37, C48 (every speed), C55 and C84 (in Props/Exact2.lean), C66 (every stream), C77 (port D), C79, C82 (in Props/UIDisplay.lean), C85, C91, C92, C94, C95, C97, C120 (in Props/PIDHistory.lean) — what the code does for all inputs, so that nothing is left open between the `_partial` and the `_fails` theorems.

C126 `Model/UsartBits.lean`: the five setters as the loads and stores of `Bit::Set` on UCSRB, with handlers (uninterrupted lists of setter calls) in each of the four gaps. `Spec/UsartBits.lean`: a switch is as last requested. A call with handlers equals an uninterrupted sequence of requests from which those inside a load-store window for the same register are removed; the rest is a fold. The echo consequence runs on the output stream of C59.

C127 `Model/BitsSigned.lean`, namespace `BitArray`: every operator sign extends its operands to the wider of T and int and converts back, `>>` is arithmetic, `<<` loses bits at the top (avr-gcc). The operators are computed bit by bit (`sshl_ok`, `sshr_bit`), the rest follows as for C05-C07 and C85.

C128 `Model/PIDLoop.lean`: calls of Process alternating with the reaction of an arbitrary plant. By c36_formula each call is the textbook step. Never settling: inside the tolerance the action is 0 from the second call on (`rests`), so the plant is left to itself (`rests_idle`) and leaves the tolerance. Mover: each call takes at least `q` from an error outside the tolerance (`pull_shrinks`). Integral: the new value lies between the old one and the one needed.

C129 the statement language of `Model/Task.lean` has `for`, `do`, `break`, `continue` and a nested `switch`; a loop or nested `switch` in execution leaves a marker in the continuation that `break` and `continue` search for. The coroutine (`Spec/Task.lean`) has the same statements with their ordinary meaning and no task variable; `run_sim` and `run_returns` relate the two for C62 and C129. `c129_together` carries the relation for every task of a family.

C130 `Model/PortBits.lean` splits the functions of `Model/Port.lean` and `setEnableUsart` into a load and a store and lets any calls of handlers run in between; `exec_eq` proves the halves make up the modelled functions. A call with others inside is proved equal to a sequence of uninterrupted calls (`during_eq`), which gives the exact theorem by induction over the sequence. Switches are located by the data sheet (`place`), independent of the address computations of the model.

C131 a separate specification of the line (Spec/SerialLine): frame of a character, level of the line over time, and a receiver that waits for a low level, notices it up to J late, looks at the middle of every bit and waits again from the middle of the first stop bit. `c131_line_iff`: for any two bit lengths, everything sent is heard exactly if every look falls in its bit (the converse picks for each violated bit a character, or two characters without pause, that is misheard). `c131_setup` reads the format and the bit length from the registers OpenAsync wrote, through the data sheet's meaning of the fields (C56, C72). With C55 this gives exact conditions on clock and rate for both directions. The majority of three looks the USART takes is proved to be the same as one look (`c131_majority`). Simplified: the deviation of the crystals is not counted.

C132 `Props/BoardToBoard.lean`: no new model. The line list of the output stream (C59) becomes a waveform with arbitrary pauses (`sent`), what the receiver hears (`Hears`, C131) becomes the arriving frames of the input stream (C76). `KeepsUp` is a condition on the specification `Inbox` of C76: no arrival finds the FIFO full, no interrupt the buffer. Values wider than the format lose their high bits (`frame_mod`).

C133 (front panel). `Model/FrontPanel.lean` puts a list of buttons and timeout tasks on one shared delay table; a step is a time update or a call of one object. `callOwn` is what a call does to the own entry of the table; `call_own` shows from the refinement of the table (C24) that a call depends on nothing else and changes nothing else. `panel_alone` simulates the whole program and the program with one object side by side (induction over the events). `c133_promises` then carries C28, C29 and C30 over to every object of the program. `c133_conditions_fail` shows one run for each condition left out. `Props/PushButtonExact.lean` adds the exact reports for any number of scans per update, against the counting button of `Spec/ButtonCount.lean` (`c29_exact`, `c133_buttons_exact`) and the polled timeout of `Spec/Timer.lean` (`c133_timers_exact`).

C134 (delegates). `Model/Delegate.lean` has the objects by address, `callOn` (a call through a pointer to no object is undefined), the constructor, `Invoke` and the static `Invoke` for zero to five parameters, and programs over numbered delegates. The specification has no heap: it reads the program as a list of (object, arguments) and lets every object see its own calls. `run_sound` is an induction over the program with the invariant `After`; `run_unsound` shows that nothing else is defined. The class of methods, arguments and results is arbitrary. `Model/DelegateLife.lean` has the same functions with methods that may do anything to any object and with operations that create and destroy objects; `c134_lifetimes` says that such a program does exactly what it does with the delegates replaced by the addresses they were last given (relational specification `Does`), and `c134_dangling_fails` what becomes of a delegate whose object is destroyed. Simplified: there a method does not change a delegate; static `Delegate::Invoke` (line 58) does not compile (section 5 item 70) and is given the meaning of Delegate0's. Func.h is pure forwarding without a state and is not modelled. `Model/DelegateNest.lean` makes the methods programs themselves (`Prog`: look at the objects, do an operation, end with a result), so a method can retarget the delegate it was called through or call back to any depth; `exec` has fuel, and `c134_nested`, `c134_nested_undefined` say that the outcomes (result or undefined) are exactly those of `Spec/DelegateNest.lean`, where a delegate is a name for the address it was last given in the history of all operations, nested ones included.

C135 (serial terminal). `Model/Terminal.lean` composes the input stream (C76), `setup` of LCD.ino and the view. `Term.run_view` shows by induction that the loop does to the view what writing the characters read does, and to the stream what it does alone (`IInv` of C76 keeps the characters bytes). `c135_loop` then uses the synchronisation of the display (C41), lines (C122) and texts (C43); `c135_terminal` adds the line (C131, C132).

C136 (the car). `Model/MotorBoard.lean` runs the motor commands of C48 over the Arduino core of C89/C115, keeping the board after every single pin write, with the constructors. The chip is described by its function table (Spec/Motor.lean) on what the pins drive (`Sees`). `command_moments` gives the three boards of a command, `history_end` is an induction over the history with the last requests, `setup_spec` over the constructors. Commands come from main code only; for handlers see C140.

C137 (calls as indivisible steps). `wholeCalls` reads off the history at access level (C108) where each call takes effect; the streams of whole calls are those of C59 and C76. `Sim` says the access level state and the two whole call states correspond (buffers by content, transmitter and line, receiver FIFO, interrupt enable up to a pending enable, results up to one owed by a call that has taken effect); `sim_step` keeps it under every event using the invariant of C108, `whole_run` is the induction. `c137_history`: same calls in the same order, same hardware events, handlers only where they ran.

C138 (pointers byte by byte). `Model/UsartBytes.lean` is C108 with a ring buffer whose pointers are addresses in memory: every load and store of a shared pointer is two steps (`tornLoad`, `tornStore` of C107), and the handlers use the address they find. The invariant `BInv` is that of C108 with the offset each half stored pointer is on its way to (`OPos`, `IPos`). In such a window a handler that sees a wrong address does nothing (and the call that was interrupted enables the interrupt again) or moves the oldest byte, which is there (`ring_read`, `ring_write`); `refuse_full` and `torn_full`: in at most 256 bytes a mixture of two addresses is one of them or outside the buffer. `torn_length`: in at most 256 bytes `getLength` of a buffer in which bytes wait is not zero although both its loads can be mixtures, because both take the bytes in the same order.

C139 (byte by byte and undivided). `Props/UsartBytesWhole.lean` is a simulation from the machine of C138 to that of C108: `Match` relates the states (`OAt`: where the undivided write pointer is while the divided one is half stored, `HwSim`: the control register may differ in the interrupt enable bit inside a call), `Sim` says which history of the other machine has been built. A call of `Read` that has loaded half of a pointer is not yet placed (`undecided`); it is placed once both bytes are there, before or after the handler run that came between them; a handler that saw a half stored pointer and did nothing is left out. With C137 this gives whole calls and the specification `Inbox`. `SamePieces` cuts both histories at the same places, so a call stays between its beginning and its end.

C140 (motors and handlers). `Model/MotorInterrupt.lean` is `Send` of C136 with lists of handler commands behind the writes of IN1 and IN2. The specification `Order` lists the whole requests; `AsIfWhole` says the motors do what the last requests of one such order ask. `send_spec` gives the lines a command with handlers leaves, `serves_behind` and `serves_between` compare them with the requests (this is where `GoTogether` comes from), `fits_run` is the induction over the history and `order_last` the other direction. Commands of handlers are not interrupted themselves.

C141 (motors on a chain and handlers). `Model/SharedInterrupt.lean` runs `Send` of main code access by access (`Pc`: load and store of each `op=` on the word, fetch of each bit, each pin write) and a handler's `Send` as a whole, with the functions of C48 and C37. `Inv` is the invariant for quiet histories (which bits of the word are final, what the first stages hold, what the outputs show), one lemma per kind of event; `Loose` is what remains for all histories (clock and latch low outside their pulses), enough for `c141_repair`. `finish` and `Done` run main code from a place to its end, from which the exact outcomes at the other places follow. Condition `Along` makes conditions on the place of each event decidable for the cases.

C142 (a display and handlers). `Model/LcdInterrupt.lean` runs `WriteCommand`/`WriteData` of main code pin write by pin write (the list of C39's model, done and to be done) and a handler's call as a whole. The display is `Spec/Lcd.lean`. `Pairs` (how Enable alternates in the writes to come) gives the count for all histories; `Inv` says what is latched if main code goes on alone, which main code's own steps keep trivially. The outcomes at a place follow from the levels behind a byte (`behind`) and `spliced`, arithmetic of the bits.

C143 (delays and handlers). `Model/DelaysInterrupt.lean` runs `Wait` of main code access by access (`Pc`) and a handler's call as a whole, with the members of C24's model; `reload` says whether `_delays[i]` is read once or twice in lines 108-114. Simplified: an element of `_ids`/`_delays` is accessed in one step, only `Wait` of main code is taken apart, and handlers do not interrupt each other. The specification is the table of remaining times of C25 (`Spec/Delays.lean`), each call one step of it at its end. `Inv` ties the members to the table (`Ref` of C25) and says at each place of main code what it has found (`At`): no entry before `i` has the id, the free entry is still free, the entry compared is the id's. `c143_alone` is by induction over the loops.

C144 (two writers, two readers). `Model/RingBufferShared.lean` takes `Write` and `Read` of main code apart (test, element, pointer) over the members of C01's model; `keep` says whether main code uses the pointer of its test or loads it again. A handler's call is a whole call. The specification is a bounded list served call by call (`serve`); `Inv` is the relation of C01 with what main code relies on at its place (`At`). The outcomes at the forbidden places follow from `rel_commit`, `rel_drop` of C04 and `rel_overrun` (a full buffer whose write pointer moves on is empty).

C145 (a clock and handlers). `Model/TimeInterrupt.lean` takes `Update` of main code apart (load, clock, store, result); a handler calls `Time.update` of C27. The log notes for each answer whether main code was in `Update`. `Books` is the balance modulo 2^32 with what main code still owes (`owed`), `Paid` the same in true time.

C146 (a clock byte by byte). `Model/TimeTorn.lean` splits every load and store of `_ticks` by main code into four byte accesses; a handler makes whole calls. Log entries carry the values of `_ticks` before and after as history variables. `Seen` and `Composed` say what the bytes loaded so far come from, `half` what memory holds in the middle of a store; the bounds are arithmetic about `mixed`.

C147 (delta time and handlers). `Model/TimeExInterrupt.lean` takes `Update`, `Reset` and `getDeltaTime` of main code apart. The specification is an observer (`Obs`) who reads the log and knows the true times of the captures; `Answers` says what each answer in a log is in true times, and `InvA`, `InvB` tie the members to the observer.

C148 (MIDI writer and handlers). `Model/MidiInterrupt.lean` takes `Write` of main code apart: test, store and each byte. History variables record the bytes, marked if a handler wrote them in the middle, and the calls in the order of their decision. The invariant says that the unmarked bytes are those of an undisturbed writer making the calls in that order (C18 then says how they are read), and C19 adds the real-time bytes.

C149 (bit array and handlers). `Model/BitArrayInterrupt.lean` takes the methods apart into assignments `_bits = (_bits & keep) | put` and these into one-byte accesses in the compiler's order (`Compiles` says what is required of it). `counts` and `asks` are the specification; the invariant `Told` ties memory and registers, bit by bit, to the log. `exec` runs the remaining steps for one bit and gives `c149_last_partial`.

C150 (collection and handlers). `Model/CollectionInterrupt.lean` runs `Add` and `IndexOf` of main code access by access, with parameters for what the compiler does with the count. The specification is the bounded list of C10 (`Spec.lrun`) applied to the calls in the order in which they took effect; `Inv` adds to the relation of C10 what main code has loaded and stored. `find_run` follows a search: no position passed so far holds the item.

C151 (sections). `Model/CriticalSection.lean` puts any shared object (`Machine`: states, events, which event enters a call) on a board with the interrupt flag and request flags; behind `sei` and `reti` one instruction of main code comes before the next handler, as the processor does it. `Inv`: the object is in the state of its trace, the trace is `Clean`, and main code is outside all calls whenever interrupts are on. `Props/CriticalSectionUse.lean` makes machines of the models of C141 to C150 and shows that a clean trace meets the condition of each of their theorems (`clean_imp`).

C152 (one USART output stream, several writers). `Model/UsartWriters.lean` takes `Write` of main code access by access, the ring buffer's `Write` included, with other handlers' `Write` as a whole; the history variable is the list of completed writes. Invariant: that of C59 (`OInv`, through `view`) and `Holds`, what main code relies on between test and store (room, the pointer it holds, the byte stored). `c152_drain_partial` reuses the draining of C59 (`rounds_view`). `c152_sections` makes the stream a machine of C151.

C153 (MIDI clock in a handler). No model of its own: C152's stream, the MIDI writer and reader of C18 and C19. The history variable of C152, with handlers' bytes marked, is a marked stream of C19 (`marks`); `weave_merge` strengthens C148's permutation to an order preserving merge (`Merge`).

C154 (two readers). `Model/UsartReaders`: `Read` of main code access by access (test, load of the byte, store of the pointer; or load and store of UCSRnB twice), handlers as a whole, frames at any time. The invariant is C76's for the stream of whole calls (`view`) with what main code holds (`Holds`) and whether the interrupt is on (`asked`); `Rel` determines the contents (`rel_unique`), so C76's `in_step` can be used for handlers. The results of completed calls are a history variable; `c154_calls` says that it has one entry per call.

C155 (both streams). `Model/UsartShared`: one USART, two buffers, `Write` and `Read` of main code access by access, their read-modify-writes of the one register UCSRnB included (`rmw`), handlers as a whole. The invariant joins those of C59 and C76 with what the copies of the register main code holds must contain (`Inv.w`, `Inv.r`): the transmit interrupt if bytes wait, the receive interrupt if a reader has been told that there is nothing. `c155_stuck_fails` and `c155_deaf_fails` are about all continuations: `Stuck` and `Deaf` are invariants of every event except a new `Write` or `Read`.

C156 (printing from handlers). No new model: the characters of `WriteLine` (`lines`, C119) are those main code or handlers ask the stream of C152 to write. `Part` is a stretch in which one of them prints; `c156_lines_partial` counts what is taken from part to part (`part_taken`, from `c152_calls`: the log of a part holds what was asked for) and lets the transmitter run (`c152_drain_partial`). `InOnePiece` is stated with `Written` of C105, not with the model of the writer. `c156_sections` takes programs on the board of C151, step by step (`Step`): each step makes a part (`step_came`), or is a handler that does not run.

C157 (shared variables). `Model/SharedData`: a value is `n` bytes, a call of main code a list of loads and stores of single bytes in any order (`Code`, `Compiles`: each byte once, in `|=` and `&=` loaded before it is stored), so both `load all, store all` and byte by byte are covered. `c157_bytes` and `c157_change` are invariants over all histories of one call (`read_inv`, `Past`); the `_once` theorems are equivalences and rest on `never_mixed`; `c157_sections` is a simulation (`Rel`) of indivisible calls (`inOneGo`), with the board of C151.

C158 (polled transmitter, shared). `Model/UsartPolled`: `Write` and `TryWrite` of main code one register access at a time (`mainStep`), handlers' `TryWrite` the function of C57 as a whole, the hardware at any moment. `c158_alone` says that the accesses together are that function. `c158_order_partial` is an invariant (`Inv`: where main code has seen the register empty it is, and before the store the ninth bit is its own); `c158_count` one over all histories (`Low`).

C159 (polled receiver, shared). `Model/UsartPolledRead`: `Read` and `TryRead` of main code one register access at a time, with three loads of UCSRA for the result and two of UCSRB for the ninth bit; handlers' `TryRead` the function of C75 as a whole. `c159_alone` says that the accesses together are that function. `c159_order_partial` is an invariant (`Inv`: everything main code has found out is about the oldest frame); `c159_count` one over all histories (`Low`).

C160 (fixed string, shared). `Model/StringInterrupt`: main code's `strncpy` one store and its reading loop one load at a time; a handler's copy is `FixedString.copyFrom` of the array model, its reading undefined behind the array. `c160_safe` and `c160_chars` are invariants over all histories (`Safe`, `Origin`). The mixtures are `mixed k a b` of the two memory images; that a mixture is one of the two texts at every `k` exactly if one text is a beginning of the other or one character differs is by induction on both images (`old_or_new`). `c160_sections` is a simulation (`Rel`) of the string whose calls are indivisible.

C161 (push button, shared). `Model/ButtonInterrupt`: `ScanButton` as pieces between the stores to `_states`, the stores those of `BitArray::Set` (C149); handlers call `getState`. What is left of a call is a function on the undisturbed button of C29 (`rest`); the invariant `Mid` says that the stores in hand leave a packed pair of states and that the rest of the call leads to the result of the undisturbed call, with all states on the way in a given set. `c161_new` (the button as constructed) by induction on the number of calls.

C162 (digital input, shared). `Model/InputInterrupt`: main code's `Read` as reading of the pin, load and store; handlers' `Read` is the function of C31. `c162_value` is by invariants over all histories (`value_step`, `Had`), `c162_order_partial` by one over the quiet ones (`Inv`).

C163 (value container, shared). `Model/RangeInterrupt`: main code's `IsInRange` as loads of the mode and of the bounds in either order, its changes as lists of stores; handlers' calls are the functions of the value container's model. The specification is the set of values accepted (`accepts`, `meant`, `Serial`). `c163_ask_once` and `c163_set_once` are by arithmetic on the mixture of the bounds (`mixture`), `c163_normalize_half_fails` by running it, `c163_sections` by a simulation (`Rel`).

C164 (delegate, shared). `Model/DelegateInterrupt`: `Instance` as two bytes, main code's assignment of a new delegate as two stores, its `Invoke` as two loads and the call; handlers' calls as a whole, with `Invoke` the function of C134. `c164_effects` is an invariant over all histories with the specification of C134 (`sees`, `mine`, `result`); `c164_page_partial` another one (`Page`); `c164_sections` an induction over the histories in which calls do not overlap (`turn_run`).

C165 (iterator over a shared collection). `Model/IteratorInterrupt`: the loop of main code as `MoveNext`, the test of `getCurrent` and the load of the item, with the functions of C14; handlers' calls those of C150. The list is that of C10 and C150 (`Rel`, `lrun`). `c165_safe` and `c165_ends` are one induction with a measure (`safe_run`, `toGo`), `c165_adds_partial` one with the items got so far (`Sofar`), `c165_items_partial` (handlers do not clear) one with their number and where they came from (`Got`), `c165_sections` one over the histories in which loops are not interrupted (`turn_run`).

## 4. Trusted base

* Lean 4.33.0 kernel and the standard axioms `propext`, `Classical.choice`, `Quot.sound` (every property theorem
  is checked with `#print axioms`; no other axiom occurs).
* The reading of the C++ text into the model (each definition cites its lines) and the device models
  (74HC595, HD44780, ATmega USART registers, MIDI 1.0, the pin, stream and Wire functions of the Arduino core)
  written from the public data sheets and sources. `Verif/Tests/UnitTests.lean` runs the repository's own unit tests against the model
  (every `Assert` on concrete values as an `example`); these are tests of the model's fidelity, no claim rests on them.
* Not modelled: compiler optimisation, memory model beyond the listed micro-steps, floating point
  outside C34 and C113, real time (delays in microseconds) outside C98, C116 and C117, virtual dispatch tables, the Func
  wrappers (pure forwarding; Delegate is C134), VolatileData, EnumScope.

## 5. Disagreements between code and documentation found while reading

1. `BitFlag.h` guards with `bitIndex > getMaxBits()`: index = width is accepted.
2. `BitArray.h`, `Bit.h`, `BitFlag.h`: `1 << index` is an `int`; wrong or undefined for 32-bit words on AVR.
3. `FixedArray.h`/`FixedArrayRef.h` `Clear` clears MaxItems *bytes*.
4. `Collection::IndexOf` returns `char`, `StaticArray::IndexOf` returns `int8_t` and loops with `uint8_t`.
5. `Midi::IsChannelMessage` is false for status bytes E1..EF.
6. `MidiReader`: SysEx never ends; status byte inside a message is dropped; F9/FD abort the running message; F6 is reported as real-time.
7. `MidiMessage::GetDataByte1` does not mask channel pressure to 7 bits.
8. `Delays::Wait` writes `_ids[-1]` when the table is full; id 0 is not usable.
9. `Delays::getLastDeltaTime`, `TimeEx::getDeltaTime` truncate to 16 bits.
10. `TextWriter::Write(char)` writes the character code as decimal text; buffers too small for base 2 and 3.
11. `Serial3WireOutput::Write` never terminates (`uint8_t i >= 0`).
12. `TB6612FNG_Driver::Send` with speed 0 writes duty 1 (`true`), the 3-wire driver dereferences an unset register.
13. `URM37V32_Controller::EndDistance` rejects any reading with one byte FF; `EndTemperature` does not compile when used (`ReceiveRespone`).
14. `HD44780_View` increments row/column one too far; its cursor is uninitialised after `Initialize`.
15. `HD44780_ViewPort::ScrollLeft` never scrolls.
16. `HD44780_Controller::Initialize` does not drive RS low before the synchronisation nibbles.
17. `HD44780_DisplayWriter::SetCursor` passes DontCare through as row 255.
18. `Control::IsOfType`: every control "is" a Panel.
19. `Panel::setCurrentControl` resets a disabled/hidden control to normal; focus is per line, so a page can have two focused controls.
20. `UsartConfig`: even/odd parity codes swapped, 9 data bits encoded as a reserved value, divider truncated to 16 bits, division by zero for baud rate 0, `getMode` returns SyncSlave instead of Invalid before initialisation.
21. `UsartReceive::Flush` has an inverted condition.
22. `Port::EnablePullup` ignores its `enable` argument; `PowerReduction::getEnableUsart` tests a bit number as a mask.
23. `PID`: integrator and last error are uninitialised; zero time step divides by zero; the documentation says P+I-D, the code adds D.
24. `MidiWriter::Write(MessageTypes)` with `TuneRequest` does not cancel the running status (system common messages must).
25. `Collection` over an array larger than its one-byte count; `FixedString::SetAt` at the capacity; `Range::Clip` with a reversed range: see C10, C12, C16.
26. `Delays::Wait`, `TimeoutTask::Execute`, `PushButton::ScanButton` count the last delta again when called more than once between two `Update` calls.
27. `PushButton` does not initialise `_task` in its constructor.
28. `PID::CalcD` with `T = int` on AVR divides in `unsigned int`: a falling error gives a large positive D term.
29. `TextWriter::WriteReal` truncates the decimals after binary rounding: 0.375 is written as 0.37, 16.125 as 16.12, 4.125 as 4.13.
30. `PID::CalcError` sets the integrator to 0 even if the configured range excludes 0.
31. `HD44780_View::ClearDisplay` (inherited) moves the display home but not the view's cursor; with `Rows = 3` rows 0 and 2 share memory.
32. `HD44780_Controller::getEntryCursorDirection` returns a `bool` as `Direction` (does not compile when used) and reads `Right` initially although the display increments.
33. `HD44780_DisplayWriter::SetCursor` passes a don't-care coordinate (0xFF) on to the view unless both are don't-care.
34. HD44780 drivers leave Enable high between transfers: RS and data change while E is high (data sheet: RS setup before the rising edge).
35. `URM37V32_Driver::ReceiveResponse` has no resynchronisation: after one lost byte every later response is a checksum error.
36. `URM37V32_Controller::WriteEEPROM` waits for the answer without a time-out and treats a corrupted answer as none.
37. `Task_Return`, `Task_WaitUntil`, `Task_YieldUntil` expand to several statements: wrong in an `if` without braces.
38. `LabelControl.h` uses `Control::ControlDisplayMode`, `Control::modeNormal`; `ControlContainer.h` `typeControl`; `PageController.h` `case Up`: names that do not exist with the scoped enums (do not compile when used).
39. `VerticalPanel::OnNavigationCommand` does not route Up/Down to its current control first, although documented.
40. `InputControl::BeforeChangeState` accepts `Selected` for a disabled or hidden control.
41. `ControlContainer::getNext/getPrevious` use an `int8_t` index: children from 128 on are unreachable.
42. `FixedString::getCapacity` returns `uint8_t`: `FixedString<256>` has capacity 0, and a text control cannot move in it.
43. `TextControl` with a character that is not in the character set edits from a stale iterator position and can write a 0.
44. `UsartConfig::InitAsync`: rounds the divider down only, truncates quotient and deviation to 16 bits, divides by zero for 0 baud; `getBaudRate` is 0 for the fastest setting; `getMode` is `SyncSlave` before initialisation.
45. `UsartConfig::getUCSRC` exchanges even and odd parity, and for nine data bits sets UCSZ0 only (reserved size).
46. `UsartReceive::Flush` waits while there is nothing to read and stops as soon as there is; `UsartInputStream::Clear` hangs with it.
47. `UsartTransmit::Flush` ("until all data has been transmitted") waits for the data register only.
48. `Bit::Set(target, bool)` always clears first: `UsartReceive::setEnable(true)` on an enabled receiver discards received data.
49. `PowerReduction::getEnableUsart` uses the bit number as a mask.
50. `Port::EnablePullup` ignores `enable`; `DigitalOutputPin(bool)` switches the direction before the level.
51. `Interrupt::EnablePinChange` never writes the mask of port D.
52. `UsartOutputStream::getLength` returns `uint8_t`, `Flush` ("removes all content") does not wait for completion; its `T` is ignored by `Write(uint8_t)`, so nine-bit output through the stream is impossible.
53. `UsartOutputStream` documents `setEnableWantDataInterrupt` of its base but calls `setEnableAcceptDataInterrupt`.
54. `Page::Display` shows the cursor of the current control also when that control is hidden.
55. `Page::Add` numbers lines by count and so gives a line the row of an earlier line that has a position of its own.
56. `TextControl::ToString` casts the string object (`StringT*`) to `char*`; right only for string types that start with the characters.
57. `HD44780_DisplayWriter::SetCursor(DontCare, DontCare)` switches the cursor off but not the blinking: an edit cursor keeps blinking.
58. `Time<Microseconds>::getMilliseconds` divides the wrapped counter: it jumps back to 0 every 71 minutes, not at 2^32 ms.
59. `BitArray::ShiftUp/ShiftDown` ("setting false") are undefined from the word width on when the word is as wide as `int`.
60. `RingBuffer::Clear` is two stores: `UsartOutputStream::Flush` with the interrupt on can send uninitialised memory.
61. Arduino `DigitalOutputPin(bool)` makes the pin an output before it writes the value: a short wrong level.
62. Arduino `AnalogOutputPin`: `getValue` and `Toggle` of the base stop the PWM, and `Write(uint8_t)` hides `Write(bool)`.
63. `StreamOutputStream::Flush` "removes all content" but the Arduino `flush` it calls sends it.
64. `SerialI2COutput::Write` of more than 32 bytes sends the first 32 and returns true.
65. `Delay<Microseconds>::Wait` (Arduino) takes 32 bits but the core function takes 16: longer waits are cut.
66. `Math::Abs` "returns the non-negative value" is negative (or undefined) for the smallest value of a signed type.
67. `StaticString::Read` leaves the target without terminator when the string does not fit.
68. `ProgMemAccessor` uses near reads: data above 64 KB is not reached.
69. `IdentifiableObject::getId` "unique": an object and its first member have the same address and so the same id.
70. `VolatileData` (`inline T operator T()`, `operator=` without result type) and the static `Delegate` (`(instance->*Callback())`) do not compile when used; `Data::operator=` takes a non-const reference.
71. `HD44780_Profile` waits less than the data sheet asks for (the correct values are commented out), and `WriteData` and the driver's `Initialize` do not wait at all.
72. `Iterator::MoveNext` after `ResetToEnd` on 32767 items computes 32767 + 1 in a 16-bit int.
73. `TimeoutTask`: the wait begins again only in the round after `OnTimeout`, so with a round per millisecond the period is the timeout plus 1 ms (the example's 200 ms is 201 ms), and with long rounds correspondingly more.
74. `DigitalInput.ino`: the LED is not written until the input changes from low; with an LED pin that starts high it does not show the input.
75. `CounterTask` prints "Counted to m" after m + 1 increments, and its `_task` is an uninitialised `int` (fine for globals only), where Task.h asks for a `uint16_t`.
76. `PageController::Display` and `Page::Display` do not clear the display: remains of a page with longer texts stay ("Go" after "Wait" reads "Goit").
77. `StaticArray::IndexOf` returns `int8_t`: in a `TextControl` over a set of more than 128 characters, editing a later character starts before the first one of the set.
78. `UsartInputStream::Read` is what switches the receive interrupt on ("first read is always -1"), but `MidiReader::Read` only calls it when `getLength()` is not 0: a MidiReader on a UsartInputStream never receives anything unless the application enables the interrupt itself.
79. `UsartOutputStream::Write` ignores the result of `RingBuffer::Write`: a byte for a full stream is dropped without notice, and `MidiWriter` has no way to see it; the receiver then reports wrong messages.
80. `RingBuffer` is used from interrupt handlers without any protection, and its pointers are not `volatile`: on AVR a pointer is moved in two bytes, so `getLength` of a buffer that crosses a 256-byte boundary can return a value above its size, a buffer of more than 256 elements can refuse a value although it has room, and two handler runs between the two byte stores read a value that was never written.
81. `RingBuffer::Write` and `Read` leave their pointer one past the end for a moment (increment, then wrap): an interrupt handler that runs twice in that moment sends the whole output buffer a second time, or makes a full input buffer empty.
82. A `TextControl` lets the cursor go to the capacity of its string, not to the end of the text: behind a text that does not fill the buffer, Up and Down write characters after the terminating zero, which the display never shows, and start from whatever character the iterator was left at.
83. `Bit::IsTrue` and `BitFlag::IsTrue` compare with `> 0`: for a signed type the sign bit is never reported, e.g. `Bit<15>::IsTrue(int)` on AVR (the Bit example uses `int`).
84. The CollectionRef example counts with an `unsigned char` up to `getCount()` (`uint16_t`): with 256 items or more its loop never ends.
85. `MidiReader` does not cancel the running status on a tune request (`90 40 40 F6 41 40` gives a second note), and an undefined real-time byte (F9, FD), which a receiver must ignore, throws away the message it falls into and the running status. The writer side of the first is item 24.
86. `UsartTransmit::getIsComplete` reads the TXC flag, which nothing in the library clears: after the first transmission `WaitIsComplete` returns at once for ever, before it (or with its interrupt enabled) it never returns although nothing is left to send.
87. `PID<.., float>`: with a D gain, two calls within one tick of the clock and the same error compute 0 / 0; `ClipValue` compares with `>` and `<` and returns the NaN. One NaN from `getFeedback` makes `_integralAcc` NaN, and with it every later value, until an error falls in the dead band.
88. `UsartOutputStream::Write(uint8_t)` ignores its template parameter `T` ("for 9 data bits int16_t should be used"): the ninth bit cannot be sent.
89. `AnalogOutputPin::Write(uint8_t)` hides `DigitalOutputPin::Write(bool)`: `pin.Write(true)` drives the duty 1/255, or low without a timer, though docs/General Purpose IO.md says the class "can therefor also be used as a digital pin". Contracts.txt asks every OutputStream for `bool Write` and a `Flush` that sends: `UsartOutputStream::Write` and `StreamOutputStream::Write` return nothing, `UsartOutputStream::Flush` discards (C86). docs/HD44780.md says the view keeps its cursor in sync "during any of the operations" (false, C43).
90. AVR `Delay::Wait(uint32_t)`: `_delay_ms`/`_delay_us` compute the cycle count in 32-bit `double`. Times of more than 2^32 cycles (268 s at 16 MHz) are undefined though the parameter takes them, some long times are rounded down (134221 ms waits 8 us too short), and avr-libc accepts only compile-time constants.
91. HD44780 over I2C: the delays of `HD44780_Profile` are too short for the initialisation (1 ms plus three bus transfers instead of 4.1 ms after the first instruction), and at 400 kHz for clear and home. At 100 kHz the bus itself is slow enough for everything after the initialisation.
92. `UsartInputStream::Clear` ("Removes all content from the stream. Keeps reading the input stream until there is nothing left") inherits the inverted loop of `UsartReceive::Flush`: it returns only when the receiver holds a frame, and leaves it there. `Close` clears the buffer before it turns the interrupt off, so a byte can get into the closed stream.
93. `UsartOutputStream::Write` returns nothing and ignores the result of `RingBuffer::Write`, so a TextWriter on it ("BaseT is derived from and implements 'void Write(byte)'") cuts numbers without any sign of it: 12345 through a buffer of four goes out as 123 when the interrupts are off.
94. `PID`: the documentation sums all previous I terms; `CalcError` drops the sum as soon as the error is acceptable, so at the set point the output that reached it is taken away (`c120_sum_fails`).
95. `URM37V32_Driver` calls `Read` only when `getLength() > 3`, but only `Read` on an empty `UsartInputStream` switches the receive interrupt on: used together as they are, nothing is ever received (`c121_deaf_fails`). With a buffer size of four (three usable) no response is ever complete (`c121_small_fails`).
96. `HD44780_View::IncrementCurrentRow` lets the row count to `Rows` before it wraps (`_cursorRow + 1 > getTotalRows()`), so with `WriteLine` the line after the last row and the one after it are both written into row 0: a counter on two rows shows 4 above 2 instead of 3 above 4 (`c122_counter_fails`).
97. The constructor of `HD44780_Driver` sets Enable only, while the I2C and shift register drivers start with RS low. When the RS pin was high, `Initialize(true)` over the parallel driver leaves a display with the 8 bit interface out of step where the other drivers initialise it (`c123_rs_pin_fails`).
98. A thru program made of `MidiReader` and `MidiWriter` loses messages: `Write(Midi::MessageTypes)` does not cancel the writer's running status for a tune request, so `90 3C 64 F6 90 3D 64` is sent on as `90 3C 64 F6 3D 64`, in which a conforming receiver does not see the second note (`c124_tune_request_fails`).
99. The setters of UsartReceive and UsartTransmit (UsartReceive.h 59-79, UsartTransmit.h 52-125) change UCSRB with a load and a store and without disabling interrupts: what a handler switches in between (another bit of the same USART) is undone (C126).
100. BitArray over a signed type (BitArray.h 36 says "(unsigned)"): `Get(index, count)` up to the top bit sign extends, `ShiftDown` (doc: "setting false for the most significant bits") repeats the sign, `IsTrue` of the sign bit of an `int` is false although `IsFalse` is false too (C127).
101. PID clears the integrator whenever the error is acceptable (PID.h 91-96; the documented sum of previous I's, PID.h 31, says nothing of it): a plant that needs a lasting action to stay at the set point is therefore never kept there, with any gains (C128).
102. Task.h 31 ('Keep the logic inside the Task method simple for it can cause compile errors'): a yield inside a nested `switch` and a second task method in the same class do compile, but do not work (C129).
103. Nothing in AVR/Port.h, AVR/Interrupt.h or AVR/PowerReduction.h says that the functions must not be called by main code and a handler for switches of one register. They are read-modify-write: a handler's change to another pin of the port (or interrupt of the timer) between load and store is lost (C130). For constant pins avr-gcc usually makes one instruction of it, for TIMSKn and PRR0 it cannot.
104. UsartConfig.h 125-165: InitAsync rounds the divider down only, so the line is never slower than requested but up to one divider step faster; near the upper end the result is not usable although the next divider would be (57600 baud at 4 MHz: 62500 instead of 55555), and InitAsync reports success (C131, `c131_fast_fails`). The parameter is `uint16_t`, so 115200 cannot be requested at all.
105. BitArray.h 275-290: the two specialisations of `Reverse` are ordinary functions defined in the header without `inline`, so a program that includes it in two source files does not link.
106. `TB6612FNG_Driver::Send` writes IN1, IN2 and PWM one after the other: Stop after Break and Break after Stop pass through a turning state (with duty 1), and a reversal passes through the new direction with the old speed (C136).
107. URM37V32_Controller.h 145-173: `EndTemperature` has the comment 'invalid reading' only where the command is wrong; the sensor's invalid marker FFFF, which `EndDistance` looks for, is delivered as -409.5 degrees (C68).
108. `TB6612FNG_Driver::Send` writes three pins one after the other: a command of an interrupt handler to the same motor in between can leave a motor turning that nobody asked to turn (Break interrupted by Stop), and an emergency Stop is undone by a CounterClockwise that was in progress.
109. The shared register of TB6612FNG_DriverSerial3Wire is not protected against interrupts: a Stop given by a handler between load and store of `BitArray::Set` in main code is undone when main code stores (the motor keeps turning), and a handler inside `WriteReverse` shifts the outputs along, so that for example a motor main code turns counterclockwise turns clockwise until the next command (`c141_stop_fails`, `c141_garbled_fails`). The comments say the register "is shared among all driver classes" without a word on interrupts.
110. HD44780_Driver.h is not protected against interrupts: a handler that writes a character while Enable is low in main code's byte loses its first half, and from then on the display pairs the halves of different bytes: all later text is garbage until Initialize (`c142_garbage_fails`). Elsewhere in a byte the register select or data lines are mixed: a character becomes a command (`c142_command_fails`), an `A` becomes a `q` (`c142_mixed_fails`). The documentation does not mention interrupts.
111. Delays.h is not protected against interrupts: a delay a handler starts while main code's Wait has found the same free entry is overwritten and never expires (`c143_lost_fails`); a handler's Abort of a delay that main code is counting down is undone (`c143_abort_fails`), or, if the compiler reads the remaining time again for `-=`, leaves 2^32 minus the delta, 49 days in milliseconds (`c143_wraps_fails`). The documentation does not mention interrupts.
112. RingBuffer is usable with one writer and one reader only, which is documented nowhere: a handler that writes to a UsartOutputStream (e.g. a log message) while main code is in Write of the same stream makes one of the two bytes disappear, repeats an old byte, or empties the whole buffer, although Write returned true both times (`c144_writers_fails`, `c144_invented_fails`); two readers get the same value or make an empty buffer look full (`c144_readers_fails`).
113. Time::Update and so Delays::Update may not be called from main code and from handlers: time that a handler is told inside main code's Update is told to main code again, so the deltas add up to more than the time passed and delays end early (`c145_twice_fails`). The documentation does not mention interrupts.
114. A Time object may not be shared with an interrupt handler on the AVR even if only one side updates it: the count is four bytes and not protected. A reading made while the clock goes from 255 to 256 gives 511 or 0 (`c146_read_fails`), one made while it goes from 16777215 to 16777216 is off by 16777215, and a later reading can be before an earlier one (`c146_backwards_fails`). The documentation does not mention it.
115. TimeEx::getDeltaTime may not be shared with an interrupt handler: main code reads 0, twice the period or a negative period if a handler updates between its two loads (`c147_read_fails`), and a handler reads 0 between the two stores of main code's Update (`c147_heard_fails`). The documentation does not mention it.
116. A MidiWriter may not be shared with an interrupt handler, except for real-time messages: another message in the middle of main code's bytes, or between the store of `_runningStatus` and the status byte, is lost or misread, and so are later ones (`c148_intrude_fails`, `c148_store_fails`). The documentation does not mention it.
117. A BitArray may not be changed by main code and by interrupt handlers both, not even in different bits: the handler's change is lost if it falls between main code's load and store (`c149_lost_fails`). `Set(bitIndex, true)` makes a set flag false for a moment (`c149_glitch_fails`). The documentation does not mention it, and `_bits` is not volatile.
118. A Collection may not be added to by main code and by interrupt handlers both: of the items added during an `Add` one stays (`c150_one_stays`), or there is an item nobody has added (`c150_garbage_fails`), or the count passes the capacity (`c150_overfull_fails`), depending on how the compiler loads `_count`. The documentation does not mention it, and `_count` is not volatile.
119. `Interrupt::EnableAll` is all there is for sections without handlers, and it cannot be nested: it does not return or restore the former state, so a function with a section of its own turns interrupts on in the rest of its caller's section (`c151_nested_fails`) and before the program meant to (`c151_restored_fails`). Nothing in the documentation says so; avr-libc has `ATOMIC_BLOCK(ATOMIC_RESTORESTATE)` for it.
120. `UsartOutputStream::Write` is not safe against handlers that write to the same stream (for instance an error message from a handler while main code prints): a byte is lost, a byte nobody wrote is sent, or the whole buffer is dropped (`c152_kept_fails`, `c152_garbage_fails`, `c152_overrun_fails`). The documentation of the class does not restrict who may call `Write`; turning interrupts off around each `Write` of main code is enough (`c152_sections`).
121. A MIDI clock written by a handler to the `UsartOutputStream` main code sends notes over can make another note sound (`c153_note_fails`) or get lost (`c153_clock_fails`), although MIDI allows real-time bytes anywhere; main code has to write with interrupts off (`c153_sections`) and the buffer has to be large enough (`c153_room_fails`).
122. `UsartInputStream::Read` is not safe against handlers that read from the same stream: both readers get the same byte, and then a byte is lost or the buffer seems full of bytes already read (`c154_kept_fails`, `c154_again_fails`). The documentation of the class does not restrict who may call `Read`; turning interrupts off around it helps (`c154_sections`).
123. The two streams of one USART are not independent: a `Write` of a handler while main code's `Read` turns the receive interrupt on can leave its byte in the buffer for good (`c155_stuck_fails`), a `Read` of a handler while main code's `Write` turns the transmit interrupt on can switch reception off for good (`c155_deaf_fails`). Both change UCSRnB with a load and a store; turning interrupts off around the calls helps (`c155_sections`).
124. A `TextWriter` on a `UsartOutputStream` cannot be shared with handlers by protecting the stream's `Write`: what a handler prints stands between the characters of a number of main code, and the result may be the text of another number (`c156_number_fails`). Whole texts have to be printed with interrupts off (`c156_lines_partial`), and then wait in the buffer as a whole: its size bounds what can be printed.
125. `VolatileData` is meant for variables shared with interrupt handlers, but `volatile` does not make accesses indivisible: a value of more than one byte is read in pieces (`c157_read_once`, `c157_counter`), and `|=` on a `Data` loses what handlers do in between even for one byte (`c157_lost_fails`). Interrupts have to be off around reads of several bytes and around every change (`c157_sections`).
126. `UsartTransmit::Write` and `TryWrite` test for an empty data register and store later: with a handler writing in between both report `Success` and main code's byte is never sent (`c158_lost_fails`), or in nine bit mode is sent with the handler's ninth bit (`c158_ninth_fails`). Interrupts have to be off around main code's call (`c158_sections`).
127. `UsartReceive::Read` and `TryRead` collect the result, the ninth bit and the data of a frame in up to seven accesses: with a handler reading in between main code reports data that never came (`c159_empty_fails`), a damaged frame as good (`c159_mixed_fails`), or a value made of two frames (`c159_ninth_fails`). Interrupts have to be off around main code's call (`c159_sections`).
128. `FixedString::CopyFrom` and loops over `getBuffer()` are not indivisible: a handler reads half of a copy (`c160_full_claim_is_false`; "start" copied over "stop" is read as "stap"), and two copies at once leave a text that nobody has copied (`c160_mixture_fails`). Replacing a text by a beginning of it, or changing one character, is safe for a handler that reads (`c160_look_once`); replacing it by a longer text with the same beginning is safe for a handler that copies while main code reads (`c160_print_once`).
129. `PushButton::SampleButtonState` stores the raw level of the pin as the state before `DebounceButton` replaces it by `statePending`: a handler that calls `getState` in between sees a press that debouncing would have suppressed (`c161_glitch_fails`). `BitArray::Set` clears the field before it sets it, so if the compiler does not join the two a handler can also see `stateUnknown` (`c161_unknown_fails`). Interrupts have to be off around `ScanButton` (`c161_sections`).
130. `DigitalInput::Read` reads the pin, loads `_value` and stores it without protection: with a handler reading in between one change is reported twice (`c162_twice_fails`), or main code reports the old level as new and leaves it as the value although the pin has the other one (`c162_stale_fails`).
131. `ValueContainer` loads and stores its mode and bounds without protection: `IsInRange` interrupted by `SetRange`, or the other way round, accepts values between two ranges that do not touch (`c163_ask_once`, `c163_set_once`), `Normalize` in a handler makes values of the range be refused (`c163_normalize_fails`), and a new container's first `SetRange` stores the mode before the bounds, so a handler is answered from uninitialised memory (`c163_stale_fails`).
132. A delegate's only member is a pointer, stored and loaded as two bytes on AVR without protection: a handler that invokes a delegate while main code gives it another object calls the method on an address made of both (`c164_give_torn`), which can be a third object (`c164_third_fails`) or none (`c164_wild_fails`), and so does main code's `Invoke` (`c164_invoke_torn`).
133. An iterator does not notice that its collection is cleared: if a handler calls `Clear` between `MoveNext` and `getCurrent` main code gets the default value as an item (`c165_default_fails`), and if the handler adds an item afterwards main code does not get it (`c165_skip_fails`).
