{"id": "C01", "title": "Ring buffer is a FIFO queue", "statement": "For every buffer size and every sequence of Write, Clear, getLength and non-empty Read calls, a ring buffer answers exactly as an abstract first-in-first-out queue with room for Size-1 values: values come out in the order they were accepted, none is lost, duplicated or altered, Clear forgets everything, and no access falls outside the buffer.", "quantifier": "every Size >= 1, every item value, every sequence of operations (any number of wrap-arounds)", "why_tests_cant": "A test only visits a few wrap-around positions of the two pointers; the claim ranges over unboundedly long histories.", "anchors": ["Source/Code/ArduinoTemplateLibrary/RingBuffer.h: RingBuffer::Write, Read, Clear, getLength"]}
{"id": "C02", "title": "Ring buffer rejects exactly when full, without side effect", "statement": "Write returns false exactly when Size-1 unread values are held; a rejected Write changes nothing observable, and getLength is always the number of accepted-but-unread values and never exceeds the capacity.", "quantifier": "every Size >= 1 and every reachable state", "why_tests_cant": "The full/empty ambiguity only shows at particular pointer positions; every position of both pointers must be covered.", "anchors": ["Source/Code/ArduinoTemplateLibrary/RingBuffer.h: RingBuffer::Write, getLength"]}
{"id": "C03", "title": "Buffered input stream never invents data", "statement": "Read on a buffered input stream returns -1 exactly when no unread byte is held (and then changes nothing); otherwise it returns the oldest unread byte as a value 0..255. So after any history the bytes returned are a prefix of the bytes accepted.", "quantifier": "every Size >= 1, every interleaved history of Write and Read calls, every byte value", "why_tests_cant": "Needs all histories including reads on empty at every pointer position.", "anchors": ["Source/Code/ArduinoTemplateLibrary/BufferedInputStream.h: BufferedInputStream::Read", "Source/Code/ArduinoTemplateLibrary/RingBuffer.h: RingBuffer::Read"]}
{"id": "C04", "title": "Ring buffer is safe between main code and one interrupt handler", "statement": "When one context only writes and the other only reads (after checking getLength), for every way an interrupt handler can be scheduled between the memory accesses of the interrupted main code, the values read are exactly a prefix of the values accepted: no loss, no duplication, no garbage, no out-of-buffer access.", "quantifier": "every Size, every schedule of producer and consumer micro-steps, either side being the interrupt", "why_tests_cant": "Schedules cannot be enumerated or even triggered by unit tests; the window is a couple of instructions.", "anchors": ["Source/Code/ArduinoTemplateLibrary/RingBuffer.h: RingBuffer::Write, Read, getLength", "Source/Code/ArduinoTemplateLibrary/AVR/UsartInputStream.h: OnIsCompleteInterrupt", "Source/Code/ArduinoTemplateLibrary/AVR/UsartOutputStream.h: OnAcceptDataInterrupt"]}
{"id": "C05", "title": "BitArray field write/read law", "statement": "Set(index, value, count) followed by Get(index, count) returns the low count bits of value; every bit outside index..index+count-1 keeps its value; when the field does not fit in the array nothing changes and Get returns 0.", "quantifier": "every word type, every word value, every index, count and value, except the empty field just behind the last bit of an array as wide as int", "why_tests_cant": "The space (2^32 words x indices x counts x values) is far beyond enumeration, and masks go wrong only at field borders.", "anchors": ["Source/Code/ArduinoTemplateLibrary/BitArray.h: BitArray::Set(uint8_t,T,uint8_t), Get(uint8_t,uint8_t), CreateMask, isValidIndex, ShiftUp, ShiftDown"]}
{"id": "C06", "title": "BitArray single-bit operations are exact", "statement": "For every valid bit index Set(i), Set(i,b) and Reset(i) change exactly bit i and no other, and Get/IsTrue/IsFalse report exactly bit i; for an invalid index nothing changes and IsTrue and IsFalse are both false.", "quantifier": "every word type supported by the template, every word value, every index, on the AVR target (16-bit int) and on a 32-bit-int host", "why_tests_cant": "Depends on integer promotion of the literal 1 on the target; host tests use 32-bit int and 8-bit words only.", "anchors": ["Source/Code/ArduinoTemplateLibrary/BitArray.h: BitArray::Set, Reset, Get, IsTrue, IsFalse"]}
{"id": "C07", "title": "BitArray Reverse mirrors all bits", "statement": "After Reverse, bit i holds what bit (width-1-i) held, for every i; reversing twice is the identity. The 8- and 16-bit specialisations agree with the generic loop.", "quantifier": "every word value of every width", "why_tests_cant": "2^16 and 2^32 values; one pattern (0x55) is tested.", "anchors": ["Source/Code/ArduinoTemplateLibrary/BitArray.h: BitArray::Reverse"]}
{"id": "C08", "title": "Compile-time and run-time bit helpers change only the addressed bit", "statement": "Bit<i> and BitFlag(i): Set/Reset/Set(b) change exactly bit i and IsTrue/IsFalse report it, for every index below the width; an index at or beyond the width is rejected (value unchanged, both predicates false).", "quantifier": "every word value and every index 0..255, on a 16-bit-int and on a 32-bit-int target", "why_tests_cant": "The boundary index equal to the width and the promotion of 1<<i depend on the target; sampling misses them.", "anchors": ["Source/Code/ArduinoTemplateLibrary/Bit.h: Bit::Set, Reset, IsTrue, IsFalse", "Source/Code/ArduinoTemplateLibrary/BitFlag.h: BitFlag::Set, Reset, IsTrue, IsFalse"]}
{"id": "C09", "title": "Array accessors are bounds-safe for every index", "statement": "For every 16-bit signed index: GetAt on an invalid index returns the default value, SetAt on an invalid index changes nothing (and reports failure where it reports), writing through operator[] with an invalid index changes no element, and a valid SetAt changes exactly that element. No access is outside the storage.", "quantifier": "every array size, every index -32768..32767, every history of accesses", "why_tests_cant": "All indices times all histories; off-by-one at the capacity and sign conversions at 32768 items are invisible to samples.", "anchors": ["Source/Code/ArduinoTemplateLibrary/Array.h: Array", "Source/Code/ArduinoTemplateLibrary/ArrayRef.h: ArrayRef", "Source/Code/ArduinoTemplateLibrary/FixedArray.h: FixedArray::SetAt, operator[]"]}
{"id": "C10", "title": "Collection behaves as a bounded list", "statement": "For every history of Add, SetAt, GetAt, Clear and getCount a Collection over a fixed array answers as a list bounded by the capacity: Add appends and succeeds exactly while there is room, SetAt replaces only existing positions, GetAt returns the stored item or the default, Clear empties.", "quantifier": "every capacity up to 32767 and every operation sequence", "why_tests_cant": "Ranges over unbounded histories.", "anchors": ["Source/Code/ArduinoTemplateLibrary/Collection.h: Collection::Add, SetAt, GetAt, Clear, IsValidIndex", "Source/Code/ArduinoTemplateLibrary/CollectionRef.h: CollectionRef"]}
{"id": "C11", "title": "IndexOf finds the first occurrence", "statement": "IndexOf(item) returns the index of the first equal item, and -1 exactly when no item is equal, for arrays and for collections of any size the type admits.", "quantifier": "every array/collection content and size, every searched item", "why_tests_cant": "Narrow return types only fail from index 128 on; contents are unbounded.", "anchors": ["Source/Code/ArduinoTemplateLibrary/Array.h: Array::IndexOf", "Source/Code/ArduinoTemplateLibrary/ArrayRef.h: ArrayRef::IndexOf", "Source/Code/ArduinoTemplateLibrary/Collection.h: Collection::IndexOf", "Source/Code/ArduinoTemplateLibrary/StaticArray.h: StaticArray::IndexOf"]}
{"id": "C12", "title": "Fixed string is always terminated", "statement": "After construction and any history of CopyFrom, Clear and element writes at positions below the capacity, the string is zero-terminated within its storage, and after CopyFrom its text is the longest prefix of the source that fits.", "quantifier": "every capacity, every source text, every history", "why_tests_cant": "Termination depends on a never-written last byte; all lengths around the capacity and all histories matter.", "anchors": ["Source/Code/ArduinoTemplateLibrary/FixedString.h: FixedString::CopyFrom, operator=", "Source/Code/ArduinoTemplateLibrary/FixedArray.h: FixedArray::Clear, SetAt"]}
{"id": "C13", "title": "FixedArray Clear clears every element", "statement": "After Clear, every element of a FixedArray reads as zero, for every element type.", "quantifier": "every element size, every array length, every content", "why_tests_cant": "Tests use one-byte elements, where the byte count equals the item count.", "anchors": ["Source/Code/ArduinoTemplateLibrary/FixedArray.h: FixedArray::Clear", "Source/Code/ArduinoTemplateLibrary/FixedArrayRef.h: FixedArrayRef::Clear"]}
{"id": "C14", "title": "Iterator visits every item once, in order", "statement": "From Reset, repeated MoveNext returns true exactly n times and getCurrent yields the n items in order; from ResetToEnd, MoveBack yields them in reverse; MoveNext and MoveBack undo each other inside the array; getCurrent is the default value when the position is invalid.", "quantifier": "every array length and content, every sequence of moves", "why_tests_cant": "All lengths and all move sequences.", "anchors": ["Source/Code/ArduinoTemplateLibrary/Iterator.h: Iterator::MoveNext, MoveBack, MoveTo, Reset, ResetToEnd, getCurrent"]}
{"id": "C15", "title": "Wrap-around iterator is a cyclic walk", "statement": "On a non-empty array, after any sequence of k MoveNext and m MoveBack calls a wrap-around iterator stands on a valid position, and that position is (start + k - m) modulo the length; n MoveNext calls return to the same item.", "quantifier": "every array length >= 1, every sequence of moves", "why_tests_cant": "Unbounded walks; only the wrap positions are delicate.", "anchors": ["Source/Code/ArduinoTemplateLibrary/Iterator.h: WrapAroundIterator::MoveNext, MoveBack"]}
{"id": "C16", "title": "Range clipping and membership agree", "statement": "For every range (also reversed) IsInRange is membership between the smaller and larger bound; Normalize makes Begin <= End without changing membership; for a normalised range ClipValue always lands inside, leaves members unchanged, is idempotent and monotone and is the nearest member.", "quantifier": "every totally ordered value type, all bounds and values", "why_tests_cant": "Infinite domain.", "anchors": ["Source/Code/ArduinoTemplateLibrary/Range.h: Range::IsInRange, Normalize, IsNormalized, ClipValue"]}
{"id": "C17", "title": "Value container modes", "statement": "IsInRange on a value container is false for None, equality for Single, membership for Range (either bound order) and true for Any, after any history of the set operations and Normalize.", "quantifier": "every value and every history of mode changes", "why_tests_cant": "Infinite domain; histories leave stale bounds behind.", "anchors": ["Source/Code/ArduinoTemplateLibrary/ValueContainer.h: ValueContainer"]}
{"id": "C18", "title": "MIDI writer then reader is the identity", "statement": "Writing any list of well-formed non-SysEx MIDI messages with the writer (running status included) and feeding the bytes to a fresh reader raises exactly those messages, in order, with identical type, channel and data - one event per message.", "quantifier": "every finite list of channel, system-common (without SysEx) and real-time messages, all channels and 7/14-bit data values", "why_tests_cant": "Running status makes each message's bytes depend on the entire history.", "anchors": ["Source/Code/ArduinoTemplateLibrary/MidiWriter.h: MidiWriter::Write", "Source/Code/ArduinoTemplateLibrary/MidiReader.h: MidiReader::Read", "Source/Code/ArduinoTemplateLibrary/MidiMessage.h: MidiMessage"]}
{"id": "C19", "title": "MIDI real-time bytes are transparent", "statement": "Inserting defined real-time bytes (F8, FA, FB, FC, FE, FF) anywhere in any byte stream outside SysEx - even between the data bytes of a message or inside running status - raises one real-time event per byte at that place and changes no other event.", "quantifier": "every byte stream, every insertion position and any number of insertions", "why_tests_cant": "Positions times streams is unbounded; two placements are tested.", "anchors": ["Source/Code/ArduinoTemplateLibrary/MidiReader.h: MidiReader::Read, ProcessStatusByte, Dispatch"]}
{"id": "C20", "title": "MIDI reader recovers from line noise", "statement": "From every parser state, after any garbage, a later well-formed message that begins with its status byte is reported correctly (MIDI resynchronises on status bytes).", "quantifier": "every reachable parser state / every byte prefix, every following message", "why_tests_cant": "Requires all byte histories.", "anchors": ["Source/Code/ArduinoTemplateLibrary/MidiReader.h: MidiReader::Read, ProcessStatusByte, ProcessDataByte"]}
{"id": "C21", "title": "MIDI message byte codec", "statement": "Building a message from a status byte and its data bytes and reading back the status byte and data bytes returns the same bytes; channel, note, velocity, 14-bit bend and 14-bit song position have their documented values; fields sharing storage never clobber each other for any message type.", "quantifier": "every status byte of a defined message and all 7-bit data bytes, on the packed AVR layout and on an aligned 32-bit layout", "why_tests_cant": "Union aliasing depends on the target layout; tests run on one host layout.", "anchors": ["Source/Code/ArduinoTemplateLibrary/MidiMessage.h: MidiMessage::SetStatusByte, SetDataByte1, SetDataByte2, GetStatusByte, GetDataByte1, GetDataByte2"]}
{"id": "C22", "title": "MIDI status classification is a partition", "statement": "Every byte is exactly one of data, channel status, system-common status or real-time status; the message length is that of the MIDI 1.0 table; the message type of a channel status byte is its high nibble.", "quantifier": "all 256 byte values", "why_tests_cant": "A finite table, but the classification functions are only exercised through a handful of messages.", "anchors": ["Source/Code/ArduinoTemplateLibrary/Midi.h: Midi::IsStatus, GetMessageType, GetMessageLength, IsChannelMessage, IsRealtimeMessage, IsSystemCommonMessage, IsSystemMessage"]}
{"id": "C23", "title": "MIDI writer emits legal running status", "statement": "In the bytes written for any list of well-formed messages, a status byte is omitted only when the message is a channel message whose status equals that of the last non-real-time message written; every other byte sent is below 0x80; so any conforming MIDI 1.0 receiver reconstructs the list.", "quantifier": "every finite list of well-formed messages", "why_tests_cant": "Running-status legality depends on the entire history and on an independent receiver.", "anchors": ["Source/Code/ArduinoTemplateLibrary/MidiWriter.h: MidiWriter::Write"]}
{"id": "C24", "title": "Delays expire exactly when the elapsed time reaches the delay", "statement": "After a delay is registered, calling Wait once per time update returns true at the first update at which the sum of the elapsed deltas since registration reaches the requested time, not earlier and not later; then the delay is gone and can be started again.", "quantifier": "every delay time, every sequence of time deltas, every number of delays within capacity", "why_tests_cant": "Arbitrary delta sequences and alternations with other delays.", "anchors": ["Source/Code/ArduinoTemplateLibrary/Delays.h: Delays::Wait, Update, IsWaiting, Clear, Abort"]}
{"id": "C25", "title": "Delays with different ids are independent", "statement": "Operations (Wait, Abort, Clear, IsWaiting) on one id never change what any other id observes, as long as the table has room; the other id is not 0, which marks a free slot.", "quantifier": "every size of the table and every history of calls with any ids (0 included) in which the table never runs out of slots, every observing id other than 0", "why_tests_cant": "Slots are reused, so interference could show only after particular histories.", "anchors": ["Source/Code/ArduinoTemplateLibrary/Delays.h: Delays"]}
{"id": "C26", "title": "Delay table never writes outside its storage", "statement": "No history of Wait/Abort/Clear calls makes the delay table access memory outside its MaxItems slots.", "quantifier": "every capacity, every history, every id", "why_tests_cant": "A test detects an out-of-bounds write only by luck.", "anchors": ["Source/Code/ArduinoTemplateLibrary/Delays.h: Delays::Wait"]}
{"id": "C27", "title": "Elapsed time is correct across counter wrap", "statement": "The sum of the deltas returned by Update equals the real elapsed ticks, provided less than 2^32 ticks pass between two updates, including when the hardware tick counter wraps around.", "quantifier": "every sequence of tick readings and any number of wraps", "why_tests_cant": "The counter wraps after 49 days (70 minutes for micros).", "anchors": ["Source/Code/ArduinoTemplateLibrary/Time.h: Time::Update, TimeEx::Update, getDeltaTime", "Source/Code/ArduinoTemplateLibrary/Arduino/Time_Arduino.h: Time::Update"]}
{"id": "C28", "title": "Timeout task fires at most once per period and never early", "statement": "OnTimeout is called at most once per Execute call, and between two consecutive calls of OnTimeout at least Timeout time units have elapsed; under any schedule of time deltas it fires again once the accumulated time after re-arming reaches Timeout.", "quantifier": "every sequence of time updates and Execute calls, every timeout", "why_tests_cant": "Unbounded schedules of deltas.", "anchors": ["Source/Code/ArduinoTemplateLibrary/TimeoutTask.h: TimeoutTask::Execute", "Source/Code/ArduinoTemplateLibrary/Task.h: Task_YieldUntil", "Source/Code/ArduinoTemplateLibrary/Delays.h: Delays::Wait"]}
{"id": "C29", "title": "Push button debouncing", "statement": "Once past start-up, a scan never reports a change between open and closed without at least DebounceTimeout accumulated time units of pending state in between, and the state adopted is the pin level read at the end of the debounce period; glitches shorter than this never show.", "quantifier": "every sequence of pin levels and time deltas", "why_tests_cant": "Contact bounce sequences are arbitrary.", "anchors": ["Source/Code/ArduinoTemplateLibrary/PushButton.h: PushButton::ScanButton, SampleButtonState, DebounceButton"]}
{"id": "C30", "title": "Push button hold", "statement": "The hold state is reported only after the button has been seen closed on every scan for accumulated time of at least HoldTimeout, and is left only by seeing the button open.", "quantifier": "every sequence of pin levels and time deltas", "why_tests_cant": "Arbitrary-length histories.", "anchors": ["Source/Code/ArduinoTemplateLibrary/PushButton.h: PushButton::ScanButton"]}
{"id": "C31", "title": "Digital input edge detection", "statement": "Read returns true exactly at the samples whose level differs from the previous sample (initially low), and getValue is the level of the last sample; hence the number of reported changes has the parity of the current level.", "quantifier": "every sequence of samples", "why_tests_cant": "Unbounded histories.", "anchors": ["Source/Code/ArduinoTemplateLibrary/DigitalInput.h: DigitalInput"]}
{"id": "C32", "title": "Integer text output is exact", "statement": "The text written for an integer denotes exactly that integer: parsing it back in the selected base (2..36, with sign in base 10) gives the value, it has no leading zero (except 0 itself) and consists of legal digits; no memory outside the conversion buffer is written.", "quantifier": "every 8/16/32-bit signed and unsigned value and every base 2..36", "why_tests_cant": "2^32 values times 35 bases; buffer size matters only for long texts.", "anchors": ["Source/Code/ArduinoTemplateLibrary/TextWriter.h: TextWriter::Write, WriteInt, WriteLong, WriteInternal"]}
{"id": "C33", "title": "Text output passes characters through", "statement": "Write(const char*) emits the characters of the string in order without its terminator, nothing for a NULL pointer, and stops at nothing else; Write(char) emits that character.", "quantifier": "every string, every character", "why_tests_cant": "All strings; one overload converts the character to its number text.", "anchors": ["Source/Code/ArduinoTemplateLibrary/TextWriter.h: TextWriter::Write(const char*), Write(char), WriteLine"]}
{"id": "C34", "title": "Real number text output rounds half up", "statement": "For an exactly representable value the text written is the value rounded half away from zero to DecimalDigits digits, with exactly that many digits after the separator, and parses back to within half a unit of the last place.", "quantifier": "every real value whose magnitude fits the integer part, every number of digits", "why_tests_cant": "A continuum of inputs; carries across the decimal point (9.999) are rare.", "anchors": ["Source/Code/ArduinoTemplateLibrary/TextWriter.h: TextWriter::WriteReal"]}
{"id": "C35", "title": "PID output and integrator stay in range", "statement": "For every history of set points, feedback values, gains and time steps the value returned by Process and the integrator memory always lie in the configured range (no wind-up beyond it).", "quantifier": "every history of calls, every gain and every positive time step", "why_tests_cant": "Closed-loop histories are unbounded.", "anchors": ["Source/Code/ArduinoTemplateLibrary/PID.h: PID::Process, CalcI"]}
{"id": "C36", "title": "PID dead band and term independence", "statement": "An error whose magnitude is within the acceptable error yields zero proportional action and resets the integrator; the result of Process does not depend on the order in which the compiler evaluates the three terms.", "quantifier": "every state, input and each of the evaluation orders allowed by C++", "why_tests_cant": "Evaluation order is unspecified and a test sees a single compiler's choice.", "anchors": ["Source/Code/ArduinoTemplateLibrary/PID.h: PID::CalcError, CalcP, CalcI, CalcD, Process"]}
{"id": "C37", "title": "Shift register output, reverse order", "statement": "WriteReverse clocks every bit of the word, each with one rising clock edge while data is stable, with the latch closed during the transfer and one latch edge at the end, so a 74HC595 chain ends up showing exactly the word, whatever it held before.", "quantifier": "every word value and width, every prior content of the chain", "why_tests_cant": "Requires a device model over all words and prior states.", "anchors": ["Source/Code/ArduinoTemplateLibrary/Serial3WireOutput.h: Serial3WireOutput::WriteReverse, PulseSerialClock, PulseLatchClock"]}
{"id": "C38", "title": "Shift register output terminates", "statement": "Write(word) finishes: it clocks each bit once, most significant first, and latches.", "quantifier": "every word value", "why_tests_cant": "Non-termination shows up as a hung test, and the function has no test.", "anchors": ["Source/Code/ArduinoTemplateLibrary/Serial3WireOutput.h: Serial3WireOutput::Write"]}
{"id": "C39", "title": "LCD parallel driver delivers every byte", "statement": "For every sequence of commands and data bytes sent, an HD44780 in 4-bit mode (latching on the falling edge of Enable) receives exactly that sequence of (register select, byte) pairs, from any prior level of the lines with Enable high.", "quantifier": "every sequence of bytes and register selections, any prior line levels", "why_tests_cant": "Edge-level behaviour over unbounded sequences.", "anchors": ["Source/Code/ArduinoTemplateLibrary/HD44780_Driver.h: HD44780_Driver::WriteCommand, WriteData, Write4, PulseEnable"]}
{"id": "C40", "title": "LCD I2C driver delivers every byte and keeps the backlight", "statement": "Same delivery guarantee through the I2C port expander, where each I2C write changes all eight lines at once: no spurious Enable edge, and the backlight bit changes only by setBacklight.", "quantifier": "every sequence of commands, data bytes and backlight switches", "why_tests_cant": "All lines change together; spurious edges depend on the previous byte.", "anchors": ["Source/Code/ArduinoTemplateLibrary/HD44780_DriverI2C.h: HD44780_DriverI2C"]}
{"id": "C41", "title": "LCD initialisation synchronises from any phase", "statement": "Initialize(true) leaves the display in 4-bit mode at a byte boundary with 2-line mode, display off, cleared and entry mode set, whatever interface mode or half-received nibble the display was in before.", "quantifier": "every prior interface state of the display", "why_tests_cant": "The prior nibble phase after a reset is not controllable in a test.", "anchors": ["Source/Code/ArduinoTemplateLibrary/HD44780_Controller.h: HD44780_Controller::Initialize", "Source/Code/ArduinoTemplateLibrary/HD44780_Driver.h: Write4"]}
{"id": "C42", "title": "LCD settings are independent", "statement": "Each of the five display/entry flags reads back as last set and each register command sent reflects exactly the current flags; changing one flag never disturbs another, and no setter can produce another command.", "quantifier": "every history of setter calls", "why_tests_cant": "Histories of bit-packed flags.", "anchors": ["Source/Code/ArduinoTemplateLibrary/HD44780_Controller.h: setEnableDisplay, setEnableCursor, setEnableBlink, setEnableDisplayShift, setEntryCursorDirection, WriteDisplayControl, WriteEntryMode"]}
{"id": "C43", "title": "LCD view tracks the device cursor", "statement": "After Initialize and any sequence of cursor moves and text (with line feeds) the view's row and column equal the position of the device's address counter, so that text appears where the view says.", "quantifier": "every number of rows 1..4, every history of SetCursor, writes and returns", "why_tests_cant": "Unbounded histories crossing line ends.", "anchors": ["Source/Code/ArduinoTemplateLibrary/HD44780_View.h: HD44780_View::SetCursor, Write, Display, IncrementCurrentRow, IncrementCurrentCol, CalcAddress"]}
{"id": "C44", "title": "LCD view port scrolls", "statement": "ScrollLeft and ScrollRight move the visible window by the given count within the display memory, and scrolling left then right restores the window.", "quantifier": "every offset and count", "why_tests_cant": "All offsets.", "anchors": ["Source/Code/ArduinoTemplateLibrary/HD44780_ViewPort.h: HD44780_ViewPort::ScrollLeft, ScrollRight"]}
{"id": "C45", "title": "Sonar frames: round trip and corruption detection", "statement": "A response frame carrying command, two data bytes and the sum checksum is accepted with exactly these values; any frame with exactly one corrupted byte is reported as a checksum error; with fewer than four bytes available nothing is consumed.", "quantifier": "all commands and data bytes, all single-byte corruptions, all stream contents", "why_tests_cant": "2^32 frames.", "anchors": ["Source/Code/ArduinoTemplateLibrary/URM37V32_Driver.h: URM37V32_Driver::SendCommand, ReceiveResponse, CalculateChecksum, ValidateChecksum"]}
{"id": "C46", "title": "Sonar distance readings are delivered", "statement": "EndDistance returns the 16-bit distance of every valid distance response, and an error only for the sensor's invalid marker (FFFF), a wrong command or a failed frame.", "quantifier": "all 65536 readings", "why_tests_cant": "Readings whose one byte is FF are easily missed.", "anchors": ["Source/Code/ArduinoTemplateLibrary/URM37V32_Controller.h: URM37V32_Controller::EndDistance"]}
{"id": "C47", "title": "Sonar angle mapping", "statement": "The servo angle 0..270 is mapped monotonically onto 0..46 with exact end points, and always fits in a byte.", "quantifier": "every angle 0..270", "why_tests_cant": "All angles; integer division.", "anchors": ["Source/Code/ArduinoTemplateLibrary/URM37V32_Controller.h: BeginDistance, map"]}
{"id": "C48", "title": "Motor commands are unambiguous", "statement": "Clockwise/CounterClockwise(speed), Stop and Brake produce pairwise different line levels for each motor, the speed line carries the requested speed, and a command to one motor never changes the other motor's lines.", "quantifier": "every command history and speed 0..255", "why_tests_cant": "Histories over two motors with shared output register.", "anchors": ["Source/Code/ArduinoTemplateLibrary/TB6612FNG_Controller.h", "Source/Code/ArduinoTemplateLibrary/TB6612FNG_Driver.h", "Source/Code/ArduinoTemplateLibrary/TB6612FNG_DriverSerial3Wire.h"]}
{"id": "C49", "title": "Disabled and hidden controls never gain focus", "statement": "A control that is disabled or hidden never becomes focused or selected by any navigation command or state request, and stays disabled/hidden until the program changes it.", "quantifier": "every history of navigation commands and state requests on any panel of controls", "why_tests_cant": "Histories over control trees.", "anchors": ["Source/Code/ArduinoTemplateLibrary/Control.h: Control::setState, BeforeChangeState", "Source/Code/ArduinoTemplateLibrary/InputControl.h: InputControl", "Source/Code/ArduinoTemplateLibrary/Panel.h: Panel::setCurrentControl"]}
{"id": "C50", "title": "Control casts are type safe", "statement": "A dynamic cast of a control to a control type succeeds exactly when the object is of that type or of a type derived from it.", "quantifier": "every control type and target type", "why_tests_cant": "The flag encoding must be checked for all pairs.", "anchors": ["Source/Code/ArduinoTemplateLibrary/Control.h: Control::IsOfType, DynamicCast", "Source/Code/ArduinoTemplateLibrary/InputControl.h: IsOfType", "Source/Code/ArduinoTemplateLibrary/Panel.h: IsOfType", "Source/Code/ArduinoTemplateLibrary/Page.h: IsOfType"]}
{"id": "C51", "title": "A panel has at most one focused child", "statement": "After any history of navigation commands the current control of a panel is one of its children (or none), it is the only child that can be focused or selected, and left/right (up/down) moves visit the input controls in order without skipping any.", "quantifier": "every number of children of any kind, every history of commands", "why_tests_cant": "Histories over arbitrary panels.", "anchors": ["Source/Code/ArduinoTemplateLibrary/Panel.h: Panel::setCurrentControl", "Source/Code/ArduinoTemplateLibrary/PanelControlContainer.h", "Source/Code/ArduinoTemplateLibrary/ControlContainer.h: getNext, getPrevious", "Source/Code/ArduinoTemplateLibrary/HorizontalPanel.h", "Source/Code/ArduinoTemplateLibrary/VerticalPanel.h"]}
{"id": "C52", "title": "Only one control on a page has the focus", "statement": "On a page of lines, after any history of navigation commands at most one input control is focused or selected.", "quantifier": "every page layout and every history of commands", "why_tests_cant": "Focus is kept per line; two-line histories matter.", "anchors": ["Source/Code/ArduinoTemplateLibrary/Page.h: Page::OnNavigationCommand, TrySelectNextLine, TrySelectPreviousLine", "Source/Code/ArduinoTemplateLibrary/HorizontalPanel.h", "Source/Code/ArduinoTemplateLibrary/Panel.h"]}
{"id": "C53", "title": "Text edit control stays inside its text", "statement": "For every history of navigation commands the edit position of a text control is a valid character position, at most the character at the edit position changes per command, characters are changed only while the control is selected, and the terminator is never overwritten.", "quantifier": "every text capacity, every character set and every history of commands", "why_tests_cant": "Unbounded edit histories.", "anchors": ["Source/Code/ArduinoTemplateLibrary/TextControl.h: TextControl"]}
{"id": "C54", "title": "Up/down control edits only when selected", "statement": "Up and Down change the value by exactly one increment/decrement each while the control is selected, and never otherwise.", "quantifier": "every history of navigation commands", "why_tests_cant": "Unbounded histories.", "anchors": ["Source/Code/ArduinoTemplateLibrary/UpDownControl.h: UpDownControl::TryValueUp, TryValueDown, OnNavigationCommand", "Source/Code/ArduinoTemplateLibrary/InputControl.h"]}
{"id": "C55", "title": "USART baud rate selection", "statement": "InitAsync succeeds only with a divider in 0..4095 that gives the baud rate nearest to the requested one among both speed modes; it fails for rates that cannot be produced, and never divides by zero.", "quantifier": "every clock frequency and every 16-bit baud rate", "why_tests_cant": "65536 rates times clock frequencies; 16-bit truncations occur for rare pairs.", "anchors": ["Source/Code/ArduinoTemplateLibrary/AVR/UsartConfig.h: UsartConfig::InitAsync, CalcUBRR, CalcBaudRate, isValidUBRR"]}
{"id": "C56", "title": "USART frame format registers", "statement": "The control register values computed from a configuration encode, per the ATmega data sheet, exactly the selected parity, stop bits, data bits and mode, and these fields do not disturb each other.", "quantifier": "every combination of parity, stop bits, data bits and mode", "why_tests_cant": "The combinations are finite but no test reads the registers.", "anchors": ["Source/Code/ArduinoTemplateLibrary/AVR/UsartConfig.h: getUCSRA, getUCSRB, getUCSRC"]}
{"id": "C57", "title": "USART nine-bit transfer", "statement": "A 9-bit value handed to the transmitter is put on the line unchanged (bit 8 through its control bit, other control bits preserved), and a received 9-bit value is returned unchanged; in 8-bit mode bit 8 plays no part.", "quantifier": "all 512 values, all control register contents", "why_tests_cant": "Register contents times values.", "anchors": ["Source/Code/ArduinoTemplateLibrary/AVR/UsartTransmit.h: WriteInternal", "Source/Code/ArduinoTemplateLibrary/AVR/UsartReceive.h: ReadInternal"]}
{"id": "C58", "title": "USART receive flush", "statement": "Flush discards exactly the data that has been received and not read yet, and returns.", "quantifier": "every content of the receive FIFO", "why_tests_cant": "Needs a model of the hardware FIFO; on a host there is none.", "anchors": ["Source/Code/ArduinoTemplateLibrary/AVR/UsartReceive.h: UsartReceive::Flush", "Source/Code/ArduinoTemplateLibrary/AVR/UsartInputStream.h: Clear"]}
{"id": "C59", "title": "Interrupt driven USART output keeps order", "statement": "With the transmit interrupt served at arbitrary moments between calls, the bytes put on the line are exactly the bytes accepted by Write, in order, and the interrupt is enabled whenever unsent bytes remain, so that none stays behind.", "quantifier": "every history of Write calls and data-register-empty interrupts", "why_tests_cant": "Interrupt schedules.", "anchors": ["Source/Code/ArduinoTemplateLibrary/AVR/UsartOutputStream.h: UsartOutputStream::Write, OnAcceptDataInterrupt", "Source/Code/ArduinoTemplateLibrary/RingBuffer.h"]}
{"id": "C60", "title": "Port pin operations touch one pin", "statement": "Setting direction, level or pull-up of one pin changes the bit of that pin only, EnablePullup(pin,false) turns the pull-up off, and pull-ups are only changed on input pins.", "quantifier": "every register content and pin", "why_tests_cant": "All register contents.", "anchors": ["Source/Code/ArduinoTemplateLibrary/AVR/Port.h: Port"]}
{"id": "C61", "title": "Power reduction flags read back", "statement": "Enabling or disabling a peripheral changes only its own bit and the corresponding getter returns what was last set.", "quantifier": "every register content and peripheral", "why_tests_cant": "All register contents; device-specific bit numbers.", "anchors": ["Source/Code/ArduinoTemplateLibrary/AVR/PowerReduction.h: PowerReduction"]}
{"id": "C62", "title": "Task yield semantics", "statement": "A task method built with the task macros resumes exactly after the statement it yielded at: Yield suspends once, YieldUntil suspends at least once and evaluates its condition exactly once per later call until true, WaitUntil does not suspend when the condition is already true, and after the end the task restarts from the beginning.", "quantifier": "every task body composed of these statements and every sequence of condition values", "why_tests_cant": "Control-flow over all bodies and schedules.", "anchors": ["Source/Code/ArduinoTemplateLibrary/Task.h: Task_Begin, Task_End, Task_Yield, Task_YieldUntil, Task_WaitUntil, Task_Return"]}
{"id": "C63", "title": "LCD display writer puts the edit cursor on the control", "statement": "When a page is displayed, GoTo and SetCursor with a don't-care coordinate keep the current line or column, so that the text and the edit cursor of a control appear on the control's own line.", "quantifier": "every cursor position and coordinate pair", "why_tests_cant": "Pairs of coordinates and histories.", "anchors": ["Source/Code/ArduinoTemplateLibrary/HD44780_DisplayWriter.h: GoTo, SetCursor", "Source/Code/ArduinoTemplateLibrary/TextControl.h: Display", "Source/Code/ArduinoTemplateLibrary/HD44780_View.h: SetCursor"]}
{"id": "C64", "title": "PID derivative and integral arithmetic for integer value types", "statement": "For integer value types the derivative term is the change of the (filtered) error times its gain divided by the time step, rounded towards zero - negative when the error falls and the gain is positive - and the integrator grows by error times time step times gain.", "quantifier": "every error, previous error, gain and positive time step for which no intermediate result overflows the value type", "why_tests_cant": "Implicit conversions between signed values and the unsigned time step only show for falling errors.", "anchors": ["Source/Code/ArduinoTemplateLibrary/PID.h: PID::CalcI, CalcD"]}
{"id": "C65", "title": "LCD over shift registers: delivery without disturbing the neighbours", "statement": "With the display on outputs of a 3-wire shift register, every command and data byte sent after setDataRegister is received by the display exactly and in order, the other outputs of the register never change, and the calls return.", "quantifier": "every register width, assignment of six distinct outputs, register content and sequence of bytes", "why_tests_cant": "The display sees only the sequence of register words; tests look at one byte in an otherwise empty register.", "anchors": ["Source/Code/ArduinoTemplateLibrary/HD44780_DriverSerial3Wire.h: HD44780_DriverSerial3Wire::setDataRegister, WriteCommand, WriteData, Write4", "Source/Code/ArduinoTemplateLibrary/Serial3WireOutput.h: Serial3WireOutput::Write"]}
{"id": "C66", "title": "Sonar stream recovers from a lost byte", "statement": "After a byte of a response is lost, a bounded number of further responses is lost before responses are received correctly again.", "quantifier": "every position of the lost byte and every following stream", "why_tests_cant": "Needs unbounded streams of responses after the error.", "anchors": ["Source/Code/ArduinoTemplateLibrary/URM37V32_Driver.h: ReceiveResponse"]}
{"id": "C67", "title": "Sonar configuration writes are confirmed", "statement": "WriteEEPROM reports success exactly when the sensor echoes address and value, in whatever pieces the echo arrives, reports failure for another answer, and returns also when the sensor does not answer; setting the trigger mode sends mode and both bytes of the distance.", "quantifier": "every address, value and arrival pattern of the answer", "why_tests_cant": "All ways to split the answer over polls, and silence of unbounded length.", "anchors": ["Source/Code/ArduinoTemplateLibrary/URM37V32_Controller.h: URM37V32_Controller::WriteEEPROM, SetAutonomousTriggerMode, SetPassiveControlMode"]}
{"id": "C68", "title": "Sonar temperature decoding", "statement": "EndTemperature delivers the sign and 12-bit magnitude of every temperature response and reports the sensor's invalid marker as an error.", "quantifier": "every sign nibble and magnitude", "why_tests_cant": "All 65536 responses; the method is never instantiated in the tests.", "anchors": ["Source/Code/ArduinoTemplateLibrary/URM37V32_Controller.h: URM37V32_Controller::EndTemperature"]}
{"id": "C69", "title": "Task macros behave as single statements", "statement": "Each task macro can be used as the body of an if statement without braces: when the condition is false none of its effects happens, and when it is true it behaves as with braces.", "quantifier": "every condition, macro, line number and task state", "why_tests_cant": "All task states and conditions; a macro expanding to several statements silently changes the control flow.", "anchors": ["Source/Code/ArduinoTemplateLibrary/Task.h: Task_Yield, Task_YieldUntil, Task_WaitUntil, Task_Return"]}
{"id": "C70", "title": "Commands go to the control being edited first", "statement": "A panel offers a navigation command to its current control before acting on it; while a control on a page is selected, Up and Down reach only that control.", "quantifier": "every nesting of panels, pages and controls, every command", "why_tests_cant": "All layouts and states; a routing error shows only for particular nestings.", "anchors": ["Source/Code/ArduinoTemplateLibrary/HorizontalPanel.h: HorizontalPanel::OnNavigationCommand", "Source/Code/ArduinoTemplateLibrary/VerticalPanel.h: VerticalPanel::OnNavigationCommand", "Source/Code/ArduinoTemplateLibrary/Page.h: Page::OnNavigationCommand", "Source/Code/ArduinoTemplateLibrary/PageController.h: PageController::OnNavigationCommand"]}
{"id": "C71", "title": "Text editing steps through the character set", "statement": "While a character is edited, Up and Down replace it by its successor and predecessor in the character set (stopping at the ends, or going round with a wrap-around iterator), and a text never contains a character outside the set.", "quantifier": "every character set, text, cursor position and history of commands", "why_tests_cant": "Unbounded histories of moves, selections and edits over arbitrary character sets.", "anchors": ["Source/Code/ArduinoTemplateLibrary/TextControl.h: TextControl::IncrementValue, DecrementValue, RepositionIterator, BeforeChangeState", "Source/Code/ArduinoTemplateLibrary/Iterator.h: Iterator, WrapAroundIterator"]}
{"id": "C72", "title": "USART open and close", "statement": "OpenAsync refuses a configuration without baud rate and then changes nothing; otherwise it powers the USART and loads its own registers with the configuration. Close disables receiver, transmitter and their interrupts and the power. Nothing else in memory changes.", "quantifier": "every configuration, port and memory content", "why_tests_cant": "All memory contents; a stray register write shows only in unrelated peripherals.", "anchors": ["Source/Code/ArduinoTemplateLibrary/AVR/Usart.h: Usart::OpenAsync, Close", "Source/Code/ArduinoTemplateLibrary/AVR/UsartRegisters.h", "Source/Code/ArduinoTemplateLibrary/AVR/PowerReduction.h"]}
{"id": "C73", "title": "USART transmit and flush", "statement": "TryWrite succeeds exactly when the transmitter accepts data and otherwise changes nothing; Flush returns, and only when all data has been transmitted.", "quantifier": "every transmitter state", "why_tests_cant": "Depends on the moment in a frame at which the call is made.", "anchors": ["Source/Code/ArduinoTemplateLibrary/AVR/UsartTransmit.h: TryWrite, Flush"]}
{"id": "C74", "title": "Enabling the receiver keeps received data", "statement": "Enabling a receiver that is enabled changes nothing: control bits and received, unread data stay.", "quantifier": "every control register and FIFO content", "why_tests_cant": "Depends on data arriving before the call; needs hardware.", "anchors": ["Source/Code/ArduinoTemplateLibrary/AVR/UsartReceive.h: setEnable", "Source/Code/ArduinoTemplateLibrary/Bit.h: Bit::Set"]}
{"id": "C75", "title": "USART receive results", "statement": "Read and TryRead remove exactly the oldest received frame and return its value; success is reported exactly for frames without error flags, a reported error is one of the frame's, and without data TryRead reports NotReady and changes nothing.", "quantifier": "every FIFO content, error flag combination and arrival history", "why_tests_cant": "All flag combinations and arrival times.", "anchors": ["Source/Code/ArduinoTemplateLibrary/AVR/UsartReceive.h: Read, TryRead, getResult, ReadInternal, getHasError"]}
{"id": "C76", "title": "Interrupt driven USART input keeps order", "statement": "What Read returns is, in order, taken from the bytes received without error, and no such byte is lost while the buffer has room; Read on an empty stream returns -1 and enables the receive interrupt only.", "quantifier": "every history of arrivals, interrupts and Read calls", "why_tests_cant": "Unbounded interleavings of reception, interrupt and reading.", "anchors": ["Source/Code/ArduinoTemplateLibrary/AVR/UsartInputStream.h: Read, OnIsCompleteInterrupt", "Source/Code/ArduinoTemplateLibrary/RingBuffer.h"]}
{"id": "C77", "title": "Interrupt enabling touches one source", "statement": "EnablePinChange makes exactly the flagged pins of the port raise the interrupt and leaves other ports alone; the timer functions set or clear one bit of one timer.", "quantifier": "every port, flag set, timer and memory content", "why_tests_cant": "All memory contents; needs hardware.", "anchors": ["Source/Code/ArduinoTemplateLibrary/AVR/Interrupt.h: EnablePinChange, EnableCounterOverflow, EnableTimerCompareA, EnableTimerCompareB"]}
{"id": "C78", "title": "AVR button state", "statement": "The button state follows the last reading (inverted if configured), the previous state is the last different one, and hold stays while the button remains closed; the two packed fields do not disturb each other.", "quantifier": "every state and history of readings", "why_tests_cant": "Unbounded histories of readings.", "anchors": ["Source/Code/ArduinoTemplateLibrary/AVR/Button.h: Button::SetButtonState, SetButtonValue, getButtonState, getPrevState"]}
{"id": "C79", "title": "USART output stream length", "statement": "getLength of the output stream is the number of bytes accepted and not yet handed to the transmitter.", "quantifier": "every history and buffer size", "why_tests_cant": "Shows only for buffers of more than 256 bytes.", "anchors": ["Source/Code/ArduinoTemplateLibrary/AVR/UsartOutputStream.h: getLength"]}
{"id": "C80", "title": "What a page shows", "statement": "Page::Display puts every visible control's text in the display at its line and column and changes no other cell: a cell claimed by one character shows it, a cell claimed by none keeps its content.", "quantifier": "every page of horizontal lines, any number of lines and controls, positions, texts, states and previous screen content", "why_tests_cant": "All combinations of lines, controls and hidden states; tests look at single pages.", "anchors": ["Source/Code/ArduinoTemplateLibrary/Page.h: Display", "Source/Code/ArduinoTemplateLibrary/Panel.h: Display", "Source/Code/ArduinoTemplateLibrary/HorizontalPanel.h: Display", "Source/Code/ArduinoTemplateLibrary/VerticalPanel.h: Display", "Source/Code/ArduinoTemplateLibrary/LabelControl.h: Display", "Source/Code/ArduinoTemplateLibrary/UpDownControl.h: Display", "Source/Code/ArduinoTemplateLibrary/TextControl.h: Display"]}
{"id": "C81", "title": "Where a page puts the cursor", "statement": "After Page::Display the cursor is at the current control of the current line (for a text control at the character being edited), blinking exactly when that control is selected, and no cursor is shown when there is no current control or it is hidden.", "quantifier": "every page, control state and previous screen content", "why_tests_cant": "All combinations of states.", "anchors": ["Source/Code/ArduinoTemplateLibrary/Page.h: Display, DisplayCursor", "Source/Code/ArduinoTemplateLibrary/TextControl.h: Display", "Source/Code/ArduinoTemplateLibrary/DisplayWriter.h"]}
{"id": "C82", "title": "Rows of lines without position", "statement": "Page::Add gives lines added without a position a row of their own: no two lines of a page share a row.", "quantifier": "every sequence of lines, with or without position", "why_tests_cant": "Arbitrary sequences.", "anchors": ["Source/Code/ArduinoTemplateLibrary/Page.h: Add"]}
{"id": "C83", "title": "A page on an HD44780 display", "statement": "A page that fits the display, shown through HD44780_DisplayWriter, leaves every visible control's text in display memory at its line and column and all other cells as they were; the visible cursor is at the current control (in a text control at the edited character), blinking exactly when selected, and nothing blinks or is underlined when there is no current control.", "quantifier": "every display of 1 to 4 rows, page, control state, previous display content and position", "why_tests_cant": "Needs a display; all combinations of pages and previous states.", "anchors": ["Source/Code/ArduinoTemplateLibrary/Page.h: Display", "Source/Code/ArduinoTemplateLibrary/HD44780_DisplayWriter.h: Write, GoTo, SetCursor", "Source/Code/ArduinoTemplateLibrary/HD44780_View.h: Write, SetCursor", "Source/Code/ArduinoTemplateLibrary/HD44780_Controller.h: setEnableCursor, setEnableBlink"]}
{"id": "C84", "title": "Clock readings", "statement": "After any history of Update and Reset, getMilliseconds and getMicroseconds are the true time of the last Update in that unit modulo 2^32, getStartMilliseconds and getStartMicroseconds that of the last Reset, and getDeltaTime is the time between the last two captures when it fits 16 bits.", "quantifier": "every resolution, history and true time", "why_tests_cant": "Wrap of the tick counter takes 71 minutes or 49 days.", "anchors": ["Source/Code/ArduinoTemplateLibrary/Time.h: Time::getMilliseconds, getMicroseconds, TimeEx::Reset, Update, getStartMilliseconds, getStartMicroseconds, getDeltaTime"]}
{"id": "C85", "title": "BitArray shifts", "statement": "ShiftUp and ShiftDown move every bit by the given number of places, set false in the places that become free and lose what leaves the word, for every shift.", "quantifier": "every word width, content and shift", "why_tests_cant": "All contents and shifts; undefined shifts depend on the compiler.", "anchors": ["Source/Code/ArduinoTemplateLibrary/BitArray.h: BitArray::ShiftUp, ShiftDown"]}
{"id": "C86", "title": "USART output stream Flush and Close", "statement": "Flush removes all content: bytes still in the buffer are dropped, bytes already handed to the transmitter are sent, nothing else is sent, and later writes follow in order, also when the interrupt handler runs meanwhile. Close drops the buffer, disables transmitter and transmit interrupts and leaves the receiver alone.", "quantifier": "every history of writes, interrupts and frames before and after", "why_tests_cant": "Interleavings of handler and main code.", "anchors": ["Source/Code/ArduinoTemplateLibrary/AVR/UsartOutputStream.h: Flush, Close, OnAcceptDataInterrupt", "Source/Code/ArduinoTemplateLibrary/AVR/UsartTransmit.h: Flush, Close", "Source/Code/ArduinoTemplateLibrary/RingBuffer.h: Clear"]}
{"id": "C87", "title": "LCD custom characters", "statement": "WriteCharacterAddress followed by data stores the pattern rows at this and the following addresses of the character memory and disturbs neither text nor settings; WriteDisplayAddress returns to the text.", "quantifier": "every display state, address and pattern of up to 64 rows", "why_tests_cant": "Needs a display.", "anchors": ["Source/Code/ArduinoTemplateLibrary/HD44780_Controller.h: WriteCharacterAddress, WriteDisplayAddress"]}
{"id": "C88", "title": "USART mode", "statement": "getMode is Async or AsyncDoubleSpeed, as selected, after a successful InitAsync and Invalid if InitAsync was not called or failed.", "quantifier": "every configuration, clock and baud rate", "why_tests_cant": "All baud rates.", "anchors": ["Source/Code/ArduinoTemplateLibrary/AVR/UsartConfig.h: UsartConfig::getMode, InitAsync"]}
{"id": "C89", "title": "Arduino pins", "statement": "A pin constructed as digital output drives the value last written or toggled and getValue returns it; constructed with a value it never drives the other one; an input pin reads the outside level, drives nothing and has the pull-up asked for; an analog output pin drives the duty written and reading its value does not change it. No operation changes another pin.", "quantifier": "every board state, outside levels and history of Write, Toggle and getValue on any set of pins", "why_tests_cant": "Arbitrary histories; glitches of one instruction are not seen by a test.", "anchors": ["Source/Code/ArduinoTemplateLibrary/Arduino/DigitalOutputPin.h: DigitalOutputPin, Write, Toggle, getValue", "Source/Code/ArduinoTemplateLibrary/Arduino/DigitalInputPin.h: DigitalInputPin, EnableInternalPullup, Read", "Source/Code/ArduinoTemplateLibrary/Arduino/AnalogOutputPin.h: Write"]}
{"id": "C90", "title": "Arduino streams", "statement": "StreamInputStream delivers the bytes of the Arduino stream in order, then -1; Clear empties it; StreamOutputStream hands every byte to the Arduino stream in order and Flush removes the content; without a stream all calls are harmless.", "quantifier": "every content, arrival pattern and history of calls", "why_tests_cant": "Bytes arriving during Clear; arbitrary histories.", "anchors": ["Source/Code/ArduinoTemplateLibrary/Arduino/StreamInputStream.h: Read, Clear, getLength", "Source/Code/ArduinoTemplateLibrary/Arduino/StreamOutputStream.h: Write, Flush, getLength"]}
{"id": "C91", "title": "I2C output", "statement": "SerialI2COutput::Write returns true exactly when the slave has acknowledged and received all the bytes in order.", "quantifier": "every slave (absent or taking any number of bytes), data and length", "why_tests_cant": "Needs slaves that fail at every position.", "anchors": ["Source/Code/ArduinoTemplateLibrary/Arduino/SerialI2COutput.h: Write"]}
{"id": "C92", "title": "Arduino Delay::Wait", "statement": "Wait waits the time asked for, for every time the parameter can hold.", "quantifier": "every time", "why_tests_cant": "All values; long waits.", "anchors": ["Source/Code/ArduinoTemplateLibrary/Arduino/Delay_Arduino.h: Delay::Wait"]}
{"id": "C93", "title": "Math::Abs", "statement": "Abs returns the non-negative value of the argument, for every signed and unsigned type and value.", "quantifier": "every type width, int width and value", "why_tests_cant": "All values of all widths; the smallest value is easily missed.", "anchors": ["Source/Code/ArduinoTemplateLibrary/Math.h: Math::Abs"]}
{"id": "C94", "title": "StaticString::Read", "statement": "Read copies the string with its terminator into the target and writes nothing beyond the given length; the target always holds a terminated string.", "quantifier": "every string, target and length", "why_tests_cant": "Arbitrary lengths.", "anchors": ["Source/Code/ArduinoTemplateLibrary/StaticString.h: StaticString::Read"]}
{"id": "C95", "title": "Program memory access", "statement": "ProgMemAccessor returns every item of a table of 1, 2 or 4 byte numbers as stored, signed or unsigned, wherever the table is in program memory.", "quantifier": "every table, position and index", "why_tests_cant": "All contents; positions beyond 64 KB need a large device.", "anchors": ["Source/Code/ArduinoTemplateLibrary/ProgMemAccessor.h: ProgMemAccessor::Read", "Source/Code/ArduinoTemplateLibrary/StaticArray.h: StaticArray::GetAt"]}
{"id": "C96", "title": "Debug logging", "statement": "Log hands the message on, once and unchanged, exactly when there is a writer and the level filter (if there is one) passes this component and level; CanLog tells the decision of the filter; a release build writes nothing.", "quantifier": "every presence of the two functions, filter, component, level and message", "why_tests_cant": "All filters.", "anchors": ["Source/Code/ArduinoTemplateLibrary/Debug.h: Log, CanLog"]}
{"id": "C97", "title": "Object ids", "statement": "getId is unique: two different objects that exist at the same time have different ids, and none is 0.", "quantifier": "every pair of objects (addresses and sizes)", "why_tests_cant": "All memory layouts.", "anchors": ["Source/Code/ArduinoTemplateLibrary/IdentifiableObject.h: IdentifiableObject::getId"]}
{"id": "C98", "title": "HD44780 timing", "statement": "No instruction or character is written to the display while it still executes the previous one, from power up on, in every program that starts with a full initialisation, however much longer single steps take.", "quantifier": "every timing profile, speed of the processor, history of view operations and extra times", "why_tests_cant": "Arbitrary histories and speeds; a display that is a little faster than its data sheet hides the fault.", "anchors": ["Source/Code/ArduinoTemplateLibrary/HD44780_Profile.h: HD44780_Profile", "Source/Code/ArduinoTemplateLibrary/HD44780_Driver.h: Write4, Write8, WriteData, WriteCommand", "Source/Code/ArduinoTemplateLibrary/HD44780_Controller.h: Initialize, ClearDisplay, ReturnHome"]}
{"id": "C99", "title": "Blinking pins of the TimeoutTask example", "statement": "In the example program with any number of timeout tasks within the capacity of the delay table, every pin is toggled again and again, independent of the other tasks: from one change to the next it takes at least the timeout of its task and at most two rounds of the loop more; no other pin is touched, however the clock wraps.", "quantifier": "every set of tasks (addresses, pins, timeouts), start time and sequence of clock readings", "why_tests_cant": "Arbitrary interleavings of timeouts in a shared table, unbounded runs and clock wraps.", "anchors": ["Source/Code/Arduino Libraries/ATL_Process/examples/TimeoutTask/TimeoutTask.ino: loop", "Source/Code/Arduino Libraries/ATL_Process/examples/TimeoutTask/OutputPinTask.h: OnTimeout", "Source/Code/ArduinoTemplateLibrary/TimeoutTask.h: Execute", "Source/Code/ArduinoTemplateLibrary/Delays.h: Update, Wait", "Source/Code/ArduinoTemplateLibrary/IdentifiableObject.h: getId", "Source/Code/ArduinoTemplateLibrary/Arduino/DigitalOutputPin.h: Toggle"]}
{"id": "C100", "title": "The push button example", "statement": "In the example program the LED is off while the button is open, on while it is closed, flickers while it is held and does not change while the contact may bounce; what counts as open, closed and held is a function of the contact and of true time alone, whatever the clock counter reads and whatever an unconnected pin reads.", "quantifier": "every timeouts, pins, start time and sequence of clock gaps and contact levels", "why_tests_cant": "Arbitrary bouncing, timing and clock wraps.", "anchors": ["Source/Code/Arduino Libraries/ATL_Input/examples/PushButton/PushButton.ino: setup, loop", "Source/Code/ArduinoTemplateLibrary/PushButton.h: ScanButton", "Source/Code/ArduinoTemplateLibrary/Delays.h: Update, Wait, Clear, IsWaiting", "Source/Code/ArduinoTemplateLibrary/Arduino/DigitalInputPin.h", "Source/Code/ArduinoTemplateLibrary/Arduino/DigitalOutputPin.h"]}
{"id": "C101", "title": "The DigitalInput and Blink examples", "statement": "In the DigitalInput example the LED shows after every round the level the input had in that round; in the Blink example the LED changes in every round. No other pin changes.", "quantifier": "every start state of the board and sequence of input levels", "why_tests_cant": "Arbitrary inputs and start levels.", "anchors": ["Source/Code/Arduino Libraries/ATL_IO/examples/DigitalInput/DigitalInput.ino: loop", "Source/Code/Arduino Libraries/ATL_IO/examples/Blink/Blink.ino: loop", "Source/Code/ArduinoTemplateLibrary/DigitalInput.h: Read", "Source/Code/ArduinoTemplateLibrary/Arduino/DigitalOutputPin.h: Toggle, Write"]}
{"id": "C102", "title": "The counter task example and the task bodies of the library", "statement": "In the Task example every task prints its message each time it has counted past its limit, independent of the other tasks, and every call returns; Execute of TimeoutTask and ScanButton of PushButton do what the task macros make of their source.", "quantifier": "every number of tasks, limits and rounds; every state of the task variable and the delay table", "why_tests_cant": "Unbounded runs, arbitrary limits and states.", "anchors": ["Source/Code/Arduino Libraries/ATL_Process/examples/Task/CounterTask.h: Execute", "Source/Code/Arduino Libraries/ATL_Process/examples/Task/Task.ino: loop", "Source/Code/ArduinoTemplateLibrary/Task.h: Task_Begin, Task_YieldUntil, Task_End", "Source/Code/ArduinoTemplateLibrary/TimeoutTask.h: Execute", "Source/Code/ArduinoTemplateLibrary/PushButton.h: ScanButton"]}
{"id": "C103", "title": "The display examples as programs", "statement": "The LCD, I2CLCD, Page and PageController examples, with any texts that fit the display and on a display in any state, show what they say: the text (backlight always on with I2C), the page, and after k rounds of the page controller exactly the page whose turn it is.", "quantifier": "every start state of the display, texts and pages that fit 1 to 4 rows, and number of rounds", "why_tests_cant": "Arbitrary pages and unbounded runs through view, controller, driver and display; what is left of earlier pages.", "anchors": ["Source/Code/Arduino Libraries/ATL_HD44780/examples/LCD/LCD.ino: setup, loop", "Source/Code/Arduino Libraries/ATL_HD44780/examples/I2CLCD/I2CLCD.ino: setup", "Source/Code/Arduino Libraries/ATL_UI/examples/Page/Page.ino: setup", "Source/Code/Arduino Libraries/ATL_UI/examples/Page/LcdDisplayWriter.h: Write, GoTo, SetCursor", "Source/Code/Arduino Libraries/ATL_UI/examples/PageController/PageController.ino: setup, loop", "Source/Code/ArduinoTemplateLibrary/PageController.h: TrySetFirstPage, TrySetNextPage", "Source/Code/ArduinoTemplateLibrary/HD44780_View.h", "Source/Code/ArduinoTemplateLibrary/HD44780_Driver.h"]}
{"id": "C104", "title": "The text box example as a program", "statement": "In the TextBox example the display shows after every navigation command the labels and the text being edited as the user expects: Up and Down change the row, Left or Right reach the text, Enter starts editing, then Up and Down step the character through the set and Left and Right the place, Exit ends; the cursor stands on the place being edited, visible while its row is current and blinking exactly while editing. After k rounds of the example's script the first character has moved on by 3k and the second by 4k, up to the end of the set.", "quantifier": "every sequence of commands, labels, text and set of characters that fit, start state of the display, number of rows", "why_tests_cant": "Unbounded command sequences through page, lines, text control, iterator, view, controller and driver.", "anchors": ["Source/Code/Arduino Libraries/ATL_UI/examples/TextBox/TextBox.ino: setup, loop", "Source/Code/ArduinoTemplateLibrary/TextControl.h: OnNavigationCommand, Display", "Source/Code/ArduinoTemplateLibrary/Page.h: Display", "Source/Code/ArduinoTemplateLibrary/PanelControlContainer.h: SetFirstInputControl, SetNextInputControl, SetPreviousInputControl", "Source/Code/ArduinoTemplateLibrary/Iterator.h: MoveTo, MoveNext, MoveBack", "Source/Code/ArduinoTemplateLibrary/StaticArray.h: IndexOf", "Source/Code/ArduinoTemplateLibrary/HD44780_View.h", "Source/Code/ArduinoTemplateLibrary/HD44780_DisplayWriter.h: SetCursor"]}
{"id": "C105", "title": "The text output examples as programs", "statement": "A sketch that writes strings, integers and real numbers with WriteLine to the serial port puts exactly one line for each value there, in order and behind what was there before, in the format of its TextFormatInfo: the string itself, the integer in the default base, the real number to the configured digits within half a unit of the last place plus the error of the arithmetic; what is written before a port is attached is dropped. The TextWriter example sends Hello World!, 42 and 3.14, the TextFormatInfo example Hello World!, 2A and 3,1416.", "quantifier": "every sequence of values, format and content of the port", "why_tests_cant": "Arbitrary sequences, formats and binary floating point values.", "anchors": ["Source/Code/Arduino Libraries/ATL_IO/examples/TextWriter/TextWriter.ino: setup", "Source/Code/Arduino Libraries/ATL_IO/examples/TextFormatInfo/TextFormatInfo.ino: setup", "Source/Code/Arduino Libraries/ATL_IO/examples/TextFormatInfo/MyTextFormatInfo.h", "Source/Code/ArduinoTemplateLibrary/TextWriter.h: WriteLine", "Source/Code/ArduinoTemplateLibrary/TextFormatInfo.h", "Source/Code/ArduinoTemplateLibrary/Arduino/StreamOutputStream.h: AttachOutputStream, Write"]}
{"id": "C106", "title": "MIDI messages over the serial port, from writer to reader", "statement": "Messages written with MidiWriter to a UsartOutputStream and read with MidiReader from a UsartInputStream on the other end of the line are reported exactly once, in order and with their meaning, whatever the interleaving of the two programs, their interrupts and the frames; none is left behind.", "quantifier": "every sequence of messages, buffer size, and interleaving of main code steps, interrupts, frames and reads in which no buffer overflows", "why_tests_cant": "Arbitrary interleavings of six kinds of events across two devices with unbounded histories; the composition of four classes.", "anchors": ["Source/Code/ArduinoTemplateLibrary/MidiWriter.h: Write", "Source/Code/ArduinoTemplateLibrary/AVR/UsartOutputStream.h: Write, OnAcceptDataInterrupt", "Source/Code/ArduinoTemplateLibrary/AVR/UsartInputStream.h: Read, getLength, OnIsCompleteInterrupt", "Source/Code/ArduinoTemplateLibrary/MidiReader.h: Read, Dispatch", "Source/Code/ArduinoTemplateLibrary/RingBuffer.h: Write, Read"]}
{"id": "C107", "title": "Ring buffer shared with an interrupt on an 8-bit processor", "statement": "When one side of a ring buffer runs in an interrupt handler on a processor that moves its 16-bit pointers one byte at a time, wherever the buffer lies in memory and whichever byte goes first, the values read are the values written, in order, Write refuses a value only if the buffer was full and getLength never exceeds the number of values held.", "quantifier": "every placement and size of the buffer, byte order of the accesses, history of calls, and handler runs between any two byte accesses", "why_tests_cant": "The handler must hit the gap between two instructions, and the effect depends on the address the linker gave the buffer.", "anchors": ["Source/Code/ArduinoTemplateLibrary/RingBuffer.h: Write, Read, getLength, _writePtr, _readPtr", "Source/Code/ArduinoTemplateLibrary/AVR/UsartOutputStream.h: OnAcceptDataInterrupt", "Source/Code/ArduinoTemplateLibrary/AVR/UsartInputStream.h: OnIsCompleteInterrupt"]}
{"id": "C108", "title": "Sending and receiving over one USART at the same time", "statement": "When a program uses a UsartOutputStream and a UsartInputStream on the same USART and both interrupts run at any moment, also in the middle of a Write or Read: exactly the bytes the output stream accepted go out, in order, and all of them once their interrupts are served; Read returns the correctly received bytes in order and only those that come while the input buffer is full are missing; neither stream switches off the other's interrupt or changes any other control bit.", "quantifier": "every pair of buffer sizes, control register content and history of calls, interrupts and frames in both directions, with both interrupts at any point between two memory accesses of the calls", "why_tests_cant": "Both streams change the same control register by load and store; an interrupt must hit a gap of one instruction while the other direction is active.", "anchors": ["Source/Code/ArduinoTemplateLibrary/AVR/UsartOutputStream.h: Write, OnAcceptDataInterrupt", "Source/Code/ArduinoTemplateLibrary/AVR/UsartInputStream.h: Read, OnIsCompleteInterrupt", "Source/Code/ArduinoTemplateLibrary/AVR/UsartTransmit.h: setEnableAcceptDataInterrupt", "Source/Code/ArduinoTemplateLibrary/AVR/UsartReceive.h: setEnableIsCompleteInterrupt", "Source/Code/ArduinoTemplateLibrary/RingBuffer.h: Write, Read, getLength", "Source/Code/ArduinoTemplateLibrary/Bit.h: Set"]}
{"id": "C109", "title": "Bit helpers on signed values", "statement": "On a target of a signed integer type Bit<i> and BitFlag(i) change exactly bit i, the sign bit included, and IsTrue and IsFalse report it; an index beyond the width changes nothing and both predicates are false.", "quantifier": "every signed type up to the width of int, every value and every index; wider types up to bit 14 on a 16-bit-int target", "why_tests_cant": "Integer promotion by sign extension and a signed comparison; one bit of each type behaves differently.", "anchors": ["Source/Code/ArduinoTemplateLibrary/Bit.h: Set, Reset, Toggle, IsTrue, IsFalse", "Source/Code/ArduinoTemplateLibrary/BitFlag.h: Set, Reset, Toggle, IsTrue, IsFalse", "Source/Code/Arduino Libraries/ATL/examples/Bit/Bit.ino: setup"]}
{"id": "C110", "title": "The array, bit and collection examples as programs", "statement": "Array: storing a value, copying it with SetAt and assigning an element to itself at any index, in or out of range, puts the value in the two places and changes nothing else. Bit: setting and resetting a bit of an int and of an unsigned char leaves it false and every other bit as it was. BitArray: the bit set is reported, a field reads back what was stored, and after Reverse and ShiftDown the array holds exactly the mirrored and shifted field. CollectionRef: however many values are added, the loop reads those that fit, in order, and ends.", "quantifier": "every size, index, value, field and shift in place of those of the examples", "why_tests_cant": "The statements hold for all parameters of the examples, which run only once with fixed ones.", "anchors": ["Source/Code/Arduino Libraries/ATL/examples/Array/Array.ino: setup", "Source/Code/Arduino Libraries/ATL/examples/Bit/Bit.ino: setup", "Source/Code/Arduino Libraries/ATL/examples/BitArray/BitArray.ino: setup", "Source/Code/Arduino Libraries/ATL/examples/CollectionRef/CollectionRef.ino: setup"]}
{"id": "C111", "title": "MIDI reader as a MIDI 1.0 receiver", "statement": "On every byte stream, whoever sent it, MidiReader reports exactly the messages a conforming MIDI 1.0 receiver understands, in order: running status, real-time bytes anywhere, data bytes without a status ignored, tune request and system common messages cancelling the running status, undefined bytes ignored, an interrupted message dropped.", "quantifier": "every byte stream, on every layout of the message object", "why_tests_cant": "All streams of any length from any sender; the deviations need particular bytes at particular places.", "anchors": ["Source/Code/ArduinoTemplateLibrary/MidiReader.h: Read, Dispatch, ProcessStatusByte, ProcessDataByte", "Source/Code/ArduinoTemplateLibrary/Midi.h: GetMessageLength, GetMessageType, IsRealtimeMessage", "Source/Code/ArduinoTemplateLibrary/MidiMessage.h: SetStatusByte, SetDataByte1, SetDataByte2"]}
{"id": "C112", "title": "USART transmit complete", "statement": "getIsComplete of UsartTransmit is true exactly when everything written has been sent, and WaitIsComplete returns exactly then; the blocking Write waits until there is room and loses nothing.", "quantifier": "every history of writes and transmitted frames since reset, every control register", "why_tests_cant": "The flag is a latch of the hardware; it is right for the first transmission and for no other, and timing decides what a test sees.", "anchors": ["Source/Code/ArduinoTemplateLibrary/AVR/UsartTransmit.h: getIsComplete, WaitIsComplete, WaitAcceptData, Write, TryWrite, setEnableIsCompleteInterrupt"]}
{"id": "C113", "title": "PID with floating point values stays in range", "statement": "For T = float every value returned by Process lies in the range of ClipValue, for every history of finite set points, feedback values and gains; a reading that is not a number does not affect later calls; where the format represents the intermediate results the value is exactly the textbook formula.", "quantifier": "every history of calls, every gain, every range, every low pass filter that keeps numbers finite, every rounding", "why_tests_cant": "NaN and infinity come from particular combinations (0/0 with two calls within a tick, overflow); they then persist in the memory of the controller for ever.", "anchors": ["Source/Code/ArduinoTemplateLibrary/PID.h: Process, CalcError, CalcP, CalcI, CalcD", "Source/Code/ArduinoTemplateLibrary/Range.h: ClipValue"]}
{"id": "C114", "title": "Nine-bit frames through the buffered USART streams", "statement": "With the data type int16_t, as documented for nine data bits, the buffered streams carry all nine bits: Read of UsartInputStream returns the received frames in order with their ninth bit, and Write of UsartOutputStream sends the value written.", "quantifier": "every history of arrivals, interrupts, reads, writes and frames sent, every control register, every buffer size and every type of at least nine bits", "why_tests_cant": "The ninth bit is lost by an implicit conversion of an argument; eight-bit tests do not see it.", "anchors": ["Source/Code/ArduinoTemplateLibrary/AVR/UsartInputStream.h: Read, OnIsCompleteInterrupt", "Source/Code/ArduinoTemplateLibrary/AVR/UsartOutputStream.h: Write, OnAcceptDataInterrupt", "Source/Code/ArduinoTemplateLibrary/AVR/UsartReceive.h: ReadInternal", "Source/Code/ArduinoTemplateLibrary/AVR/UsartTransmit.h: WriteInternal"]}
{"id": "C115", "title": "An analog output pin used as a digital pin", "statement": "An AnalogOutputPin can also be used as a digital pin, as docs/General Purpose IO.md says: on a pin with a timer, Write of a bool drives it low or high, Toggle inverts it, getValue returns the level, a duty written with Write(uint8_t) drives that share of the time, and no other pin changes.", "quantifier": "every board, set of pins and history of Write(bool), Write(uint8_t), Write of the base class, Toggle and getValue in which Toggle and getValue are used while the pin is low or high", "why_tests_cant": "The wrong overload is chosen silently; a test on a lamp shows a dim lamp, and a test with Write(255) or on the base class passes.", "anchors": ["Source/Code/ArduinoTemplateLibrary/Arduino/AnalogOutputPin.h: AnalogOutputPin, Write", "Source/Code/ArduinoTemplateLibrary/Arduino/DigitalOutputPin.h: Write, Toggle, getValue", "docs/General Purpose IO.md: Analog IO"]}
{"id": "C116", "title": "AVR Delay::Wait", "statement": "On AVR, Delay::Wait waits at least the time asked for and less than one clock cycle longer, for every time the parameter can hold.", "quantifier": "every time below 2^32 milliseconds or microseconds, every clock frequency, every rounding to nearest of the 32-bit double", "why_tests_cant": "The cycle count is computed in floating point; the times where it is rounded down or too large are minutes long and no test waits that long.", "anchors": ["Source/Code/ArduinoTemplateLibrary/AVR/Delay_Avr.h: Delay::Wait"]}
{"id": "C117", "title": "HD44780 timing over I2C", "statement": "Nothing is written to a display behind an I2C port expander while it still executes the previous instruction, from power up on, in every program that starts with a full initialisation, however often the backlight is switched and however much longer single steps take.", "quantifier": "every timing profile, speed of the bus, history of view and backlight operations, extra times, and state of the port before", "why_tests_cant": "A test sees the bytes sent; whether the display has finished is a matter of the delays, the bus speed and the data sheet, over all sequences of operations.", "anchors": ["Source/Code/ArduinoTemplateLibrary/HD44780_DriverI2C.h: WriteCommand, WriteData, setEnableBacklight, Write8, Write4, PulseEnable", "Source/Code/ArduinoTemplateLibrary/HD44780_Profile.h: HD44780_Profile", "Source/Code/ArduinoTemplateLibrary/HD44780_Controller.h: Initialize, ClearDisplay, ReturnHome"]}
{"id": "C118", "title": "Emptying and closing the USART input stream", "statement": "Clear of the USART input stream returns and removes everything received before the call, so later reads deliver only bytes received after it; Close turns the receiver and its interrupt off, loses what is still buffered and leaves the transmitter and the other settings alone. Both hold with frames arriving and the interrupt handler running at any point of the call.", "quantifier": "every buffer size and content, history of arrivals, interrupts and reads, and every placement of arrivals and interrupts inside the call", "why_tests_cant": "The outcome depends on where the interrupt handler runs between the stores of the call; a test on a host has no receiver and no interrupts, and a call that never returns cannot be observed as such.", "anchors": ["Source/Code/ArduinoTemplateLibrary/AVR/UsartInputStream.h: Clear, Close", "Source/Code/ArduinoTemplateLibrary/AVR/UsartReceive.h: Flush, Close", "Source/Code/ArduinoTemplateLibrary/RingBuffer.h: Clear"]}
{"id": "C119", "title": "Formatted text over the interrupt driven USART stream", "statement": "Values written line by line with a TextWriter on the USART output stream arrive on the serial line as exactly those lines in order, whenever the interrupts are served and frames end; if the stream cannot take all of it, the writer is told.", "quantifier": "every sensible format, sequence of strings, ints and floats, buffer size and interleaving of the writing code with interrupts (also inside a Write) and frame ends", "why_tests_cant": "What arrives depends on the buffer size, the length of the text and where interrupts fall between single characters; a host test has no transmitter and sees only the formatter's characters.", "anchors": ["Source/Code/ArduinoTemplateLibrary/TextWriter.h: Write, WriteLine", "Source/Code/ArduinoTemplateLibrary/AVR/UsartOutputStream.h: Write, OnAcceptDataInterrupt", "Source/Code/ArduinoTemplateLibrary/RingBuffer.h: Write"]}
{"id": "C120", "title": "PID over a whole history of calls", "statement": "For a PID controller with the low pass filter that its documentation prescribes, the result of every call is determined by the whole history as the textbook says: proportional action on the present error, plus gain times error times time step summed over all calls, plus the derivative gain times the change of the exponentially smoothed error per time step, clipped to the range; a lasting error drives the integrator to the limit in a number of calls that can be calculated, and the smoothing never leaves the bounds of the errors it has seen.", "quantifier": "every history of set points, feedbacks, tolerances, gains and positive time steps, every start memory, every filter constant, every evaluation order (exact arithmetic)", "why_tests_cant": "A test runs a few calls; the statement is a closed formula for the n-th result of every history, with gains and time steps that change from call to call.", "anchors": ["Source/Code/ArduinoTemplateLibrary/PID.h: class documentation, LowPassFilter", "Source/Code/ArduinoTemplateLibrary/PID.h: Process, CalcError, CalcP, CalcI, CalcD"]}
{"id": "C121", "title": "Sonar over the interrupt driven serial port", "statement": "A URM37 controller on UsartInputStream and UsartOutputStream: a request goes out as one frame of the protocol, and every complete response that the sensor sends is reported by EndDistance in order and once, a damaged one as a checksum error, a measurement with its distance, also when the receive interrupt comes inside the call; no call ever leaves a value that was not measured.", "quantifier": "every history of arriving frames (good, damaged, too many), receive interrupts and steps of main code, every buffer size, control register and start value", "why_tests_cant": "The interrupt can come between any two reads of the four bytes; a test sees a few interleavings, on a host without interrupts none.", "anchors": ["Source/Code/ArduinoTemplateLibrary/URM37V32_Driver.h: SendCommand, ReceiveResponse", "Source/Code/ArduinoTemplateLibrary/URM37V32_Controller.h: BeginDistance, EndDistance", "Source/Code/ArduinoTemplateLibrary/AVR/UsartInputStream.h: Read, OnIsCompleteInterrupt", "Source/Code/ArduinoTemplateLibrary/AVR/UsartOutputStream.h: Write"]}
{"id": "C122", "title": "Lines of text and numbers on the display", "statement": "With the LCD of the example (a TextWriter on an HD44780 view), after Initialize(true) and setEnableDisplay() every WriteLine of a string or number that fits a line shows the right text of its value from the left edge of the next row, and after the last row it goes on in the first one.", "quantifier": "every number of WriteLine calls, every string, integer and real number that fits, every format with the default new line, 1 to 4 rows, every state of the display before", "why_tests_cant": "It takes the conversion of every value, the cursor of the view, the driver and the display memory together, for sequences of any length; tests check a few characters of single calls against a mock.", "anchors": ["Source/Code/ArduinoTemplateLibrary/TextWriter.h: WriteLine", "Source/Code/ArduinoTemplateLibrary/HD44780_View.h: Write, IncrementCurrentRow, CalcAddress", "Source/Code/Arduino Libraries/ATL_HD44780/examples/LCD/LCD.ino: setup"]}
{"id": "C123", "title": "The display does not depend on the driver", "statement": "The same calls on the parallel driver, the I2C driver and the shift register driver, each from its construction, leave the display in the same state; switching the backlight in between makes no difference.", "quantifier": "every sequence of nibbles, commands and data (initialisation included) with backlight switches, every state of the display, all earlier line levels, every wiring of the shift register", "why_tests_cant": "It relates three implementations over all call sequences and all states of a display, in step or not; tests run each driver alone, against a mock, if at all.", "anchors": ["Source/Code/ArduinoTemplateLibrary/HD44780_Driver.h: WriteCommand, WriteData, Write4", "Source/Code/ArduinoTemplateLibrary/HD44780_DriverI2C.h: WriteCommand, WriteData, Write4, setEnableBacklight", "Source/Code/ArduinoTemplateLibrary/HD44780_DriverSerial3Wire.h: setDataRegister, WriteCommand, WriteData, Write4"]}
{"id": "C124", "title": "MIDI thru", "statement": "A program that hands what MidiReader reports to MidiWriter sends on exactly the messages that arrived, in order, and never more bytes than arrived; and MidiReader never reports anything that is not a well-formed message made of received bytes, whatever is on the line.", "quantifier": "every byte stream (garbage included) and every prefix of it, every layout of the message object", "why_tests_cant": "It composes reader and writer over unbounded streams of arbitrary bytes, in every parser state; tests feed a few well-formed messages to one of them.", "anchors": ["Source/Code/ArduinoTemplateLibrary/MidiReader.h: Read, Dispatch, ProcessStatus, ProcessData", "Source/Code/ArduinoTemplateLibrary/MidiWriter.h: Write"]}
{"id": "C125", "title": "Display and motors on one shift register chain", "statement": "A display and motors whose drivers share one BitArray and one chain of 74HC595 shift registers do not disturb one another: at the outputs of the chain every motor always has its last request, the display ends in the state it would have if it were wired to pins of its own and got its calls only, and during a call no output that belongs to another device changes at any moment.", "quantifier": "every interleaving of calls (nibbles, commands and data; motor requests of any speed), any number of motors on any distinct outputs, every previous content of the register, the chain and the display", "why_tests_cant": "It is about all interleavings of three layers (drivers, shared register, pins of the chain) and all moments in between; the tests have no test of a driver over a shift register.", "anchors": ["Source/Code/ArduinoTemplateLibrary/HD44780_DriverSerial3Wire.h: setDataRegister, WriteCommand, WriteData, Write4, Write8, PulseEnable", "Source/Code/ArduinoTemplateLibrary/TB6612FNG_DriverSerial3Wire.h: setDataRegister, Send", "Source/Code/ArduinoTemplateLibrary/Serial3WireOutput.h: WriteReverse", "Source/Code/ArduinoTemplateLibrary/BitArray.h: Set"]}
{"id": "C126", "title": "USART enable bits shared with interrupt handlers", "statement": "Whatever main code and interrupt handlers switch on and off, in whatever order and at whatever moment, afterwards each of the five enable bits of each USART (receiver, transmitter, and the three interrupts) is as it was last requested, the getters return that, and no other bit of memory has changed.", "quantifier": "every history of setter calls by main code with any setter calls of interrupt handlers at any moment during them, every USART and memory content", "why_tests_cant": "The moment between a load and a store is one instruction long; a test would have to raise the interrupt in exactly that cycle.", "anchors": ["Source/Code/ArduinoTemplateLibrary/AVR/UsartReceive.h: setEnable, getEnable, setEnableIsCompleteInterrupt, getEnableIsCompleteInterrupt", "Source/Code/ArduinoTemplateLibrary/AVR/UsartTransmit.h: setEnable, getEnable, setEnableIsCompleteInterrupt, setEnableAcceptDataInterrupt", "Source/Code/ArduinoTemplateLibrary/Bit.h: Set"]}
{"id": "C127", "title": "BitArray over a signed type", "statement": "A BitArray over a signed integer type (BitArray.h puts \"(unsigned)\" in brackets) works like one over the unsigned type of the same width: a field that was set is read back as the low bits of the value, ShiftUp and ShiftDown set false in the places that become free, Reverse mirrors all bits, Set and Reset change exactly their bit, and IsTrue and IsFalse report every bit, the sign bit included; what does not fit is rejected.", "quantifier": "every signed type, width of int, array content, index, count, value and shift", "why_tests_cant": "Tests use unsigned types; the differences sit at the sign bit of each width and depend on the width of int.", "anchors": ["Source/Code/ArduinoTemplateLibrary/BitArray.h: Set, Get, Reset, IsTrue, IsFalse, Reverse, ShiftUp, ShiftDown, CreateMask"]}
{"id": "C128", "title": "PID in a closed loop", "statement": "When the value returned by Process acts on what getFeedback measures, the controller brings the measured value to within the acceptable error of the set point and keeps it there.", "quantifier": "every plant of the kinds named in the theorems (any plant that drifts away without action, plants that follow at once, heaters, movers), every gain, time step, tolerance, range and start state; exact arithmetic, no filter", "why_tests_cant": "A closed loop runs for ever and every call depends on all earlier ones; the unit tests call Process a few times with constant feedback.", "anchors": ["Source/Code/ArduinoTemplateLibrary/PID.h: Process, CalcError, CalcP, CalcI, CalcD"]}
{"id": "C129", "title": "Control statements in task bodies and several tasks together", "statement": "In a task body if, while, for, do, break, continue, return and a nested switch mean what they mean in any function, also when the task has been suspended and resumed inside them; tasks that are called in turn do not disturb each other.", "quantifier": "every task body built from the macros, statements, blocks and these control statements, every number of tasks, every order of calls and every change of the common state between them", "why_tests_cant": "The macros jump into the middle of loops and branches; tests run one task with one yield.", "anchors": ["Source/Code/ArduinoTemplateLibrary/Task.h: Task_Begin, Task_End, Task_Yield, Task_YieldUntil, Task_WaitUntil, Task_Return"]}
{"id": "C130", "title": "Pins, timer interrupts and power switches shared by main code and handlers", "statement": "Every pin level, pin direction, timer interrupt enable and USART power switch is as it was last requested by Port::Write, Port::SetDirection, Interrupt::EnableCounterOverflow, EnableTimerCompareA, EnableTimerCompareB or PowerReduction::setEnableUsart, whoever requested it, main code or an interrupt handler; no call changes any other switch.", "quantifier": "every sequence of such calls by main code, every set of calls by handlers between and inside them, every port, pin, timer and USART, every content of memory", "why_tests_cant": "A lost update needs an interrupt between the load and the store of one statement; a test on the PC has no interrupts and a test on the device hits the moment once in a million runs.", "anchors": ["Source/Code/ArduinoTemplateLibrary/AVR/Port.h: SetDirection, Write", "Source/Code/ArduinoTemplateLibrary/AVR/Interrupt.h: EnableCounterOverflow, EnableTimerCompareA, EnableTimerCompareB", "Source/Code/ArduinoTemplateLibrary/AVR/PowerReduction.h: setEnableUsart"]}
{"id": "C131", "title": "Characters on the serial line", "statement": "After a successful InitAsync and OpenAsync, a terminal set to the requested baud rate, data bits, parity and stop bits receives exactly the characters the USART sends, whatever they are and whatever the pauses between them, and the USART receives exactly what such a terminal sends.", "quantifier": "every clock frequency, every requested rate, every configuration, every sequence of characters and pauses, every moment at which the receiver notices a start bit within its sampling step", "why_tests_cant": "Tests look at register values; whether two free-running clocks agree on every bit of every character depends on the rounding of the divider over the length of a whole frame and on the meaning of the register fields.", "anchors": ["Source/Code/ArduinoTemplateLibrary/AVR/UsartConfig.h: InitAsync, CalcUBRR, getUCSRA, getUCSRB, getUCSRC", "Source/Code/ArduinoTemplateLibrary/AVR/Usart.h: OpenAsync"]}
{"id": "C132", "title": "Bytes from board to board", "statement": "Two boards of the same clock whose USARTs were opened with the same configuration of up to eight data bits are wired together. What Read of UsartInputStream returns on one is, in order, taken from the bytes Write of UsartOutputStream accepted on the other (of each the bits of the format); while the receiving program keeps up (the receiver has room when a character comes, the buffer when the handler takes it) no byte is missing, and once all has been sent and read, what was read is exactly what was written.", "quantifier": "every rate setting, parity, stop and data bits up to eight, every history of Write calls, transmit interrupts and frame ends, every pause on the line, every moment at which the receiver notices a start bit within its sampling step, every history of receive interrupts and Read calls, every two buffer sizes", "why_tests_cant": "Needs two boards, and all interleavings of two programs, two handlers and the line; a test sees one of them, and the unit tests have no USART at all.", "anchors": ["Source/Code/ArduinoTemplateLibrary/AVR/UsartOutputStream.h: Write, OnAcceptDataInterrupt", "Source/Code/ArduinoTemplateLibrary/AVR/UsartInputStream.h: Read, OnIsCompleteInterrupt", "Source/Code/ArduinoTemplateLibrary/AVR/Usart.h: OpenAsync"]}
{"id": "C133", "title": "Push buttons and timeout tasks that share one delay table do not disturb each other", "statement": "In a program with any number of PushButton and TimeoutTask objects on one Delays table, identified by their addresses (IdentifiableObject), whose identifiers (low 16 bits of the address) are different and not 0 and for which the table has an entry each: whatever the order and number of ScanButton, Execute and Update calls and the levels at the pins, nothing undefined happens and every call of every object shows (state of the button, calls of OnTimeout) exactly what it shows in a program in which that object is the only one with the same time updates. So every button scanned at most once per update reports legally (C29, C30) and every task executed at most once per update never calls OnTimeout early (C28), however the others are called. None of the three conditions can be left out.", "quantifier": "for all lists of buttons and tasks with any addresses, timeouts and wiring that meet the conditions, all table capacities, all finite sequences of updates and calls with any pin levels", "why_tests_cant": "Tests use one object at a time on a fresh table. Interference needs several objects, a particular interleaving, or two objects with one identifier, and appears only as wrong timing.", "anchors": ["Source/Code/ArduinoTemplateLibrary/PushButton.h: PushButton::ScanButton", "Source/Code/ArduinoTemplateLibrary/TimeoutTask.h: TimeoutTask::Execute", "Source/Code/ArduinoTemplateLibrary/Delays.h: Delays::Wait, Delays::Clear, Delays::Update", "Source/Code/ArduinoTemplateLibrary/IdentifiableObject.h: IdentifiableObject::getId"]}
{"id": "C134", "title": "A delegate calls the method on the object it was last given, with the arguments in order, and on no other object", "statement": "In any program that constructs delegates (Delegate \u2026 Delegate5, Delegate0 \u2026 Delegate05), assigns them to each other, invokes them and calls their static Invoke, in any order: the program is defined exactly when every delegate used was constructed before and the object called exists; then every object ends in the state it has after exactly the calls meant for it (the object last given to the delegate, or passed to the static Invoke), made directly, in order and with the arguments in the order given, all other objects are unchanged, and every call returns what the direct call returns.", "quantifier": "for all classes (state, methods with 0 to 5 parameters, with or without result), all sets of living objects, all finite sequences of constructions, assignments and calls with any arguments", "why_tests_cant": "The tests call four of the twelve classes once with one object; swapped arguments, a stale object after an assignment or a call on the wrong object need several objects and parameters.", "anchors": ["Source/Code/ArduinoTemplateLibrary/Delegate.h: Delegate, Delegate1, Delegate2, Delegate3, Delegate4, Delegate5, Delegate0, Delegate01, Delegate02, Delegate03, Delegate04, Delegate05"]}
{"id": "C135", "title": "What a serial terminal sends appears on the display", "statement": "A program that sets up the display as LCD.ino does and then loops `c = in.Read(); if (c != -1) view.Write((char)c)` over the interrupt driven UsartInputStream: in every history of frames, handler runs and rounds of the loop nothing undefined happens, the input stream does what it does alone, and the display (down to its pins, from any state) shows the characters Read returned as text: lines that fit, each ended by line feed and carriage return, on the rows 0, 1, ..., and any text that fits the screen where a terminal would put it. If the characters come over a line from a terminal the receiver understands, the loop keeps up and nothing waits, the display shows exactly the characters sent so far.", "quantifier": "for all displays of 1 to 4 rows in any state, all buffer sizes, all sequences of characters and pauses, all moments at which handler and loop run", "why_tests_cant": "It needs line, receiver, ring buffer, view, driver and display together; every part has its own tests (or none) and the interrupt and the text of the user are arbitrary.", "anchors": ["Source/Code/ArduinoTemplateLibrary/AVR/UsartInputStream.h: UsartInputStream::Read, OnIsCompleteInterrupt", "Source/Code/ArduinoTemplateLibrary/HD44780_View.h: HD44780_View::Write", "Source/Code/ArduinoTemplateLibrary/HD44780_Controller.h: HD44780_Controller::Initialize"]}
{"id": "C136", "title": "The motors of a car do at every moment what was last asked of them", "statement": "Motors driven by TB6612FNG_Controller over TB6612FNG_Driver on distinct pins of an Arduino board (the car of docs/Principles and Practices.md): from any state of the board, after the constructors and any history of commands the chip sees at every motor the last command given to it, with its speed, and no other pin of the board has changed; no motor turns while the drivers are constructed after a reset; and while a command is carried out, pin write by pin write, the other motors see no change and the motor itself never turns in a direction or with a speed that neither the old nor the new command asks for.", "quantifier": "for all numbers of motors and all assignments of distinct pins, all boards and board states, all histories of Stop, Break, Clockwise and CounterClockwise with all speeds, at every moment between two pin writes", "why_tests_cant": "There are no tests of the motor classes; the moments between the pin writes need an observer on the pins, and the interplay of digitalWrite, analogWrite and timers happens in the Arduino core.", "anchors": ["Source/Code/ArduinoTemplateLibrary/TB6612FNG_Controller.h: TB6612FNG_Controller", "Source/Code/ArduinoTemplateLibrary/TB6612FNG_Driver.h: TB6612FNG_Driver::Send", "Source/Code/ArduinoTemplateLibrary/Arduino/AnalogOutputPin.h: AnalogOutputPin::Write"]}
{"id": "C137", "title": "The interrupt driven USART streams behave as if every call were indivisible", "statement": "A program that uses a UsartOutputStream and a UsartInputStream on one USART, interrupted by both handlers anywhere between its memory accesses, sees what it would see if every Write and Read were one indivisible step: there is a history of whole calls, with the same calls in the same order, each taking effect between its start and its return, and the same hardware events and handler runs, in which every Read returns the same and the same bytes are accepted, sent and received.", "quantifier": "for all buffer sizes and contents, control registers, calls, arriving frames and interleavings of memory accesses, handler runs and hardware events", "why_tests_cant": "Unit tests run without interrupts; that every interleaving of memory accesses of two calls and two handlers on three shared variables has an equivalent uninterrupted history is a statement about histories.", "anchors": ["Source/Code/ArduinoTemplateLibrary/AVR/UsartOutputStream.h: UsartOutputStream::Write", "Source/Code/ArduinoTemplateLibrary/AVR/UsartInputStream.h: UsartInputStream::Read", "Source/Code/ArduinoTemplateLibrary/RingBuffer.h: RingBuffer::Write", "Source/Code/ArduinoTemplateLibrary/Bit.h: Bit::Set"]}
{"id": "C138", "title": "The interrupt driven USART streams lose, repeat and reorder nothing although pointers are moved byte by byte", "statement": "On an 8-bit processor, a UsartOutputStream and a UsartInputStream on one USART, each shared between main code and an interrupt handler that can run anywhere, also between the two bytes of a load or store of a ring buffer pointer: what goes out is in order exactly what Write accepted, what Read returns is in order what was received and fitted, a Write into a buffer with room is accepted, no byte is refused while there is room, and the interrupts are enabled when they are needed, wherever the buffers are in memory and whichever byte is moved first.", "quantifier": "for all addresses, sizes and contents of both buffers, byte orders of loads and stores, control registers, calls, arriving frames and interleavings of byte accesses, handler runs and hardware events", "why_tests_cant": "Unit tests run without interrupts on processors that move a pointer in one step; which address a handler finds depends on where the linker puts the buffer, on the order the compiler chooses and on the moment of the interrupt.", "anchors": ["Source/Code/ArduinoTemplateLibrary/RingBuffer.h: RingBuffer::Write", "Source/Code/ArduinoTemplateLibrary/AVR/UsartOutputStream.h: UsartOutputStream::Write", "Source/Code/ArduinoTemplateLibrary/AVR/UsartInputStream.h: UsartInputStream::Read", "Source/Code/ArduinoTemplateLibrary/Bit.h: Bit::Set"]}
{"id": "C139", "title": "Moving pointers byte by byte cannot be told from undivided pointers or from indivisible calls", "statement": "Whatever a program does with a UsartOutputStream and a UsartInputStream on an 8-bit processor, where a handler can run between the two bytes of a pointer, it sees nothing it could not see if every pointer were moved in one step, or if every Write and Read were one indivisible step: the same calls in the same order, each taking effect between its beginning and its end, with the same hardware events give the same bytes accepted, the same line, the same frames kept and refused and the same result of every Read, also -1.", "quantifier": "for all addresses, sizes and contents of both buffers, byte orders of loads and stores, control registers, calls, arriving frames and interleavings of byte accesses, handler runs and hardware events", "why_tests_cant": "A test compares single outcomes; that every one of the interleavings has a counterpart without interleaving needs a simulation between two machines, and the interleavings at byte level cannot be produced on the computer the unit tests run on.", "anchors": ["Source/Code/ArduinoTemplateLibrary/RingBuffer.h: RingBuffer::Read", "Source/Code/ArduinoTemplateLibrary/AVR/UsartOutputStream.h: UsartOutputStream::Write", "Source/Code/ArduinoTemplateLibrary/AVR/UsartInputStream.h: UsartInputStream::Read"]}
{"id": "C140", "title": "Motors commanded by main code and by interrupt handlers", "statement": "Motors driven by TB6612FNG_Controller over TB6612FNG_Driver on distinct pins, commanded by main code and by interrupt handlers that run at any place between two pin writes: whenever main code is outside a command every motor does what the last request to it asks, in some order of whole requests in which a request of main code stands among those that came inside it; no other pin changes. A Stop given by a handler (emergency stop) never ends in a motor doing what nobody asked for.", "quantifier": "for all numbers of motors and all assignments of distinct pins, all boards and board states, all histories of commands with all speeds, with any number of handler commands at each place", "why_tests_cant": "The outcome depends on the exact pin write at which a handler runs; tests give their commands one after the other.", "anchors": ["Source/Code/ArduinoTemplateLibrary/TB6612FNG_Driver.h: Send", "Source/Code/ArduinoTemplateLibrary/TB6612FNG_Controller.h: Stop, Break, Clockwise, CounterClockwise"]}
{"id": "C141", "title": "Motors on one shift register chain commanded by main code and by interrupt handlers", "statement": "Motors driven by TB6612FNG_DriverSerial3Wire on distinct outputs of one shift register chain and with one shared BitArray, commanded by main code and by interrupt handlers that run between any two accesses of main code and command motors main code is not commanding: nothing undefined happens, and whenever main code is outside a command every motor does what was last asked of it; outputs of no motor never change. Whatever handlers have done, the next command given while main code is outside a command makes its motor do what it asks and makes the outputs show the shared word.", "quantifier": "for all word widths up to that of int, all wirings of any number of motors, all chains at least as long with any contents, all contents of the word, all histories of commands and handlers at any accesses", "why_tests_cant": "The outcome depends on the exact access (load, store, pin write) at which a handler runs; tests give their commands one after the other.", "anchors": ["Source/Code/ArduinoTemplateLibrary/TB6612FNG_DriverSerial3Wire.h: Send", "Source/Code/ArduinoTemplateLibrary/BitArray.h: Set", "Source/Code/ArduinoTemplateLibrary/Serial3WireOutput.h: WriteReverse"]}
{"id": "C142", "title": "A display on six pins written by main code and by interrupt handlers", "statement": "A display driven by HD44780_Driver, written byte by byte (characters and commands) by main code and by interrupt handlers that run between any two pin writes of main code and write whole bytes: every byte asked for reaches the display whole, with its register select, in the order in which they are served, and a display in 4 bit mode executes exactly them. Whenever main code is outside of a byte Enable is high.", "quantifier": "for all levels of the lines before, all histories of bytes of main code and of handlers at any pin writes, all bytes and register selects, all displays in 4 bit mode", "why_tests_cant": "The outcome depends on the exact pin write at which a handler runs; tests write one byte after the other, on a computer without interrupts or a display.", "anchors": ["Source/Code/ArduinoTemplateLibrary/HD44780_Driver.h: WriteCommand", "Source/Code/ArduinoTemplateLibrary/HD44780_Driver.h: WriteData", "Source/Code/ArduinoTemplateLibrary/HD44780_Driver.h: Write4", "Source/Code/ArduinoTemplateLibrary/HD44780_Driver.h: PulseEnable"]}
{"id": "C143", "title": "One delay table used by main code and by interrupt handlers", "statement": "A Delays table with room for all ids in use, called by main code and by interrupt handlers that run between any two accesses of main code's Wait and make whole calls: nothing undefined happens, every call has the answer of a table of remaining times in which each call is one step, and whenever main code is outside Wait exactly the delays of that table are listed.", "quantifier": "for all capacities, all sets of ids that fit, all histories of calls of main code and of handlers at any accesses, all times of 32 bits, and however often the compiler reads the remaining time", "why_tests_cant": "The outcome depends on the exact access at which a handler runs and on how the compiler translates a line; tests call the table from one place, on a computer without interrupts.", "anchors": ["Source/Code/ArduinoTemplateLibrary/Delays.h: Wait", "Source/Code/ArduinoTemplateLibrary/Delays.h: Abort"]}
{"id": "C144", "title": "One ring buffer written and read by main code and by interrupt handlers", "statement": "A RingBuffer that main code and interrupt handlers both write to and both read from (when it is not empty), the handlers running between any two accesses of a call of main code: nothing undefined happens, and all calls have the answers of a queue of capacity Size - 1 in which each call is one step: what Write has accepted is read exactly once, in order, nothing else is read, and getLength is the number of values held.", "quantifier": "for all sizes below 65536, all contents of the memory before, all histories of writes and reads of main code and of handlers at any accesses, all values, and whether or not the compiler keeps the pointer in a register", "why_tests_cant": "The outcome depends on the access at which a handler runs and on how the compiler translates the calls; the unit tests call the buffer from one place.", "anchors": ["Source/Code/ArduinoTemplateLibrary/RingBuffer.h: Write", "Source/Code/ArduinoTemplateLibrary/RingBuffer.h: Read", "Source/Code/ArduinoTemplateLibrary/AVR/UsartOutputStream.h: Write", "Source/Code/ArduinoTemplateLibrary/BufferedInputStream.h: Read"]}
{"id": "C145", "title": "One clock updated by main code and by interrupt handlers", "statement": "A Time object whose Update is called by main code and by interrupt handlers running between any two accesses of main code's Update: whenever main code is outside Update, the deltas all callers have been told add up to the time that has passed between construction and the last capture.", "quantifier": "for all times of construction, all histories of updates of main code and of handlers at any accesses, with or without wraps of the counter, whether or not the compiler loads the member again", "why_tests_cant": "The outcome depends on the access at which a handler runs; tests have no clock and no interrupts.", "anchors": ["Source/Code/ArduinoTemplateLibrary/Arduino/Time_Arduino.h: Update", "Source/Code/ArduinoTemplateLibrary/Time.h: Time", "Source/Code/ArduinoTemplateLibrary/Delays.h: Update"]}
{"id": "C146", "title": "A clock count accessed byte by byte and shared with interrupt handlers", "statement": "On an 8-bit processor the four bytes of the count in a Time object are loaded and stored one at a time. When handlers update the clock and main code reads it, or main code updates it and handlers read it, every reading is a time from the one captured before to the one captured after, and main code's own updates report the time passed.", "quantifier": "for all times of construction, all histories of readings and updates with handlers between any two byte accesses, both orders of the bytes", "why_tests_cant": "A wrong reading needs an interrupt between two instructions just when a byte overflows; tests have no clock and no interrupts.", "anchors": ["Source/Code/ArduinoTemplateLibrary/Time.h: getMilliseconds", "Source/Code/ArduinoTemplateLibrary/Time.h: getMicroseconds", "Source/Code/ArduinoTemplateLibrary/Arduino/Time_Arduino.h: Update"]}
{"id": "C147", "title": "The delta time of one clock shared by main code and interrupt handlers", "statement": "A TimeEx object that handlers update and main code reads, or that main code updates and handlers read: getDeltaTime gives the time between the last two updates (modulo 2^16), and Update the time since the last one (modulo 2^32), wherever in main code's calls the handlers run.", "quantifier": "for all times of construction, all histories of updates, resets and readings with handlers between any two accesses, any number of wraps of the counter, both orders of the loads, whether or not the compiler loads the count again", "why_tests_cant": "The answer depends on the access at which a handler runs; there is no test of TimeEx.", "anchors": ["Source/Code/ArduinoTemplateLibrary/Time.h: TimeEx", "Source/Code/ArduinoTemplateLibrary/Time.h: getDeltaTime", "Source/Code/ArduinoTemplateLibrary/Arduino/Time_Arduino.h: Update"]}
{"id": "C148", "title": "One MIDI writer used by main code and by interrupt handlers", "statement": "A MidiWriter that both main code and interrupt handlers call: a reader of the bytes reports every message of either exactly once and nothing else, wherever in main code's Write the handlers run.", "quantifier": "for all compiler layouts of the message's bit fields, all sequences of messages of main code and of handlers, all points of main code's Write at which a handler runs, any number of handlers at one point", "why_tests_cant": "What arrives depends on the access at which a handler runs and on the running status left by all messages before; the unit tests write one message at a time.", "anchors": ["Source/Code/ArduinoTemplateLibrary/MidiWriter.h: Write", "Source/Code/ArduinoTemplateLibrary/MidiReader.h: Read"]}
{"id": "C149", "title": "One bit array used by main code and by interrupt handlers", "statement": "A BitArray of flags that both main code and interrupt handlers call: every bit is what was last asked of it, a handler finds every bit as it was or as main code's call asks, and main code reads a value the bits had at one moment, wherever in main code's calls the handlers run.", "quantifier": "for all unsigned word types and widths of int, all orders of the one-byte loads and stores, all histories of calls of main code and of handlers at any point of main code's calls, all bits", "why_tests_cant": "What is lost depends on the access at which a handler runs and on the code the compiler makes; the unit tests have no handlers.", "anchors": ["Source/Code/ArduinoTemplateLibrary/BitArray.h: Set", "Source/Code/ArduinoTemplateLibrary/BitArray.h: Reset", "Source/Code/ArduinoTemplateLibrary/BitArray.h: SetAll", "Source/Code/ArduinoTemplateLibrary/BitArray.h: Get"]}
{"id": "C150", "title": "One collection used by main code and by interrupt handlers", "statement": "A Collection that both main code and interrupt handlers call: it always holds the items that the calls of both, in the order in which they took effect, make of the empty list, never more than its capacity, and IndexOf of main code finds an item that is there during the whole search, wherever in main code's calls the handlers run.", "quantifier": "for all element types, capacities up to 32767 and contents of the array before construction, all histories of calls of main code and of handlers at any access of main code's Add and IndexOf, with the count loaded once or again and stored before or after the item", "why_tests_cant": "What is lost depends on the access at which a handler runs and on the code the compiler makes; the unit tests have no handlers.", "anchors": ["Source/Code/ArduinoTemplateLibrary/Collection.h: Add", "Source/Code/ArduinoTemplateLibrary/Collection.h: IndexOf"]}
{"id": "C151", "title": "Sections with interrupts off protect shared objects", "statement": "Main code that uses an object shared with interrupt handlers only between Interrupt::EnableAll(false) and Interrupt::EnableAll() finds it, and the handlers find it, as if every call were made as a whole; a section within a section protects the rest of the outer one, leaves interrupts as they were, and every request made in a section is served after it.", "quantifier": "for all objects with handlers (any state machine; in particular a collection, a bit array, a MIDI writer, a ring buffer, a clock, delays, a display, motors on a chain), all compilers' codes these models allow, and all histories of sections, uses, other instructions, requests and handlers", "why_tests_cant": "Whether a handler runs in a call is a matter of instruction timing; the unit tests run on a PC without interrupts and do not include Interrupt.h.", "anchors": ["Source/Code/ArduinoTemplateLibrary/AVR/Interrupt.h: EnableAll"]}
{"id": "C152", "title": "One USART output stream written by main code and by interrupt handlers", "statement": "UsartOutputStream::Write may be called by main code and by interrupt handlers: whatever the moment of the handlers, every byte the buffer took is sent exactly once, in the order in which the writes were completed, nothing else is sent, and no byte stays behind with the data register empty interrupt off.", "quantifier": "for all buffer sizes 1 to 65535, all contents of the uninitialised buffer, all control register values, both ways to compile the write pointer (kept in a register or loaded again), and all histories of accesses of main code, the stream's own handler, other handlers that write, and the hardware", "why_tests_cant": "The unit tests run on a PC without interrupts and do not include the USART headers; which access of Write a handler meets is a matter of instruction timing.", "anchors": ["Source/Code/ArduinoTemplateLibrary/AVR/UsartOutputStream.h: Write", "Source/Code/ArduinoTemplateLibrary/RingBuffer.h: Write"]}
{"id": "C153", "title": "MIDI messages of main code and a MIDI clock of a handler over one USART", "statement": "While main code sends MIDI messages through a MidiWriter over a UsartOutputStream, an interrupt handler may write real-time bytes (such as the clock) to the same stream at any moment: a MidiReader at the other end reports every message of main code and every real-time message exactly once, each in its order.", "quantifier": "for all lists of well-formed messages, all real-time bytes, all buffer sizes and contents, both ways to compile the write pointer, all message layouts, and all histories of accesses, handlers and hardware in which the buffer has room for every byte", "why_tests_cant": "It joins writer, stream, ring buffer, register accesses, handlers and reader; the unit tests have no interrupts and no USART, and the moment of the clock is a matter of timing.", "anchors": ["Source/Code/ArduinoTemplateLibrary/MidiWriter.h: Write", "Source/Code/ArduinoTemplateLibrary/AVR/UsartOutputStream.h: Write", "Source/Code/ArduinoTemplateLibrary/MidiReader.h: Read"]}
{"id": "C154", "title": "One USART input stream read by main code and by interrupt handlers", "statement": "Main code and interrupt handlers may read from the same UsartInputStream: every byte received goes to exactly one reader, in the order received; who finds nothing gets -1 and the receive interrupt is on afterwards.", "quantifier": "for all buffer sizes and contents, control register values, both ways to compile the read pointer, and all histories of accesses of main code, handlers and arriving frames", "why_tests_cant": "The unit tests have no interrupts and no USART; two readers interfere only at the moment between two particular instructions.", "anchors": ["Source/Code/ArduinoTemplateLibrary/AVR/UsartInputStream.h: Read", "Source/Code/ArduinoTemplateLibrary/AVR/UsartInputStream.h: OnIsCompleteInterrupt", "Source/Code/ArduinoTemplateLibrary/RingBuffer.h: Read"]}
{"id": "C155", "title": "Both streams of one USART used by main code and by interrupt handlers", "statement": "Main code and interrupt handlers may use a UsartOutputStream and a UsartInputStream of the same USART: each stream does what it does on its own. Bytes written are sent once each in order, bytes received go to one reader each in order, and outside of calls the transmit interrupt is on while bytes wait and the receive interrupt is on once a reader has been told that there is nothing.", "quantifier": "for all buffer sizes and contents, control register values, both ways to compile the buffer pointers, and all histories of accesses of main code, handlers, arriving frames and frames sent", "why_tests_cant": "The unit tests have no interrupts and no USART; the streams meet only in one control register, between the load and the store of a change to different bits of it.", "anchors": ["Source/Code/ArduinoTemplateLibrary/AVR/UsartOutputStream.h: Write", "Source/Code/ArduinoTemplateLibrary/AVR/UsartInputStream.h: Read", "Source/Code/ArduinoTemplateLibrary/Bit.h: Set"]}
{"id": "C156", "title": "Text printed by main code and by interrupt handlers over one USART", "statement": "Main code and interrupt handlers may print over one UsartOutputStream: the line carries every text, string or number with its new line, in one piece.", "quantifier": "for all buffer sizes and contents, control register values, both ways to compile the buffer pointers, formats, values, and all histories of accesses of main code, handlers that print, transmit interrupts and frames", "why_tests_cant": "The unit tests of TextWriter use a stream in memory without interrupts; a handler comes between two characters of a number only at some moments.", "anchors": ["Source/Code/ArduinoTemplateLibrary/TextWriter.h: Write", "Source/Code/ArduinoTemplateLibrary/AVR/UsartOutputStream.h: Write"]}
{"id": "C157", "title": "A variable in a Data or VolatileData shared by main code and interrupt handlers", "statement": "Main code and interrupt handlers may use one variable in a Data or VolatileData: a read gives a value that was stored, and no assignment, |= or &= is lost.", "quantifier": "for all sizes of the variable, orders in which the compiler accesses its bytes, values, and all histories of accesses of main code and calls of handlers", "why_tests_cant": "The unit tests have no interrupts and run where a variable is accessed at once; the bytes of a value are from different moments only if a handler comes between two instructions.", "anchors": ["Source/Code/ArduinoTemplateLibrary/Data.h: operator|=", "Source/Code/ArduinoTemplateLibrary/Data.h: operator=", "Source/Code/ArduinoTemplateLibrary/VolatileData.h: operator="]}
{"id": "C158", "title": "A polled USART transmitter shared by main code and interrupt handlers", "statement": "Main code and interrupt handlers may write to one UsartTransmit: every write that reports success is sent once, in the order in which the writes returned, with its own ninth bit in nine bit mode.", "quantifier": "for all control registers, values, and all histories of accesses of main code, calls of handlers, and sending of frames", "why_tests_cant": "The unit tests have no USART and no interrupts; a byte is lost only if a handler's call comes between two particular instructions while the data register is empty.", "anchors": ["Source/Code/ArduinoTemplateLibrary/AVR/UsartTransmit.h: Write", "Source/Code/ArduinoTemplateLibrary/AVR/UsartTransmit.h: TryWrite", "Source/Code/ArduinoTemplateLibrary/AVR/UsartTransmit.h: WriteInternal"]}
{"id": "C159", "title": "A polled USART receiver shared by main code and interrupt handlers", "statement": "Main code and interrupt handlers may read from one UsartReceive: every frame received is returned by one call, in order, whole and with its own errors, and no call reports data without one.", "quantifier": "for all control registers, frames with all error flags, and all histories of accesses of main code, calls of handlers, and frames arriving", "why_tests_cant": "The unit tests have no USART and no interrupts; the data and the errors of different frames are combined only if a handler's call comes between two particular instructions.", "anchors": ["Source/Code/ArduinoTemplateLibrary/AVR/UsartReceive.h: Read", "Source/Code/ArduinoTemplateLibrary/AVR/UsartReceive.h: TryRead", "Source/Code/ArduinoTemplateLibrary/AVR/UsartReceive.h: getResult", "Source/Code/ArduinoTemplateLibrary/AVR/UsartReceive.h: ReadInternal"]}
{"id": "C160", "title": "A fixed string shared by main code and interrupt handlers", "statement": "Main code and interrupt handlers may use one FixedString: no access leaves its array, every text read from it is one of the texts that were copied into it, cut to its capacity, and it holds the text of the last copy.", "quantifier": "for all capacities, storages, texts, and all histories of accesses of main code and calls of handlers", "why_tests_cant": "The unit tests have no interrupts; a mixture of two texts appears only if a handler comes between two particular stores or loads of main code.", "anchors": ["Source/Code/ArduinoTemplateLibrary/FixedString.h: CopyFrom", "Source/Code/ArduinoTemplateLibrary/FixedString.h: operator=", "Source/Code/ArduinoTemplateLibrary/TextWriter.h: Write", "Source/Code/ArduinoTemplateLibrary/Array.h: getBuffer"]}
{"id": "C161", "title": "A push button scanned by main code whose state interrupt handlers ask for", "statement": "While main code calls ScanButton, interrupt handlers may call getState: the scan is not disturbed, and a handler gets only states that a call of ScanButton leaves, so in particular no level of the pin that has not been debounced.", "quantifier": "for all buttons, states, delay tables, timeouts and levels, both wirings, with and without joined assignments, and all places of the handlers' calls", "why_tests_cant": "The unit tests have no interrupts; the wrong states stand in the byte for a few instructions.", "anchors": ["Source/Code/ArduinoTemplateLibrary/PushButton.h: ScanButton", "Source/Code/ArduinoTemplateLibrary/PushButton.h: getState", "Source/Code/ArduinoTemplateLibrary/PushButton.h: SampleButtonState", "Source/Code/ArduinoTemplateLibrary/PushButton.h: DebounceButton", "Source/Code/ArduinoTemplateLibrary/BitArray.h: Set"]}
{"id": "C162", "title": "One digital input read by main code and by interrupt handlers", "statement": "Main code and interrupt handlers may read one DigitalInput: every call of Read, whoever makes it, returns true exactly if it found another level than the call before, and getValue is the level last found.", "quantifier": "for all levels at the pin and all histories of accesses of main code, calls of handlers and changes of the level", "why_tests_cant": "The unit tests have no interrupts; a change is reported twice, or an old level as new, only if a handler comes between two particular instructions.", "anchors": ["Source/Code/ArduinoTemplateLibrary/DigitalInput.h: Read", "Source/Code/ArduinoTemplateLibrary/DigitalInput.h: getValue"]}
{"id": "C163", "title": "One value container used by main code and by interrupt handlers", "statement": "Main code and interrupt handlers may use one ValueContainer: whoever calls IsInRange is given the answer of the container before or behind the other's call, and a call that is interrupted leaves what one of the two has set.", "quantifier": "for all modes, bounds and values, both orders of loading the bounds, all places where a handler may come, and all histories in sections", "why_tests_cant": "The unit tests have no interrupts; an answer is wrong only if a handler comes between two particular instructions, and only for values between the two ranges.", "anchors": ["Source/Code/ArduinoTemplateLibrary/ValueContainer.h: IsInRange", "Source/Code/ArduinoTemplateLibrary/ValueContainer.h: SetRange", "Source/Code/ArduinoTemplateLibrary/ValueContainer.h: SetSingle", "Source/Code/ArduinoTemplateLibrary/ValueContainer.h: SetAny", "Source/Code/ArduinoTemplateLibrary/ValueContainer.h: SetNone", "Source/Code/ArduinoTemplateLibrary/ValueContainer.h: Normalize"]}
{"id": "C164", "title": "One delegate given objects and invoked by main code and by interrupt handlers", "statement": "Main code and interrupt handlers may share a delegate: every call, whoever makes it, reaches an object that was given to the delegate, the one before or behind a change, if all of them live.", "quantifier": "for all classes, methods, arguments, objects and addresses, both orders of the bytes of a pointer, and all histories of accesses of main code and calls of handlers", "why_tests_cant": "The unit tests have no interrupts and run where a pointer is stored at once; a wrong object is called only if a handler comes between the stores of two bytes and the addresses differ in both.", "anchors": ["Source/Code/ArduinoTemplateLibrary/Delegate.h: Delegate", "Source/Code/ArduinoTemplateLibrary/Delegate.h: Invoke"]}
{"id": "C165", "title": "Main code goes through a collection with an iterator while interrupt handlers change it", "statement": "While interrupt handlers change a Collection, a loop of main code with MoveNext and getCurrent is defined and ends, gets every item of the collection once and in order, and nothing that was never an item.", "quantifier": "for all item types, capacities up to 32767, contents, and all histories of accesses of main code and calls of handlers", "why_tests_cant": "The unit tests have no interrupts; a default value is taken for an item only if a handler comes between MoveNext and getCurrent.", "anchors": ["Source/Code/ArduinoTemplateLibrary/Iterator.h: MoveNext", "Source/Code/ArduinoTemplateLibrary/Iterator.h: getCurrent", "Source/Code/ArduinoTemplateLibrary/Iterator.h: Reset", "Source/Code/ArduinoTemplateLibrary/Collection.h: Add", "Source/Code/ArduinoTemplateLibrary/Collection.h: SetAt", "Source/Code/ArduinoTemplateLibrary/Collection.h: Clear"]}
