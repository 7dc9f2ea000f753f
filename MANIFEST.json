{
 "claims": [
  {
   "property": "C01",
   "status": "proved",
   "theorems": [
    "Atl.Props.c01_ring_buffer_is_fifo",
    "Atl.Props.c01_empty_read_breaks_fifo",
    "Atl.Props.c01_any_history"
   ],
   "note": "Refinement to a bounded queue for all histories; second theorem shows the documented precondition (no read when empty) is necessary. c01_any_history: every history, also with reads of an empty buffer: nothing outside the memory is touched, and such a read fills the queue with old values."
  },
  {
   "property": "C02",
   "status": "proved",
   "theorems": [
    "Atl.Props.c02_reject_iff_full",
    "Atl.Props.c02_any_history"
   ],
   "note": "c02_any_history: also after histories that read an empty buffer."
  },
  {
   "property": "C03",
   "status": "proved",
   "theorems": [
    "Atl.Props.c03_buffered_read",
    "Atl.Props.c03_returned_prefix_of_accepted"
   ],
   "note": "Item type uint8_t."
  },
  {
   "property": "C04",
   "status": "partial",
   "theorems": [
    "Atl.Props.c04_isr_reader_fails",
    "Atl.Props.c04_isr_writer_fails",
    "Atl.Props.c04_full_claim_is_false",
    "Atl.Props.c04_atomic_commit_partial",
    "Atl.Props.c04_main_writer_partial",
    "Atl.Props.c04_main_reader_partial",
    "Atl.Props.c04_main_writer_exact",
    "Atl.Props.c04_main_reader_exact"
   ],
   "note": "The full claim (C04Full) is false of the code as written (counterexamples proved). The partial theorems hold under the stated store order / placement of the interrupt. The _exact theorems give the exact condition: between the increment and the wrap of a pointer the handler may run as often as values wait (as there is room); one run more and the history is wrong."
  },
  {
   "property": "C05",
   "status": "proved",
   "theorems": [
    "Atl.Props.c05_set_field",
    "Atl.Props.c05_get_field",
    "Atl.Props.c05_get_after_set",
    "Atl.Props.c05_reject",
    "Atl.Props.c05_empty_field_at_end_is_ub"
   ],
   "note": ""
  },
  {
   "property": "C06",
   "status": "partial",
   "theorems": [
    "Atl.Props.c06_single_bit_partial",
    "Atl.Props.c06_invalid_index",
    "Atl.Props.c06_avr_bit15_fails",
    "Atl.Props.c06_avr_bit16_fails",
    "Atl.Props.c06_exact",
    "Atl.Props.c06_set_iff"
   ],
   "note": "Holds for indices below the int width; fails on AVR for wide words (counterexamples proved). c06_exact says what every valid index does on every target; c06_set_iff that the stated condition is necessary."
  },
  {
   "property": "C07",
   "status": "proved",
   "theorems": [
    "Atl.Props.c07_reverse",
    "Atl.Props.c07_reverse_reverse",
    "Atl.Props.c07_reverse8",
    "Atl.Props.c07_reverse16"
   ],
   "note": ""
  },
  {
   "property": "C08",
   "status": "partial",
   "theorems": [
    "Atl.Props.c08_bit_partial",
    "Atl.Props.c08_bitflag_partial",
    "Atl.Props.c08_bitflag_reject_partial",
    "Atl.Props.c08_bitflag_width_fails",
    "Atl.Props.c08_bitflag_ub_fails",
    "Atl.Props.c08_bit_exact",
    "Atl.Props.c08_bitflag_exact",
    "Atl.Props.c08_toggle_exact"
   ],
   "note": "Out-of-width indices are not always rejected (counterexamples proved). The _exact theorems say what every index does on every target."
  },
  {
   "property": "C09",
   "status": "proved",
   "theorems": [
    "Atl.Props.c09_accessors",
    "Atl.Props.c09_oversized",
    "Atl.Props.c09_dummy_is_shared"
   ],
   "note": "Sizes up to 32767 exactly; sizes 32768..65535 reject every index (safe, c09_oversized)."
  },
  {
   "property": "C10",
   "status": "proved",
   "theorems": [
    "Atl.Props.c10_bounded_list",
    "Atl.Props.c10_oversized_fails"
   ],
   "note": "Capacity up to 32767, as claimed; beyond that Add loses items (proved)."
  },
  {
   "property": "C100",
   "status": "proved",
   "theorems": [
    "Atl.Props.c100_button",
    "Atl.Props.c100_settles"
   ],
   "note": "The whole example program: exact, all contact sequences and clock readings."
  },
  {
   "property": "C101",
   "status": "partial",
   "theorems": [
    "Atl.Props.c101_follow_partial",
    "Atl.Props.c101_blink",
    "Atl.Props.c101_start_fails",
    "Atl.Props.c101_follow_exact"
   ],
   "note": "DigitalInput: if the LED pin starts low; otherwise it stays on until the input has once been high (proved). Blink: full. c101_follow_exact: from every start level, the LED shows the start level until the first high input and the input from then on."
  },
  {
   "property": "C102",
   "status": "partial",
   "theorems": [
    "Atl.Props.c102_output_partial",
    "Atl.Props.c102_timeout_task",
    "Atl.Props.c102_scan_button",
    "Atl.Props.c102_overflow_fails"
   ],
   "note": "The whole example, limits below 2^31 - 1; with that limit the counter overflows (proved). The library's task bodies: all states."
  },
  {
   "property": "C103",
   "status": "partial",
   "theorems": [
    "Atl.Props.c103_pages",
    "Atl.Props.c103_current_page",
    "Atl.Props.c103_example",
    "Atl.Props.c103_leftover_fails",
    "Atl.Props.c103_page",
    "Atl.Props.c103_hello",
    "Atl.Props.c103_hello_i2c"
   ],
   "note": "All texts, pages and numbers of rounds, 1 to 4 rows, any display state. Each page is written over the ones before (exact); when the pages have texts in the same places, as in the example, exactly the current page is shown, otherwise remains of earlier pages can stay (proved)."
  },
  {
   "property": "C104",
   "status": "partial",
   "theorems": [
    "Atl.Props.c104_dialog_partial",
    "Atl.Props.c104_example",
    "Atl.Props.c104_texts",
    "Atl.Props.c104_large_set_fails",
    "Atl.Props.c104_short_text_fails",
    "Atl.Props.c104_any_exact",
    "Atl.Props.c104_shown",
    "Atl.Props.c104_outside_fails"
   ],
   "note": "The whole example program, all command sequences, exact display content and cursor. Sets of up to 128 different characters (with more, editing starts at the wrong character: proved), a text that fills the buffer (behind a shorter one the user can edit places that are never shown: proved), text control on the first row (on another row the cursor is wrong: c83_text_fails). c104_any_exact: the exact display for every text, also shorter than the buffer or with characters outside the set, and for sets with a character twice (Spec/TextBoxAny.lean); c104_shown: with characters of the set the display shows exactly the text in the buffer and blanks; otherwise remains of an emptied text stay (proved)."
  },
  {
   "property": "C105",
   "status": "partial",
   "theorems": [
    "Atl.Props.c105_lines_partial",
    "Atl.Props.c105_examples",
    "Atl.Props.c105_literal",
    "Atl.Props.c105_smallest_fails"
   ],
   "note": "All sequences of values with bases 4 to 36, reals below 2^32 - 257 in binary32 arithmetic; the smallest int cannot be written (proved)."
  },
  {
   "property": "C106",
   "status": "partial",
   "theorems": [
    "Atl.Props.c106_defined",
    "Atl.Props.c106_link_partial",
    "Atl.Props.c106_arrives_partial",
    "Atl.Props.c106_deaf_fails",
    "Atl.Props.c106_overflow_fails",
    "Atl.Props.c106_lossy",
    "Atl.Props.c106_one_byte_fails",
    "Atl.Props.c106_boards_partial",
    "Atl.Props.c106_bytes_partial"
   ],
   "note": "All histories: no undefined behaviour. Without overflow and with the receive interrupt on: exactly the messages written, in order, all of them after a bounded number of turns. As the classes stand MidiReader never switches the receive interrupt on, so without help from the application nothing is ever received (proved), and a byte written to a full stream vanishes, after which a wrong message is reported (proved). The ring buffer operations are single steps here (see C04, and C137: the streams behave as if they were). c106_lossy: in every history, with any losses and any control registers, the reader's events are those of the bytes written with some left out, nothing added or reordered. c106_one_byte_fails: for any number of notes on one channel one lost byte makes every later note wrong, since writer and reader keep the running status.  c106_boards_partial: the same between two boards from the line levels (C131) to the memory accesses of both programs and their handlers (C137). c106_bytes_partial: the same with pointers moved byte by byte (C138)."
  },
  {
   "property": "C107",
   "status": "partial",
   "theorems": [
    "Atl.Props.c107_main_writer_partial",
    "Atl.Props.c107_main_reader_partial",
    "Atl.Props.c107_refusal_partial",
    "Atl.Props.c107_refusal_fails",
    "Atl.Props.c107_length_fails",
    "Atl.Props.c107_twice_fails",
    "Atl.Props.c107_page_writer",
    "Atl.Props.c107_page_reader",
    "Atl.Props.c107_main_writer_waiting",
    "Atl.Props.c107_main_reader_room"
   ],
   "note": "All placements, byte orders and histories with at most one handler run from the first to the last byte of a new pointer: order and content are right, and with up to 256 elements only a full buffer refuses. False beyond: with more than 256 elements a value is refused by a buffer that is not full, getLength can return 257 for a buffer of 4, and two handler runs in one pointer store read a value never written (all proved). A buffer inside one page of 256 bytes behaves like one with undivided pointers (C04), whatever the handler does. The bound of one run is relaxed to what the buffer tolerates: c107_main_writer_waiting allows one run more than values still wait, c107_main_reader_room as many as there is room counting the slot being read; the examples beside them show one more breaking the stream."
  },
  {
   "property": "C108",
   "status": "partial",
   "theorems": [
    "Atl.Props.c108_streams_partial",
    "Atl.Props.c108_refuse_partial",
    "Atl.Props.c108_drain_partial",
    "Atl.Props.c108_fetch_partial",
    "Atl.Props.c108_twice_out_fails",
    "Atl.Props.c108_twice_in_fails",
    "Atl.Props.c108_streams_exact",
    "Atl.Props.c108_once_calm"
   ],
   "note": "All histories in which the handler of a stream runs at most once between the increment and the wrap of the pointer main code moves. With two runs in that window the whole output buffer is sent again, or a full input buffer becomes empty (both proved). Pointers are loaded and stored in one step (see C107). Without any bound on the handler runs c108_streams_exact gives the exact condition: both streams are right at every point of a history if and only if no handler run comes too often (transmit: one run more than bytes wait while the number of accepted bytes is a multiple of the size; receive: a good byte for a full buffer while the number of bytes read is a multiple of the size)."
  },
  {
   "property": "C109",
   "status": "partial",
   "theorems": [
    "Atl.Props.c109_bit_partial",
    "Atl.Props.c109_bitflag_partial",
    "Atl.Props.c109_sign_fails",
    "Atl.Props.c109_bit_exact",
    "Atl.Props.c109_bitflag_exact"
   ],
   "note": "All values and indices; IsTrue of the sign bit is false for every value, since the masked value is negative (proved). Types wider than int from bit 15 on and the index equal to the width: see C08. c109_bit_exact, c109_bitflag_exact: every index and width, types wider than int included."
  },
  {
   "property": "C11",
   "status": "partial",
   "theorems": [
    "Atl.Props.c11_array_indexOf",
    "Atl.Props.c11_collection_indexOf_partial",
    "Atl.Props.c11_collection_indexOf_fails",
    "Atl.Props.c11_collection_indexOf_exact",
    "Atl.Props.c11_static_indexOf_exact",
    "Atl.Props.c11_static_indexOf_partial",
    "Atl.Props.c11_static_indexOf_hangs"
   ],
   "note": "Arrays: full. Collections: false from index 128 on (8-bit return type). StaticArray: never returns for 256 items or more when the item is not among the first 256."
  },
  {
   "property": "C110",
   "status": "partial",
   "theorems": [
    "Atl.Props.c110_array",
    "Atl.Props.c110_bit",
    "Atl.Props.c110_bitarray",
    "Atl.Props.c110_collection_partial",
    "Atl.Props.c110_collection_fails"
   ],
   "note": "Array, Bit and BitArray examples: full (arrays up to 32767 elements). CollectionRef: up to 255 elements; with 256 items or more the loop with its unsigned char counter never ends (proved)."
  },
  {
   "property": "C111",
   "status": "partial",
   "theorems": [
    "Atl.Props.c111_conforms_partial",
    "Atl.Props.c111_exact",
    "Atl.Props.c111_tune_request_fails",
    "Atl.Props.c111_undefined_realtime_fails",
    "Atl.Props.c111_interrupt_fails",
    "Atl.Props.c111_full_claim_is_false"
   ],
   "note": "Proved for every tidy stream (Spec/MidiTidy.lean); c111_exact shows that this condition cannot be weakened: after the first untidy byte of any stream some continuation is reported wrongly. The untidy bytes are: the start of an exclusive message, a status byte or undefined real-time byte inside a message, and a data byte behind a tune request or undefined real-time byte that met a running status."
  },
  {
   "property": "C112",
   "status": "partial",
   "theorems": [
    "Atl.Props.c112_flag",
    "Atl.Props.c112_wait_partial",
    "Atl.Props.c112_write",
    "Atl.Props.c112_writes",
    "Atl.Props.c112_stale_fails",
    "Atl.Props.c112_nothing_fails",
    "Atl.Props.c112_interrupt_fails",
    "Atl.Props.c112_full_claim_is_false",
    "Atl.Props.c112_flag_interrupt",
    "Atl.Props.c112_try"
   ],
   "note": "c112_flag: exactly what the flag says in every history (everything had been sent at some moment since reset). WaitIsComplete is right while the flag is clear and something is to be sent; nothing in the class clears the flag, so from the second transmission on it returns at once; with nothing to send, or with the interrupt enabled, it never returns (all proved).  With the transmit complete interrupt the flag is characterised exactly (c112_flag_interrupt)."
  },
  {
   "property": "C113",
   "status": "partial",
   "theorems": [
    "Atl.Props.c113_range_or_nan",
    "Atl.Props.c113_in_range_partial",
    "Atl.Props.c113_formula",
    "Atl.Props.c113_nan_stays",
    "Atl.Props.c113_recovers",
    "Atl.Props.c113_no_time_fails",
    "Atl.Props.c113_bad_reading_fails",
    "Atl.Props.c113_full_claim_is_false",
    "Atl.Props.c113_nan_exact",
    "Atl.Props.c113_no_derivative",
    "Atl.Props.c113_overflow_fails",
    "Atl.Props.c113_compare",
    "Atl.Props.c113_invalid",
    "Atl.Props.c113_infinite"
   ],
   "note": "In range for every history with finite values up to 1e9 and a positive time step, on every format in which rounding at most doubles a number (binary32 is shown to be one). Otherwise the value can be NaN, which ClipValue lets pass: 0/0 when two calls see the same tick, and after one NaN reading every value until an error falls in the dead band (both proved). c113_nan_exact: exactly when the value is NaN for numbers of any size; c113_no_derivative: never without a D gain.  The numbers of the model are those of IEEE 754 (c113_compare, c113_invalid, c113_infinite: order, invalid operations, signs of infinite results)."
  },
  {
   "property": "C114",
   "status": "partial",
   "theorems": [
    "Atl.Props.c114_input",
    "Atl.Props.c114_output_partial",
    "Atl.Props.c114_default",
    "Atl.Props.c114_default_fails",
    "Atl.Props.c114_output_fails",
    "Atl.Props.c114_full_claim_is_false"
   ],
   "note": "Input: full, every history, against the mailbox specification of C76. Output: the parameter of Write is uint8_t whatever T is, so no history ever sends a frame with the ninth bit set (proved for all histories); eight-bit values arrive in nine-bit mode (partial). The default T = uint8_t drops the ninth bit of every received frame."
  },
  {
   "property": "C115",
   "status": "partial",
   "theorems": [
    "Atl.Props.c115_analog_partial",
    "Atl.Props.c115_write_true_fails",
    "Atl.Props.c115_toggle_fails",
    "Atl.Props.c115_dimmed_fails",
    "Atl.Props.c115_full_claim_is_false"
   ],
   "note": "All histories without Write(true). False for Write(true): AnalogOutputPin::Write(uint8_t) hides DigitalOutputPin::Write(bool), so true becomes the duty 1 (or low on a pin without timer); proved for every board."
  },
  {
   "property": "C116",
   "status": "partial",
   "theorems": [
    "Atl.Props.c116_exact_partial",
    "Atl.Props.c116_close_partial",
    "Atl.Props.c116_too_long_fails",
    "Atl.Props.c116_short_fails",
    "Atl.Props.c116_full_claim_is_false"
   ],
   "note": "Exact while the cycle count has at most 24 significant bits (16 MHz: 134217 ms, 16.7 s in microseconds); right up to 1 part in 2^20 and a cycle as long as it fits in 32 bits. False beyond: undefined from 268436 ms at 16 MHz, and some waits are too short; all proved."
  },
  {
   "property": "C117",
   "status": "partial",
   "theorems": [
    "Atl.Props.c117_busy_partial",
    "Atl.Props.c117_running",
    "Atl.Props.c117_profile_fails",
    "Atl.Props.c117_content",
    "Atl.Props.c117_busy_iff"
   ],
   "note": "All profiles that are slow enough together with the bus. The library's own profile is slow enough after the initialisation on a 100 kHz bus (proved), not during the initialisation and not on a 400 kHz bus (proved). The conditions on profile and bus are necessary as well (c117_busy_iff)."
  },
  {
   "property": "C118",
   "status": "partial",
   "theorems": [
    "Atl.Props.c118_clear_partial",
    "Atl.Props.c118_clear_hangs_fails",
    "Atl.Props.c118_clear_old_fails",
    "Atl.Props.c118_close_partial",
    "Atl.Props.c118_close_fails"
   ],
   "note": "Nothing undefined happens and nothing of the buffer survives Clear; the closed receiver stays quiet. Clear hangs on a quiet line and when the handler takes every frame, and leaves frames of the receiver in place (proved); a handler run inside Close leaves a byte in the closed stream (proved)."
  },
  {
   "property": "C119",
   "status": "partial",
   "theorems": [
    "Atl.Props.c119_order",
    "Atl.Props.c119_complete",
    "Atl.Props.c119_short_partial",
    "Atl.Props.c119_cut",
    "Atl.Props.c119_paced",
    "Atl.Props.c119_number_fails"
   ],
   "note": "Any text in any history: nothing doubled, reordered or made up; exactly the text when no character meets a full buffer, in particular when the text is shorter than the buffer or the line keeps pace (then two items are enough). Text written while the interrupts are off is cut to Size - 1 characters and Write reports nothing, so 12345 goes out as 123 (proved)."
  },
  {
   "property": "C12",
   "status": "proved",
   "theorems": [
    "Atl.Props.c12_terminated",
    "Atl.Props.c12_copyFrom_text",
    "Atl.Props.c12_construct_text",
    "Atl.Props.c12_write_at_capacity_fails",
    "Atl.Props.c12_capacity"
   ],
   "note": ""
  },
  {
   "property": "C120",
   "status": "partial",
   "theorems": [
    "Atl.Props.c120_output",
    "Atl.Props.c120_one_sided",
    "Atl.Props.c120_saturates",
    "Atl.Props.c120_time_constant",
    "Atl.Props.c120_filter_bounded",
    "Atl.Props.c120_step_response",
    "Atl.Props.c120_sum_fails",
    "Atl.Props.c120_integrator",
    "Atl.Props.c120_output_exact"
   ],
   "note": "Proved with the sum taken since the error was last acceptable (the code drops the integral there; the documentation does not say so, c120_sum_fails) and while that sum stays in the range; for errors of one sign also exactly beyond the range. Exact arithmetic. c120_integrator and c120_output_exact: every history, also with errors of both signs and beyond the range (range with zero, integrator starting in it)."
  },
  {
   "property": "C121",
   "status": "partial",
   "theorems": [
    "Atl.Props.c121_reports",
    "Atl.Props.c121_complete_partial",
    "Atl.Props.c121_deaf_fails",
    "Atl.Props.c121_small_fails",
    "Atl.Props.c121_request_partial",
    "Atl.Props.c121_request_cut_fails"
   ],
   "note": "Proved for every history: what is reported is the meaning of the groups of four among the bytes accepted. Complete when no byte is lost, the interrupt was switched on by the program and the buffers have at least five elements; false otherwise (the driver never switches the receive interrupt on; a buffer of four holds three bytes)."
  },
  {
   "property": "C122",
   "status": "partial",
   "theorems": [
    "Atl.Props.c122_exact",
    "Atl.Props.c122_numbers",
    "Atl.Props.c122_rows_partial",
    "Atl.Props.c122_wrap",
    "Atl.Props.c122_counter_fails"
   ],
   "note": "Exact for every number of lines: the rows are used in the order 0, 1, ..., last, 0, 0, 1, ... So right for as many lines as rows; false after that, because the line after the last row and the next one both go to row 0 (c122_counter_fails), and a line does not clear the rest of its row."
  },
  {
   "property": "C123",
   "status": "partial",
   "theorems": [
    "Atl.Props.c123_same_partial",
    "Atl.Props.c123_byte_first",
    "Atl.Props.c123_rs_pin_fails"
   ],
   "note": "Proved when RS is low as the parallel driver is constructed, or the first call is not a bare nibble; false otherwise (c123_rs_pin_fails): the parallel constructor leaves RS as it is. The shift register driver with a base class whose Write shows the register (the library's never returns, C65)."
  },
  {
   "property": "C124",
   "status": "partial",
   "theorems": [
    "Atl.Props.c124_sound",
    "Atl.Props.c124_rate",
    "Atl.Props.c124_thru",
    "Atl.Props.c124_transparent_partial",
    "Atl.Props.c124_tune_request_fails"
   ],
   "note": "Soundness, the rate and the equality of what two MidiReaders report are proved for all byte streams. For a conforming MIDI 1.0 receiver behind the program: proved for tidy streams (C111) without tune request, false with a tune request (c124_tune_request_fails). SysEx is only announced by the reader and not sent on."
  },
  {
   "property": "C125",
   "status": "partial",
   "theorems": [
    "Atl.Props.c125_shared_partial",
    "Atl.Props.c125_no_glitch_partial",
    "Atl.Props.c65_hangs_fails",
    "Atl.Props.c48_speed_zero_fails",
    "Atl.Props.c125_shared_speed_partial",
    "Atl.Props.c125_no_glitch_speed_partial",
    "Atl.Props.c125_wide_fails"
   ],
   "note": "Proved at the outputs of the chain for a base class that shows the register with WriteReverse, for registers not wider than int and nonzero speeds. With the library's own Serial3WireOutput::Write the first call does not return (c65_hangs_fails). With speed 0 everything holds with speed 1 in its place (speed 0 drives the line with 1, c48_speed_zero_fails). For every register wider than int showing it is undefined (c125_wide_fails)."
  },
  {
   "property": "C126",
   "status": "partial",
   "theorems": [
    "Atl.Props.c126_exact",
    "Atl.Props.c126_last_partial",
    "Atl.Props.c126_readback",
    "Atl.Props.c126_lost_fails",
    "Atl.Props.c126_echo_fails",
    "Atl.Props.c126_open_close"
   ],
   "note": "c126_exact: every history; exactly the requests of a handler between a load and the store of main code for the same USART are lost. So right when handlers change no other bit there (as the library's own streams), false otherwise, for every two different bits (proved); a byte echoed by a receive handler can then stay in the output buffer for ever (proved)."
  },
  {
   "property": "C127",
   "status": "partial",
   "theorems": [
    "Atl.Props.c127_set_field",
    "Atl.Props.c127_get_field_exact",
    "Atl.Props.c127_get_after_set_partial",
    "Atl.Props.c127_single_bit_exact",
    "Atl.Props.c127_reject",
    "Atl.Props.c127_shift_exact",
    "Atl.Props.c127_reverse",
    "Atl.Props.c127_get_fails",
    "Atl.Props.c127_sign_fails",
    "Atl.Props.c127_shiftDown_fails"
   ],
   "note": "Writing, rejecting, shifting up and reversing are right for all inputs (single bits as in C06). Reading a field that ends at the top gives a negative number when its highest bit is set, ShiftDown repeats the sign bit, and IsTrue of a set sign bit is false when the type is as wide as int or wider; all three proved false in general form and described exactly."
  },
  {
   "property": "C128",
   "status": "partial",
   "theorems": [
    "Atl.Props.c128_mover_partial",
    "Atl.Props.c128_integral_partial",
    "Atl.Props.c128_never_settles_fails",
    "Atl.Props.c128_direct_fails",
    "Atl.Props.c128_heater_fails"
   ],
   "note": "A mover (position) under proportional control: reaches the tolerance in a calculated number of calls and stays for ever. Integral control with tolerance 0 of a plant that follows at once: error shrinks geometrically. False with a positive tolerance for every plant that needs a lasting action, whatever the gains: inside the tolerance the integral is thrown away, so only a bounded number of successive measurements can be acceptable (proved for all plants that drift out without action, in particular every heater above its surroundings)."
  },
  {
   "property": "C129",
   "status": "partial",
   "theorems": [
    "Atl.Props.c129_together",
    "Atl.Props.c62_coroutine",
    "Atl.Props.c129_break",
    "Atl.Props.c129_continue",
    "Atl.Props.c129_switch_fails",
    "Atl.Props.c129_shared_variable_fails"
   ],
   "note": "Proved for all bodies without a macro inside a nested switch, any number of tasks each with its own variable, in any order. False for a macro in a nested switch (the task silently ends at the next call) and for two task methods of one class that share _task (both proved). break outside of a loop ends the task."
  },
  {
   "property": "C13",
   "status": "partial",
   "theorems": [
    "Atl.Props.c13_clear_partial",
    "Atl.Props.c13_which_elements",
    "Atl.Props.c13_clear_fails"
   ],
   "note": "True for one-byte elements only; false for every larger element type (proved for every size)."
  },
  {
   "property": "C130",
   "status": "partial",
   "theorems": [
    "Atl.Props.c130_exact",
    "Atl.Props.c130_last_partial",
    "Atl.Props.c130_lost_fails",
    "Atl.Props.c130_motor_fails"
   ],
   "note": "c130_exact says for all executions which requests are lost. The claim holds if no handler operates another switch of the same register inside a call (c130_last_partial, which covers calls with interrupts off or compiled to one instruction) and is false otherwise for every pair of switches of one register."
  },
  {
   "property": "C131",
   "status": "partial",
   "theorems": [
    "Atl.Props.c131_line_iff",
    "Atl.Props.c131_setup",
    "Atl.Props.c131_send_iff",
    "Atl.Props.c131_send_partial",
    "Atl.Props.c131_receive_iff",
    "Atl.Props.c131_receive_partial",
    "Atl.Props.c131_pair",
    "Atl.Props.c131_parity_fails",
    "Atl.Props.c131_nine_fails",
    "Atl.Props.c131_slow_fails",
    "Atl.Props.c131_fast_fails",
    "Atl.Props.c131_majority",
    "Atl.Props.c131_samples"
   ],
   "note": "Proved without parity for up to eight bits whenever the clock is 366 (sending) or 304 (receiving) to 524288 times the rate, and an exact condition for every clock and rate; two boards with the same clock and configuration always understand each other. False with parity (every character is an error), nine bits (reserved size), some fast rates (57600 at 4 MHz) and rates so low that the quotient is cut (all proved). The majority of three looks the hardware takes is proved equal to one look."
  },
  {
   "property": "C132",
   "status": "proved",
   "theorems": [
    "Atl.Props.c132_boards",
    "Atl.Props.c132_all",
    "Atl.Props.c132_rounds",
    "Atl.Props.c132_to_terminal",
    "Atl.Props.c132_from_terminal"
   ],
   "note": "Composition of C59 (output stream), C131 (line) and C76 (input stream); c132_to_terminal and c132_from_terminal are the two halves, for any partner that understands the format. c132_rounds: one Read per character is enough to keep up. Main code and handler of the receiving board alternate at call granularity; c137_boards (C137) has the same at the level of memory accesses."
  },
  {
   "property": "C133",
   "status": "proved",
   "theorems": [
    "Atl.Props.c133_independent",
    "Atl.Props.c133_promises",
    "Atl.Props.c133_conditions_fail",
    "Atl.Props.c133_buttons_exact",
    "Atl.Props.c133_timers_exact"
   ],
   "note": "All programs that meet the three conditions of the statement; c133_conditions_fail gives a run for each condition left out. The code itself checks none of them. c133_buttons_exact: what every button of the program reports, for any number of scans per update. c133_timers_exact: when every timeout task of the program fires."
  },
  {
   "property": "C134",
   "status": "partial",
   "theorems": [
    "Atl.Props.c134_delegates",
    "Atl.Props.c134_lifetimes",
    "Atl.Props.c134_nested",
    "Atl.Props.c134_nested_undefined",
    "Atl.Props.c134_dangling_fails"
   ],
   "note": "All programs of the statement. c134_lifetimes: also when the program creates and destroys objects and methods may change, create or destroy any object. Partial: the static Invoke of Delegate (method with result, no parameter) does not compile and the model gives it the meaning of Delegate0's. c134_nested, c134_nested_undefined: also when methods are programs themselves that change every object and delegate, also the one they were called through, and invoke delegates to any depth. A delegate holds an address only: when its object is gone and another lies there, the call reaches the other (c134_dangling_fails)."
  },
  {
   "property": "C135",
   "status": "partial",
   "theorems": [
    "Atl.Props.c135_loop",
    "Atl.Props.c135_terminal",
    "Atl.Props.c135_burst_fails",
    "Atl.Props.c135_writer_fails",
    "Atl.Props.c135_access",
    "Atl.Props.c135_text",
    "Atl.Props.c135_bytes_partial"
   ],
   "note": "Every history; the display is right for lines that fit (any number of them, on the rows of C122) and for texts that fit the screen (C43: text over the end of a line goes elsewhere). False when the loop does not keep up (a character that meets a full buffer is lost, proved), and with the display wrapped in a TextWriter as in LCD.ino (it shows 72 for H, proved). The program is not in the repository; its parts are. Main code and handler alternate at call granularity (C137: the streams behave as if they did).  c135_access: the same at the level of memory accesses. c135_bytes_partial: from the line of another board to the display with pointers moved byte by byte (C138)."
  },
  {
   "property": "C136",
   "status": "partial",
   "theorems": [
    "Atl.Props.c136_car_partial",
    "Atl.Props.c136_start",
    "Atl.Props.c136_moments",
    "Atl.Props.c136_direction_iff",
    "Atl.Props.c136_jerk_fails",
    "Atl.Props.c136_no_timer_fails"
   ],
   "note": "Proved on PWM pins with a timer, with speed 1 for 0 (C48). Moments: exact (c136_moments). False between the writes: Stop after Break, and Break after Stop, turn the motor for a moment, and these are the only pairs with a wrong direction (c136_direction_iff); a reversal runs in the new direction with the old speed for a moment (c136_jerk_fails). Without a timer there are two speeds only (c136_no_timer_fails). The Arduino core is part of the trusted base."
  },
  {
   "property": "C137",
   "status": "partial",
   "theorems": [
    "Atl.Props.c137_whole_calls_partial",
    "Atl.Props.c137_history",
    "Atl.Props.c137_prefix",
    "Atl.Props.c137_once",
    "Atl.Props.c137_boards",
    "Atl.Props.c137_twice_fails"
   ],
   "note": "Proved for exactly the histories in which the streams are right (C108: no handler run comes too often between increment and wrap of a pointer), hence for all in which a handler runs at most once in that window of a few instructions (c137_once). False otherwise (c137_twice_fails). Where a call takes effect: at the overrun test if the buffer is full, else when the write pointer advances; at the second look of getLength if nothing is there, else when the read pointer advances. c137_boards carries C132 (from board to board) to the level of memory accesses. Calls are not nested (main code only); pointers are loaded and stored undivided."
  },
  {
   "property": "C138",
   "status": "partial",
   "theorems": [
    "Atl.Props.c138_streams_partial",
    "Atl.Props.c138_write_partial",
    "Atl.Props.c138_read_partial",
    "Atl.Props.c138_read_waiting_partial",
    "Atl.Props.c138_drain_partial",
    "Atl.Props.c138_fetch_partial",
    "Atl.Props.c138_twice_fails",
    "Atl.Props.c138_large_fails",
    "Atl.Props.c138_boards_partial"
   ],
   "note": "Proved if the handler of a stream runs at most once from the first byte of an incremented pointer to the end of the ring buffer call (a few instructions; a frame takes hundreds); false otherwise (c138_twice_fails). That a Write with room is accepted (c138_write_partial) and that no received byte is refused with room (last clause of c138_streams_partial) for buffers of at most 256 bytes; the latter is false beyond (c138_large_fails). A Read begun while bytes wait returns one whatever the handlers do, for buffers of at most 256 bytes (c138_read_waiting_partial); for larger ones if no receive interrupt is served during the call (c138_read_partial). c138_boards_partial: from the line levels of one board to Read on another (C132), pointers moved byte by byte on both."
  },
  {
   "property": "C139",
   "status": "partial",
   "theorems": [
    "Atl.Props.c139_undivided_partial",
    "Atl.Props.c139_pieces_partial",
    "Atl.Props.c139_whole_calls_partial",
    "Atl.Props.c139_once_partial",
    "Atl.Props.c139_large_fails",
    "Atl.Props.c139_twice_fails"
   ],
   "note": "Proved for buffers of at most 256 bytes and if the handler of a stream runs at most once in a window of C138 (a few instructions; a frame takes hundreds); false for larger buffers (c139_large_fails) and with two runs (c139_twice_fails). The same handler runs need not occur: one that finds a half moved pointer and does nothing has no counterpart, so the handler runs are a part of the same sequence."
  },
  {
   "property": "C14",
   "status": "partial",
   "theorems": [
    "Atl.Props.c14_forward",
    "Atl.Props.c14_backward",
    "Atl.Props.c14_forward_array",
    "Atl.Props.c14_forward_collection",
    "Atl.Props.c14_next_back",
    "Atl.Props.c14_current",
    "Atl.Props.c14_moves_partial",
    "Atl.Props.c14_moveTo",
    "Atl.Props.c14_end_fails"
   ],
   "note": "With 32767 items MoveNext behind the end overflows (proved); everything else holds for all lengths and moves."
  },
  {
   "property": "C140",
   "status": "partial",
   "theorems": [
    "Atl.Props.c140_exact",
    "Atl.Props.c140_whole_partial",
    "Atl.Props.c140_other_motors",
    "Atl.Props.c140_emergency_stop",
    "Atl.Props.c140_stop_stands",
    "Atl.Props.c140_other_pins",
    "Atl.Props.c140_uninterrupted",
    "Atl.Props.c140_mixed_fails",
    "Atl.Props.c140_full_claim_is_false"
   ],
   "note": "c140_exact: as if whole at every point of a history if and only if every command goes together with the last command handlers give to its motor inside it (GoTogether). Always with other motors, and for handlers that only Stop while main code never Breaks. False otherwise: opposite directions leave a motor that stands still or brakes, Break and Stop one that turns, and a direction given behind IN2 runs with the speed main code asked for (c140_mixed_fails). An emergency Stop inside a CounterClockwise command behind IN1 does not last (c140_stop_stands). The Arduino pin functions count as one step."
  },
  {
   "property": "C141",
   "status": "partial",
   "theorems": [
    "Atl.Props.c141_quiet_partial",
    "Atl.Props.c141_repair",
    "Atl.Props.c141_alone",
    "Atl.Props.c141_before_bit",
    "Atl.Props.c141_before_data",
    "Atl.Props.c141_before_clock",
    "Atl.Props.c141_while_clock_high",
    "Atl.Props.c141_while_latched",
    "Atl.Props.c141_undone",
    "Atl.Props.c141_stop_fails",
    "Atl.Props.c141_garbled_fails",
    "Atl.Props.c141_full_claim_is_false"
   ],
   "note": "Proved for handlers at quiet places: outside a command, before a load of a Set, before the first bit is fetched, behind the last bit, before the latch, before the PWM write. False at the others, and for each of them the exact outcome is a theorem: between load and store of a Set the handler's command is undone (c141_undone), inside the output at bit k the outputs before k show the last k bits of the word (c141_before_bit, c141_before_data, c141_before_clock, c141_while_clock_high), while the latch is high the handler's word is not shown (c141_while_latched). In the concrete cases a motor that a handler stopped keeps turning, and a motor main code turns counterclockwise stands or turns clockwise. BaseT::Write is WriteReverse as in C125."
  },
  {
   "property": "C142",
   "status": "partial",
   "theorems": [
    "Atl.Props.c142_quiet_partial",
    "Atl.Props.c142_quiet_device_partial",
    "Atl.Props.c142_idle",
    "Atl.Props.c142_count",
    "Atl.Props.c142_odd_fails",
    "Atl.Props.c142_first_half",
    "Atl.Props.c142_first_low",
    "Atl.Props.c142_second_half",
    "Atl.Props.c142_second_low",
    "Atl.Props.c142_safe_place",
    "Atl.Props.c142_out_of_step",
    "Atl.Props.c142_garbage_fails",
    "Atl.Props.c142_command_fails",
    "Atl.Props.c142_mixed_fails",
    "Atl.Props.c142_full_claim_is_false"
   ],
   "note": "Proved for handlers outside main code's bytes, and behind the first pin write (RS) of a byte when both have the same register select. False at all other places (c142_safe_place), and for each of the twelve places the exact stream of latched halves is a theorem (c142_first_half, c142_first_low, c142_second_half, c142_second_low). For all histories: the number of latched halves is twice the bytes minus the handlers' bytes that found Enable low, so an odd number of these leaves the display out of step for ever (c142_count, c142_odd_fails, c142_garbage_fails); Initialize of the controller brings it back (C41)."
  },
  {
   "property": "C143",
   "status": "partial",
   "theorems": [
    "Atl.Props.c143_quiet_partial",
    "Atl.Props.c143_alone",
    "Atl.Props.c143_abort_undone",
    "Atl.Props.c143_abort_wraps",
    "Atl.Props.c143_overwritten",
    "Atl.Props.c143_lost_fails",
    "Atl.Props.c143_abort_fails",
    "Atl.Props.c143_wraps_fails",
    "Atl.Props.c143_full_claim_is_false",
    "Atl.Props.c143_update_wraps",
    "Atl.Props.c143_update_fails"
   ],
   "note": "Proved for handlers that, while main code is in Wait, call for other ids only (or abort the very delay, not while it is counted down), do not update the time, and start no delay while main code has seen a free entry that it has not claimed. False without these: the handler's delay is lost (c143_overwritten, c143_lost_fails), the abort is undone (c143_abort_undone, c143_abort_fails), or almost 2^32 units are left of the aborted delay (c143_abort_wraps, c143_wraps_fails). c143_alone: without handlers the access by access Wait is the Wait of C24-C26. An element of the tables is read and written in one step in the model; byte by byte access, as on AVR, would add further bad interleavings.  A handler's Update between comparison and subtraction can wrap the remaining time too (c143_update_wraps, c143_update_fails)."
  },
  {
   "property": "C144",
   "status": "partial",
   "theorems": [
    "Atl.Props.c144_apart_partial",
    "Atl.Props.c144_alone_put",
    "Atl.Props.c144_alone_take",
    "Atl.Props.c144_kept_tested",
    "Atl.Props.c144_kept_stored",
    "Atl.Props.c144_last_room",
    "Atl.Props.c144_reloaded_stored",
    "Atl.Props.c144_kept_counted",
    "Atl.Props.c144_got",
    "Atl.Props.c144_last_value",
    "Atl.Props.c144_writers_fails",
    "Atl.Props.c144_invented_fails",
    "Atl.Props.c144_readers_fails",
    "Atl.Props.c144_full_claim_is_false"
   ],
   "note": "Proved for handlers that do not write while main code is in Write and do not read while it is in Read (they may do the opposite), and, when the pointer is loaded again for each use, also directly behind main code's test if there is room for two values, or there are two. False at every other place; for each of them the exact outcome is a theorem for all contents: a value for which Write returned true is lost (c144_kept_tested, c144_kept_stored), everything held is lost (c144_last_room), an old value appears (c144_reloaded_stored), a value is read twice (c144_kept_counted, c144_got), the buffer is full of old values (c144_last_value). Taken as one step: the overrun test, getLength, and increment with wrap (C04 and C107 take them apart for one writer and one reader)."
  },
  {
   "property": "C145",
   "status": "partial",
   "theorems": [
    "Atl.Props.c145_outside_partial",
    "Atl.Props.c145_balance",
    "Atl.Props.c145_counted_twice",
    "Atl.Props.c145_alone",
    "Atl.Props.c145_places",
    "Atl.Props.c145_twice_fails",
    "Atl.Props.c145_full_claim_is_false"
   ],
   "note": "Proved for handlers outside main code's Update. For all histories the exact sum is a theorem: the time passed plus the deltas reported to handlers inside main code's Update, which are counted twice (c145_counted_twice, for less than 2^32 ticks; c145_balance modulo 2^32 for any length). So the claim holds exactly when these are zero. A 32-bit member is accessed in one step in the model."
  },
  {
   "property": "C146",
   "status": "partial",
   "theorems": [
    "Atl.Props.c146_read_partial",
    "Atl.Props.c146_heard_partial",
    "Atl.Props.c146_composed",
    "Atl.Props.c146_low_first",
    "Atl.Props.c146_high_first",
    "Atl.Props.c146_handler_reads",
    "Atl.Props.c146_one_update",
    "Atl.Props.c146_one_update_iff",
    "Atl.Props.c146_main_updates",
    "Atl.Props.c146_heard",
    "Atl.Props.c146_alone",
    "Atl.Props.c146_read_fails",
    "Atl.Props.c146_backwards_fails",
    "Atl.Props.c146_heard_fails",
    "Atl.Props.c146_update_fails",
    "Atl.Props.c146_full_claim_is_false"
   ],
   "note": "Proved when only the lowest byte changes during the access. For all histories without a wrap of the 32-bit counter the exact make-up of a reading is a theorem, with the sharp bounds: low byte first a reading is never early and less than 2^24 ticks late, high byte first the reverse; for one update the reading is right exactly when the bytes already read have not wrapped. Main code alone in updating always reports the right deltas. When both update, only failing histories are given here (C145 has the balance for undivided accesses)."
  },
  {
   "property": "C147",
   "status": "partial",
   "theorems": [
    "Atl.Props.c147_read_partial",
    "Atl.Props.c147_heard",
    "Atl.Props.c147_told",
    "Atl.Props.c147_handlers_update",
    "Atl.Props.c147_main_updates",
    "Atl.Props.c147_one_update",
    "Atl.Props.c147_two_updates",
    "Atl.Props.c147_alone",
    "Atl.Props.c147_read_fails",
    "Atl.Props.c147_heard_fails",
    "Atl.Props.c147_full_claim_is_false"
   ],
   "note": "Update's answers are proved for both roles. A reading of main code is proved when no handler updates between its two loads, and for every history it is given in true times (c147_handlers_update); with one update in between it is 0 or the last two periods together. A reading of a handler is right except between main code's two stores in Update, where it is 0 (c147_heard). Members are accessed in one step here (C146 has the bytes); both sides updating is C145."
  },
  {
   "property": "C148",
   "status": "partial",
   "theorems": [
    "Atl.Props.c148_order_partial",
    "Atl.Props.c148_received_partial",
    "Atl.Props.c148_sent",
    "Atl.Props.c148_alone",
    "Atl.Props.c148_intrude_fails",
    "Atl.Props.c148_store_fails",
    "Atl.Props.c148_full_claim_is_false"
   ],
   "note": "Proved when handlers write real-time messages in the middle of main code's bytes and any messages elsewhere, up to the store of the running status: each message arrives once, main code's and the in-between ones in the order in which they were decided, the others at their byte. False otherwise: a channel message in the middle of main code's bytes is misread or lost (c148_intrude_fails), and one between the store of the running status and the status byte is lost or makes the reader attribute later data to the wrong status (c148_store_fails)."
  },
  {
   "property": "C149",
   "status": "partial",
   "theorems": [
    "Atl.Props.c149_exact",
    "Atl.Props.c149_last_partial",
    "Atl.Props.c149_log",
    "Atl.Props.c149_undisturbed",
    "Atl.Props.c149_clean_partial",
    "Atl.Props.c149_look",
    "Atl.Props.c149_look_partial",
    "Atl.Props.c149_alone",
    "Atl.Props.c149_lost_fails",
    "Atl.Props.c149_glitch_fails",
    "Atl.Props.c149_torn_fails",
    "Atl.Props.c149_full_claim_is_false"
   ],
   "note": "c149_exact says for every history which calls count: all but the handlers' calls between main code's load and store of the byte. Bits that handlers do not change are right whatever the handlers do to the others (c149_last_partial). False: such a handler's call is lost, with words of several bytes also one about another byte (c149_lost_fails); Set(i, true) and fields flicker if the compiler does not join the two assignments (c149_glitch_fails); readings over several bytes are torn (c149_torn_fails). Shifts and Reverse are not in this model; indices from bit 15 of a 32-bit word on are C06."
  },
  {
   "property": "C15",
   "status": "proved",
   "theorems": [
    "Atl.Props.c15_cyclic",
    "Atl.Props.c15_full_turn",
    "Atl.Props.c15_from_reset",
    "Atl.Props.c15_empty"
   ],
   "note": ""
  },
  {
   "property": "C150",
   "status": "partial",
   "theorems": [
    "Atl.Props.c150_list_partial",
    "Atl.Props.c150_calls",
    "Atl.Props.c150_one_stays",
    "Atl.Props.c150_find_partial",
    "Atl.Props.c150_add_alone",
    "Atl.Props.c150_find_alone",
    "Atl.Props.c150_lost_fails",
    "Atl.Props.c150_garbage_fails",
    "Atl.Props.c150_overfull_fails",
    "Atl.Props.c150_early_fails",
    "Atl.Props.c150_find_fails",
    "Atl.Props.c150_full_claim_is_false"
   ],
   "note": "c150_list_partial: true when handlers only call SetAt while main code is in Add (and anything elsewhere), also in the middle of Add unless the compiler stores the count first. c150_one_stays: with the count loaded once, exactly one item of all those added during one Add stays, and which. c150_find_partial: with handlers that only add, IndexOf returns the result for the list at one moment. False: items are lost (c150_lost_fails), there is an item nobody added (c150_garbage_fails, c150_early_fails), the count exceeds the capacity (c150_overfull_fails), IndexOf misses an item that is moved (c150_find_fails). The count and items are accessed in one step."
  },
  {
   "property": "C151",
   "status": "partial",
   "theorems": [
    "Atl.Props.c151_apart",
    "Atl.Props.c151_defined",
    "Atl.Props.c151_mains",
    "Atl.Props.c151_kept",
    "Atl.Props.c151_prompt",
    "Atl.Props.c151_no_more",
    "Atl.Props.c151_collection",
    "Atl.Props.c151_bits",
    "Atl.Props.c151_midi",
    "Atl.Props.c151_ring",
    "Atl.Props.c151_clock",
    "Atl.Props.c151_delays",
    "Atl.Props.c151_display",
    "Atl.Props.c151_motors",
    "Atl.Props.c151_starved_fails",
    "Atl.Props.c151_nested_fails",
    "Atl.Props.c151_merged_fails",
    "Atl.Props.c151_restored_fails",
    "Atl.Props.c151_full_claim_is_false"
   ],
   "note": "True for sections that are not nested (Sectioned): the object sees a history in which calls do not overlap (c151_apart), and so all that C141 to C150 say only of harmless handlers holds for all handlers: c151_collection, c151_bits, c151_midi, c151_ring, c151_clock, c151_delays, c151_display, c151_motors. A request stays until its handler runs (c151_kept), which it does at the first opportunity (c151_prompt), at most one run per request (c151_no_more). False: the end of an inner section turns interrupts on in the outer one and an item is lost (c151_nested_fails), a section in code that was called with interrupts off turns them on (c151_restored_fails), requests of a source during a section become one (c151_merged_fails), and with sections immediately behind each other no handler ever runs (c151_starved_fails). Handlers run as a whole and do not call EnableAll."
  },
  {
   "property": "C152",
   "status": "partial",
   "theorems": [
    "Atl.Props.c152_order_partial",
    "Atl.Props.c152_drain_partial",
    "Atl.Props.c152_handler_partial",
    "Atl.Props.c152_room",
    "Atl.Props.c152_sections",
    "Atl.Props.c152_kept_fails",
    "Atl.Props.c152_lost_fails",
    "Atl.Props.c152_garbage_fails",
    "Atl.Props.c152_overrun_fails",
    "Atl.Props.c152_full_claim_is_false",
    "Atl.Props.c152_calls"
   ],
   "note": "True if other handlers write only while main code is not between the overrun test and the store of the write pointer of the ring buffer's Write (Calm; in between only directly behind the test, with the pointer loaded again and room for two): c152_order_partial, c152_drain_partial; writes in the middle of the change of UCSRnB do no harm. So it is true of main code that writes with interrupts off (c152_sections); such a section takes exactly the bytes there is room for and drops the others (c152_room). False otherwise: with the pointer kept every such write costs a byte (c152_kept_fails, for all histories; c152_lost_fails), with the pointer loaded again a byte nobody wrote is sent (c152_garbage_fails) or the whole content is lost (c152_overrun_fails). Pointers are loaded and stored in one step (bytewise: C107, C138). The completed writes are those asked for, each writer in its own order (c152_calls)."
  },
  {
   "property": "C153",
   "status": "partial",
   "theorems": [
    "Atl.Props.c153_heard_partial",
    "Atl.Props.c153_sections",
    "Atl.Props.c153_note_fails",
    "Atl.Props.c153_clock_fails",
    "Atl.Props.c153_room_fails",
    "Atl.Props.c153_full_claim_is_false"
   ],
   "note": "True if handlers write at the moments harmless to the stream (Calm, C152), so in particular of main code that writes each byte with interrupts off (c153_sections); the clock may come anywhere in a message. False otherwise: another note is played (c153_note_fails, whatever the note left in the buffer), or the clock is lost (c153_clock_fails). The condition that no byte is refused is needed: a clock can take the place of a message's last byte and two notes become one (c153_room_fails). The line is taken to be without errors (C131, C132 for the line itself)."
  },
  {
   "property": "C154",
   "status": "partial",
   "theorems": [
    "Atl.Props.c154_order_partial",
    "Atl.Props.c154_calls",
    "Atl.Props.c154_next_partial",
    "Atl.Props.c154_sections",
    "Atl.Props.c154_kept_fails",
    "Atl.Props.c154_again_fails",
    "Atl.Props.c154_full_claim_is_false"
   ],
   "note": "True if handlers read only while main code is not in the middle of the ring buffer's Read (Calm); they may read in the middle of the change of the control register. Main code that reads with interrupts off meets this (c154_sections). Otherwise false at every such moment of every history: both get the same byte (c154_kept_fails), or both get it and the next one is lost or the buffer seems full of old bytes (c154_again_fails). Bytes received while the buffer is full are lost (C76). getLength and the pointers are single accesses here (bytewise: C107, C138)."
  },
  {
   "property": "C155",
   "status": "partial",
   "theorems": [
    "Atl.Props.c155_order_partial",
    "Atl.Props.c155_drain_partial",
    "Atl.Props.c155_calls",
    "Atl.Props.c155_sections",
    "Atl.Props.c155_stuck_fails",
    "Atl.Props.c155_deaf_fails",
    "Atl.Props.c155_full_claim_is_false"
   ],
   "note": "True with handlers' calls at harmless moments (Harmless): as in C152 and C154 for the buffers, and not while main code is about to store a copy of UCSRnB that lacks what the handler turns on. Main code that calls with interrupts off meets this (c155_sections). Otherwise false, at every such moment of every history: a byte written by a handler during main code's Read is taken and never sent until somebody writes again (c155_stuck_fails); a handler's Read during main code's Write leaves the receive interrupt off, and nothing is received until somebody reads again (c155_deaf_fails). getLength and the pointers are single accesses here (bytewise: C107, C138)."
  },
  {
   "property": "C156",
   "status": "partial",
   "theorems": [
    "Atl.Props.c156_merge_partial",
    "Atl.Props.c156_lines_partial",
    "Atl.Props.c156_sections",
    "Atl.Props.c156_torn_fails",
    "Atl.Props.c156_number_fails",
    "Atl.Props.c156_full_claim_is_false"
   ],
   "note": "True if main code and handlers do not print at the same time and the buffer has room (c156_lines_partial); the transmit interrupt may come at any moment. Main code that prints between EnableAll(false) and EnableAll() meets this: the line carries its texts and those of the handlers that ran, in order and each in one piece (c156_sections). With only the single characters protected the line carries the characters of both, each in their order (c156_merge_partial), and no more than that: any text of a handler can stand between any two characters (c156_torn_fails), so that a reader sees a number nobody printed (c156_number_fails: 42 and 7 as 472). Main code hands out the characters of its items; the computation between them is not interleaved, as it touches nothing handlers see."
  },
  {
   "property": "C157",
   "status": "partial",
   "theorems": [
    "Atl.Props.c157_bits",
    "Atl.Props.c157_bytes",
    "Atl.Props.c157_byte_partial",
    "Atl.Props.c157_read_around",
    "Atl.Props.c157_read_once",
    "Atl.Props.c157_counter",
    "Atl.Props.c157_store_around",
    "Atl.Props.c157_store_once",
    "Atl.Props.c157_change",
    "Atl.Props.c157_lost_fails",
    "Atl.Props.c157_two_calls_fails",
    "Atl.Props.c157_sections",
    "Atl.Props.c157_full_claim_is_false"
   ],
   "note": "True of reads and assignments of one byte (c157_byte_partial), and of everything main code does with interrupts off (c157_sections). In general every byte of what is read was there at some moment of the call (c157_bytes); with one store of a handler the result is the old or the new value at every moment exactly if no two bytes change (c157_read_once; the other way round c157_store_once), for a counter exactly if the low byte does not overflow (c157_counter: 255 counted up to 256 reads as 511 or 0). Of |= and &= in any history it is said byte by byte what is lost (c157_change); compiled to loads and then stores everything in between is (c157_lost_fails). volatile does not change this. Reading, computing and storing in two protected calls loses too (c157_two_calls_fails). For Data every operator is taken to access the memory; not being volatile it promises less."
  },
  {
   "property": "C158",
   "status": "partial",
   "theorems": [
    "Atl.Props.c158_alone",
    "Atl.Props.c158_returns",
    "Atl.Props.c158_order_partial",
    "Atl.Props.c158_count",
    "Atl.Props.c158_eight",
    "Atl.Props.c158_lost_fails",
    "Atl.Props.c158_ninth_fails",
    "Atl.Props.c158_sections",
    "Atl.Props.c158_full_claim_is_false"
   ],
   "note": "True if handlers write only while main code is outside of its calls or has not yet seen the data register empty (c158_order_partial), so also if main code writes with interrupts off (c158_sections). In any history exactly as many successful writes are lost as main code stored to a full data register (c158_count); with at most eight bits the line is right exactly if there is no such store (c158_eight). A handler's TryWrite between the test and the store of main code's Write takes its place although both report success (c158_lost_fails); in nine bit mode main code's value can get the handler's ninth bit (c158_ninth_fails). Handlers' calls run as a whole; nothing is received meanwhile."
  },
  {
   "property": "C159",
   "status": "partial",
   "theorems": [
    "Atl.Props.c159_alone",
    "Atl.Props.c159_returns",
    "Atl.Props.c159_order_partial",
    "Atl.Props.c159_count",
    "Atl.Props.c159_empty_fails",
    "Atl.Props.c159_mixed_fails",
    "Atl.Props.c159_ninth_fails",
    "Atl.Props.c159_sections",
    "Atl.Props.c159_full_claim_is_false"
   ],
   "note": "True if handlers read only while main code is outside of its calls or has not yet seen a frame (c159_order_partial), so also if main code reads with interrupts off (c159_sections). In any history the low eight bits of every frame that left the receiver were returned by some call, in order; the other reports of data are exactly those in which main code loaded from an empty register (c159_count, c159_empty_fails). With a handler's TryRead between getResult and the load main code gets the data of one frame with the errors of the one before, so a damaged frame can be reported as Success (c159_mixed_fails), or the ninth bit of one with the low bits of the next (c159_ninth_fails). Handlers' calls run as a whole; what an empty data register gives is not defined by the data sheet, 0 in the model."
  },
  {
   "property": "C16",
   "status": "proved",
   "theorems": [
    "Atl.Props.c16_membership",
    "Atl.Props.c16_normalize",
    "Atl.Props.c16_clip",
    "Atl.Props.c16_reversed_clip",
    "Atl.Props.c16_clip_nearest"
   ],
   "note": ""
  },
  {
   "property": "C160",
   "status": "partial",
   "theorems": [
    "Atl.Props.c160_safe",
    "Atl.Props.c160_chars",
    "Atl.Props.c160_look",
    "Atl.Props.c160_look_once",
    "Atl.Props.c160_copy_around",
    "Atl.Props.c160_copy_once",
    "Atl.Props.c160_mixture_fails",
    "Atl.Props.c160_print_around",
    "Atl.Props.c160_print_once",
    "Atl.Props.c160_sections",
    "Atl.Props.c160_full_claim_is_false"
   ],
   "note": "Memory is safe in every history: the last zero is never overwritten (c160_safe), no text read is longer than the capacity and each of its characters stood at the same place of one of the texts used (c160_chars). Whole texts are not: c160_look, c160_copy_around and c160_print_around give the mixture for every place of the handler, and c160_look_once, c160_copy_once and c160_print_once say exactly for which pairs of texts no mixture can be seen. The mixture of two copies stays in the string (c160_mixture_fails). With interrupts off around main code's calls the claim is true (c160_sections). Handlers' calls run as a whole; each character is loaded once."
  },
  {
   "property": "C161",
   "status": "partial",
   "theorems": [
    "Atl.Props.c161_new",
    "Atl.Props.c161_scan",
    "Atl.Props.c161_joined",
    "Atl.Props.c161_glitch_fails",
    "Atl.Props.c161_unknown_fails",
    "Atl.Props.c161_sections",
    "Atl.Props.c161_full_claim_is_false"
   ],
   "note": "The scan is not disturbed and returns what it returns undisturbed (c161_scan). A handler gets the state before the call, the one behind it, or the raw level of the pin, and also stateUnknown unless the compiler joins the two assignments of BitArray::Set (c161_scan, c161_joined). Whenever debouncing starts there is a moment at which a handler gets the raw level, and without joining one at which it gets stateUnknown (c161_glitch_fails, c161_unknown_fails), so the second half of the claim is false. With interrupts off around ScanButton it is true (c161_sections). A new button is stateUnknown for handlers (c161_new). Simplified: the delay table belongs to main code, one level of the pin per call."
  },
  {
   "property": "C162",
   "status": "partial",
   "theorems": [
    "Atl.Props.c162_value",
    "Atl.Props.c162_order_partial",
    "Atl.Props.c162_twice_fails",
    "Atl.Props.c162_stale_fails",
    "Atl.Props.c162_heals",
    "Atl.Props.c162_sections",
    "Atl.Props.c162_full_claim_is_false"
   ],
   "note": "True if no handler reads between main code's reading of the pin and its return (c162_order_partial), so also if main code reads with interrupts off (c162_sections). In every history the value is the one last reported as new, so no change of the value goes unreported, and every level reported was at the pin (c162_value). A handler between load and store makes one change be reported twice (c162_twice_fails); one between the reading of the pin and the load makes main code report an old level as new and leave it as the value (c162_stale_fails), until the next undisturbed call (c162_heals). Handlers' calls run as a whole."
  },
  {
   "property": "C163",
   "status": "partial",
   "theorems": [
    "Atl.Props.c163_alone",
    "Atl.Props.c163_ask_mode",
    "Atl.Props.c163_ask_bounds",
    "Atl.Props.c163_ask_switch",
    "Atl.Props.c163_ask_once",
    "Atl.Props.c163_normalize_fails",
    "Atl.Props.c163_normalize_half_fails",
    "Atl.Props.c163_set_once",
    "Atl.Props.c163_stale_fails",
    "Atl.Props.c163_lasting_fails",
    "Atl.Props.c163_sections",
    "Atl.Props.c163_full_claim_is_false"
   ],
   "note": "True for handlers that only call SetAny and SetNone (c163_ask_switch), and if main code uses the container with interrupts off (c163_sections). With SetRange on the one side and IsInRange on the other it is true for all values exactly if the old and the new range overlap or touch (c163_ask_once, c163_set_once); otherwise values between the ranges are accepted. A handler's Normalize, that changes no answer, makes main code be told that a value is not in the range although it is (c163_normalize_fails); a handler asking in the middle of main code's Normalize is told so of every value but the old _begin (c163_normalize_half_fails). A handler that asks while main code gives a new container its first range is answered from uninitialised memory (c163_stale_fails). Two SetRange at once can leave a range nobody has set (c163_lasting_fails). One access for a value (one-byte T); handlers' calls run as a whole; main code's Normalize loads both bounds in one access."
  },
  {
   "property": "C164",
   "status": "partial",
   "theorems": [
    "Atl.Props.c164_effects",
    "Atl.Props.c164_page_partial",
    "Atl.Props.c164_give_torn",
    "Atl.Props.c164_invoke_torn",
    "Atl.Props.c164_give_once",
    "Atl.Props.c164_invoke_once",
    "Atl.Props.c164_third_fails",
    "Atl.Props.c164_wild_fails",
    "Atl.Props.c164_sections",
    "Atl.Props.c164_full_claim_is_false"
   ],
   "note": "True in every history if the addresses have the same high byte (c164_page_partial), and if main code uses the delegate with interrupts off (c164_sections). For one change and one call it is true wherever the handler comes exactly if the two addresses have a byte in common (c164_give_once, c164_invoke_once); otherwise the method is called on an address made of both, which is another object (c164_third_fails) or none (undefined, c164_wild_fails). In every defined history each object is what the calls made of it have made of it (c164_effects). Handlers' calls, and the method main code calls, run as a whole; methods touch only their own object; loads and stores take the bytes in the same order."
  },
  {
   "property": "C165",
   "status": "partial",
   "theorems": [
    "Atl.Props.c165_safe",
    "Atl.Props.c165_ends",
    "Atl.Props.c165_adds_partial",
    "Atl.Props.c165_items_partial",
    "Atl.Props.c165_default_fails",
    "Atl.Props.c165_skip_fails",
    "Atl.Props.c165_sections",
    "Atl.Props.c165_full_claim_is_false"
   ],
   "note": "Every history is defined (c165_safe) and every loop ends after at most three accesses for each place of the array and one more (c165_ends), whatever handlers do. If handlers only add, the loop gets the items there are at its end, each once and in order, also those added on the way (c165_adds_partial); with interrupts off those there were at its beginning (c165_sections). If handlers add and replace but do not clear, the loop gets nothing that was never an item and as many items as there are at its end (c165_items_partial). With a handler's Clear main code gets the default value as an item (c165_default_fails), or ends without having got an item that is in the collection (c165_skip_fails). _count and an item are accessed in one step; handlers' calls run as a whole and do not move the iterator."
  },
  {
   "property": "C17",
   "status": "proved",
   "theorems": [
    "Atl.Props.c17_modes",
    "Atl.Props.c17_getters",
    "Atl.Props.c17_normalize_ordered"
   ],
   "note": ""
  },
  {
   "property": "C18",
   "status": "proved",
   "theorems": [
    "Atl.Props.c18_round_trip",
    "Atl.Props.c18_targets",
    "Atl.Props.c18_every_message_expressible"
   ],
   "note": "Every list of writer calls, every layout of the union (AVR packed and 32-bit aligned are instances)."
  },
  {
   "property": "C19",
   "status": "proved",
   "theorems": [
    "Atl.Props.c19_realtime_transparent",
    "Atl.Props.c19_lost_in_sysex"
   ],
   "note": "Outside SysEx as stated; c19_lost_in_sysex shows the condition is needed."
  },
  {
   "property": "C20",
   "status": "partial",
   "theorems": [
    "Atl.Props.c20_recovers_when_idle_partial",
    "Atl.Props.c20_recovers_iff_idle",
    "Atl.Props.c20_resync_partial",
    "Atl.Props.c20_interrupted_message_fails",
    "Atl.Props.c20_deaf_after_sysex_fails",
    "Atl.Props.c20_full_claim_is_false"
   ],
   "note": "The full claim is false: a status byte that interrupts a message is dropped and the reader is deaf after F0. Proved: exact characterisation (recovers iff between messages) and resynchronisation after at most two data bytes."
  },
  {
   "property": "C21",
   "status": "proved",
   "theorems": [
    "Atl.Props.c21_codec",
    "Atl.Props.c21_every_status",
    "Atl.Props.c21_new"
   ],
   "note": ""
  },
  {
   "property": "C22",
   "status": "partial",
   "theorems": [
    "Atl.Props.c22_classification_partial",
    "Atl.Props.c22_length",
    "Atl.Props.c22_type",
    "Atl.Props.c22_pitch_bend_fails"
   ],
   "note": "IsChannelMessage is false for E1..EF; everything else is proved for all 256 bytes."
  },
  {
   "property": "C23",
   "status": "partial",
   "theorems": [
    "Atl.Props.c23_receiver_partial",
    "Atl.Props.c23_status_omitted_partial",
    "Atl.Props.c23_tune_request_shortcut_fails"
   ],
   "note": "False only for Write(TuneRequest), which does not cancel the running status."
  },
  {
   "property": "C24",
   "status": "partial",
   "theorems": [
    "Atl.Props.c24_waits_partial",
    "Atl.Props.c24_expires_partial",
    "Atl.Props.c24_exact",
    "Atl.Props.c24_capacity_exact",
    "Atl.Props.c24_any_history",
    "Atl.Props.c24_abort",
    "Atl.Props.c24_id_zero_fails"
   ],
   "note": "Holds for every id except 0 and with room in the table; id 0 collides with the empty marker (proved counterexample). c24_exact: every history within capacity, whatever the number of Wait calls per update, against a map from ids to remaining times. c24_capacity_exact: every history with nonzero ids, however many different ones, against a notebook with a limited number of lines. c24_any_history: every history whatever, id 0 included."
  },
  {
   "property": "C25",
   "status": "proved",
   "theorems": [
    "Atl.Props.c25_any_history",
    "Atl.Props.c25_independent",
    "Atl.Props.c25_id_zero_fails"
   ],
   "note": "c25_id_zero_fails: what a client with id 0 sees does depend on the others."
  },
  {
   "property": "C26",
   "status": "partial",
   "theorems": [
    "Atl.Props.c26_within_capacity_partial",
    "Atl.Props.c26_wait_iff",
    "Atl.Props.c24_capacity_exact",
    "Atl.Props.c24_any_history",
    "Atl.Props.c26_full_table_fails"
   ],
   "note": "False without a capacity guard: Wait on a full table writes outside the arrays. c26_wait_iff gives the exact condition on the memory, c24_capacity_exact on the history: exactly the histories with nonzero ids go wrong in which at some moment one more delay is started than there are slots; c24_any_history includes id 0."
  },
  {
   "property": "C27",
   "status": "proved",
   "theorems": [
    "Atl.Props.c27_deltas",
    "Atl.Props.c27_timeEx",
    "Atl.Props.c27_lastDelta",
    "Atl.Props.c27_getDeltaTime_truncates_fails"
   ],
   "note": "The 32-bit result of Update; the 16-bit getDeltaTime truncates (proved)."
  },
  {
   "property": "C28",
   "status": "partial",
   "theorems": [
    "Atl.Props.c28_never_early_partial",
    "Atl.Props.c28_fires_in_time_partial",
    "Atl.Props.c28_exact",
    "Atl.Props.c28_repeated_execute_fails",
    "Atl.Props.task_first"
   ],
   "note": "Proved for at most one Execute per time update (and a nonzero id within capacity); with more the same delta is counted again (proved counterexample). c28_exact: when it fires under every schedule, any number of Execute calls per update."
  },
  {
   "property": "C29",
   "status": "proved",
   "theorems": [
    "Atl.Props.c29_c30_legal_reports",
    "Atl.Props.c29_no_fast_change",
    "Atl.Props.c29_settles",
    "Atl.Props.c29_repeated_scan_fails",
    "Atl.Props.packed_fields",
    "Atl.Props.c29_exact"
   ],
   "note": "At most one scan per time update, as in the quantifier (a sequence of levels and deltas); with several scans per update the same delta is counted again (proved). c29_exact: what is reported in every history, also with several scans per update: every scan takes the last update off what is left to wait."
  },
  {
   "property": "C30",
   "status": "proved",
   "theorems": [
    "Atl.Props.c29_c30_legal_reports",
    "Atl.Props.c29_exact"
   ],
   "note": "Same theorem as C29: the legality relation covers hold. c29_exact: exact for every history."
  },
  {
   "property": "C31",
   "status": "proved",
   "theorems": [
    "Atl.Props.c31_edges",
    "Atl.Props.c31_parity"
   ],
   "note": ""
  },
  {
   "property": "C32",
   "status": "partial",
   "theorems": [
    "Atl.Props.c32_u16_exact_iff",
    "Atl.Props.c32_u32_exact_iff",
    "Atl.Props.c32_unsigned_partial",
    "Atl.Props.c32_i16_decimal_partial",
    "Atl.Props.c32_i32_decimal_partial",
    "Atl.Props.c32_signed_other_base",
    "Atl.Props.numeral_unique",
    "Atl.Props.c32_base2_fails",
    "Atl.Props.c32_smallest_fails",
    "Atl.Props.c32_base_fallback_fails"
   ],
   "note": "Exact characterisation for bases 2..36; buffer overflow in bases 2 and 3 and signed overflow at the smallest value are proved counterexamples."
  },
  {
   "property": "C33",
   "status": "partial",
   "theorems": [
    "Atl.Props.c33_string_partial",
    "Atl.Props.c33_line",
    "Atl.Props.c33_char_is_number",
    "Atl.Props.c33_char_fails",
    "Atl.Props.c33_null_fails",
    "Atl.Props.c33_string_exact"
   ],
   "note": "Strings: proved. Write(char) never writes the character (all 256 proved); NULL is dereferenced. c33_string_exact: for every memory the call is defined exactly if there is a terminator, and what is written is what precedes the first one."
  },
  {
   "property": "C34",
   "status": "partial",
   "theorems": [
    "Atl.Props.c34_exact_partial",
    "Atl.Props.c34_float_partial",
    "Atl.Props.c34_float_nearest",
    "Atl.Props.c34_formats",
    "Atl.Props.c34_ties",
    "Atl.Props.c34_binary_fails",
    "Atl.Props.c34_too_large_fails",
    "Atl.Props.c34_float_exact",
    "Atl.Props.c34_correct_iff",
    "Atl.Props.c34_default_ties",
    "Atl.Props.c34_small_sum_fails"
   ],
   "note": "Proved in exact arithmetic, and in every binary floating point arithmetic up to an error term; without it false (0.375 is written as 0.37, proved). c34_float_exact: from a sum of four on (and without decimals for every number) the text is the rounded sum of the number and half a unit, cut exactly; c34_correct_iff: when that is the correctly rounded number; c34_default_ties: how every half-way value is written in the default format on AVR. Below a sum of four the digits themselves can be wrong as well (0.69499999 is written as 0.70, c34_small_sum_fails)."
  },
  {
   "property": "C35",
   "status": "partial",
   "theorems": [
    "Atl.Props.c35_output_in_range",
    "Atl.Props.c35_integrator_partial",
    "Atl.Props.c35_unwinds_at_once",
    "Atl.Props.c35_zero_outside_fails",
    "Atl.Props.c35_uninitialised_fails"
   ],
   "note": "Output: proved for every arithmetic (also overflowing). Integrator: proved when the range contains zero and the memory starts in range; both conditions are shown to be necessary."
  },
  {
   "property": "C36",
   "status": "proved",
   "theorems": [
    "Atl.Props.c36_order",
    "Atl.Props.c36_dead_band_any",
    "Atl.Props.c36_formula",
    "Atl.Props.c36_dead_band"
   ],
   "note": "Order independence and dead band for every arithmetic, filter, state and time step; the formula in exact arithmetic."
  },
  {
   "property": "C37",
   "status": "partial",
   "theorems": [
    "Atl.Props.c37_word_shown_partial",
    "Atl.Props.c37_wide_word_fails",
    "Atl.Props.c37_defined_iff"
   ],
   "note": "Proved for all words not wider than int; false for 32-bit words on AVR (proved). c37_defined_iff: defined exactly for words not wider than int."
  },
  {
   "property": "C38",
   "status": "partial",
   "theorems": [
    "Atl.Props.c38_never_returns_fails",
    "Atl.Props.c38_never_latches_fails",
    "Atl.Props.c38_first_pass_partial"
   ],
   "note": "False: the loop never ends. Proved: the first pass clocks the bits in order."
  },
  {
   "property": "C39",
   "status": "proved",
   "theorems": [
    "Atl.Props.c39_delivery",
    "Atl.Props.c39_device",
    "Atl.Props.c39_constructor"
   ],
   "note": "Every sequence of bytes and any prior levels with Enable high (the constructor establishes it from any levels)."
  },
  {
   "property": "C40",
   "status": "proved",
   "theorems": [
    "Atl.Props.c40_delivery",
    "Atl.Props.c40_backlight",
    "Atl.Props.c40_device"
   ],
   "note": ""
  },
  {
   "property": "C41",
   "status": "partial",
   "theorems": [
    "Atl.Props.c41_controller_partial",
    "Atl.Props.c41_view_partial",
    "Atl.Props.c41_lines_partial",
    "Atl.Props.c41_again",
    "Atl.Props.c41_display_off_fails",
    "Atl.Props.c41_rs_high_fails"
   ],
   "note": "Synchronisation proved from every interface state when RS is low; false when RS is high and the display is not in step, and the display is never switched off (both proved)."
  },
  {
   "property": "C42",
   "status": "proved",
   "theorems": [
    "Atl.Props.c42_setter",
    "Atl.Props.c42_history",
    "Atl.Props.reads_exists"
   ],
   "note": ""
  },
  {
   "property": "C43",
   "status": "partial",
   "theorems": [
    "Atl.Props.c43_tracks_partial",
    "Atl.Props.c43_end_to_end_partial",
    "Atl.Props.c43_step",
    "Atl.Props.c43_initialize_fails",
    "Atl.Props.c43_line_end_fails",
    "Atl.Props.c43_last_row_fails",
    "Atl.Props.c43_three_rows_fails",
    "Atl.Props.c43_clear_fails",
    "Atl.Props.c43_recovers",
    "Atl.Props.c43_long_text",
    "Atl.Props.c43_long_text_two_rows"
   ],
   "note": "Proved for all text that fits the rows and columns, down to the pins, and after any history of other operations once the cursor is set again; where a text of any length leaves the view and the display is exact; false at the end of a line, after a line feed in the last row, just after Initialize and after ClearDisplay."
  },
  {
   "property": "C44",
   "status": "partial",
   "theorems": [
    "Atl.Props.c44_scroll_fails",
    "Atl.Props.c44_there_and_back_partial"
   ],
   "note": "False: no scroll ever happens from construction (proved for every history)."
  },
  {
   "property": "C45",
   "status": "proved",
   "theorems": [
    "Atl.Props.c45_send",
    "Atl.Props.c45_accept",
    "Atl.Props.c45_one_byte",
    "Atl.Props.c45_short",
    "Atl.Props.c45_stream"
   ],
   "note": ""
  },
  {
   "property": "C46",
   "status": "partial",
   "theorems": [
    "Atl.Props.c46_distance_partial",
    "Atl.Props.c46_success_iff",
    "Atl.Props.c46_ff_fails",
    "Atl.Props.c46_no_change",
    "Atl.Props.c46_begin"
   ],
   "note": "Exact success condition proved; the claim is false for readings with exactly one byte FF (among them 255 cm), which are treated as the invalid marker."
  },
  {
   "property": "C47",
   "status": "proved",
   "theorems": [
    "Atl.Props.c47_angle",
    "Atl.Props.c47_monotone",
    "Atl.Props.c47_end_points"
   ],
   "note": ""
  },
  {
   "property": "C48",
   "status": "partial",
   "theorems": [
    "Atl.Props.c48_direct_partial",
    "Atl.Props.c48_unambiguous",
    "Atl.Props.c48_speed_zero_fails",
    "Atl.Props.c48_serial",
    "Atl.Props.c48_attach",
    "Atl.Props.c48_serial_null_fails",
    "Atl.Props.c48_direct_exact"
   ],
   "note": "Proved for nonzero speeds and all histories on distinct pins; speed 0 drives the speed line with 1; the shift register variant dereferences NULL before setDataRegister (both proved). With speed 1 instead of 0 it holds for all histories (c48_direct_exact)."
  },
  {
   "property": "C49",
   "status": "partial",
   "theorems": [
    "Atl.Props.c49_controls_partial",
    "Atl.Props.c49_label",
    "Atl.Props.c49_others_partial",
    "Atl.Props.c49_select_fails",
    "Atl.Props.c49_panel_requests",
    "Atl.Props.c49_panel_unselected",
    "Atl.Props.c49_panel_fails",
    "Atl.Props.c49_requests",
    "Atl.Props.c49_exact"
   ],
   "note": "A disabled/hidden input, up/down or text control is untouched by any navigation and focus request, labels never become active, a panel touches only the control it leaves and the one it enters. False: Selected is accepted while disabled; a panel moving over a disabled control enables it (both proved). c49_exact: the state of every control of a panel at every moment, told from where the panel has been; a disabled control stays so until its first visit ends."
  },
  {
   "property": "C50",
   "status": "partial",
   "theorems": [
    "Atl.Props.c50_casts_partial",
    "Atl.Props.c50_panel_up",
    "Atl.Props.c50_panel_fails",
    "Atl.Props.c50_pointer",
    "Atl.Props.c50_numbers"
   ],
   "note": "Exact for Control, InputControl and Page; every control can be cast to Panel (proved), because the type numbers are used as bit masks and 3 = 1 | 2 overlaps."
  },
  {
   "property": "C51",
   "status": "partial",
   "theorems": [
    "Atl.Props.c51_single",
    "Atl.Props.c51_start",
    "Atl.Props.c51_at_most_one",
    "Atl.Props.c51_next_partial",
    "Atl.Props.c51_first_partial",
    "Atl.Props.c51_previous_partial",
    "Atl.Props.c51_visits_partial",
    "Atl.Props.c51_long_fails",
    "Atl.Props.c51_forward",
    "Atl.Props.c51_next_exact",
    "Atl.Props.c51_previous_exact",
    "Atl.Props.c51_visits_exact",
    "Atl.Props.c51_unreached_fails"
   ],
   "note": "One active child: proved for all panels and histories. Order of visits: proved up to 128 children; with more, the 8-bit index makes controls unreachable (proved). For panels of any size the moves are determined exactly: they visit the input controls among the first 128 children in order, and no child from the 129th on is ever current, focused or selected."
  },
  {
   "property": "C52",
   "status": "partial",
   "theorems": [
    "Atl.Props.c52_selected_partial",
    "Atl.Props.c52_focus_fails",
    "Atl.Props.c52_exact"
   ],
   "note": "At most one selected control per page and one active control per line proved for all histories; two lines can each keep a focused control (proved). c52_exact: the state of every control of a page at every moment, told from where its own line has been."
  },
  {
   "property": "C53",
   "status": "partial",
   "theorems": [
    "Atl.Props.c53_step",
    "Atl.Props.c53_history",
    "Atl.Props.c53_fixedString",
    "Atl.Props.c53_no_room_fails",
    "Atl.Props.c53_long_fails"
   ],
   "note": "Proved for every history, iterator and string with nonzero reported capacity. FixedString<256k> reports capacity 0: for FixedString<0> the terminator is edited, a FixedString<256> can only be edited at its first character (proved)."
  },
  {
   "property": "C54",
   "status": "proved",
   "theorems": [
    "Atl.Props.c54_edits",
    "Atl.Props.c54_otherwise",
    "Atl.Props.c54_states",
    "Atl.Props.c54_input_edits",
    "Atl.Props.c54_input_handled"
   ],
   "note": "All histories, any value type."
  },
  {
   "property": "C55",
   "status": "partial",
   "theorems": [
    "Atl.Props.c55_init_partial",
    "Atl.Props.c55_valid",
    "Atl.Props.c55_getBaudRate_partial",
    "Atl.Props.c55_nearest_fails",
    "Atl.Props.c55_truncated_fails",
    "Atl.Props.c55_refused_fails",
    "Atl.Props.c55_deviation_fails",
    "Atl.Props.c55_undefined_fails",
    "Atl.Props.c55_getBaudRate_fails",
    "Atl.Props.c55_init_exact",
    "Atl.Props.c55_getBaudRate_exact"
   ],
   "note": "Proved for rates up to 32768 with a 16-bit quotient: exact success condition, nearest among the settings that are not too slow. False in general: nearest on both sides, truncated quotient, refused producible rates, wrapped deviation, division by zero for 0 (all proved). c55_init_exact: what InitAsync does for every clock and every rate but 0. c55_getBaudRate_exact: the rate modulo 65536, 0 for the fastest setting."
  },
  {
   "property": "C56",
   "status": "partial",
   "theorems": [
    "Atl.Props.c56_fields_partial",
    "Atl.Props.c56_others",
    "Atl.Props.c56_parity_fails",
    "Atl.Props.c56_nine_fails",
    "Atl.Props.c56_mode"
   ],
   "note": "All configurations; even and odd parity are exchanged and nine data bits select a reserved size (proved). c56_mode: the mode bits agree with getMode in every configuration, also one without a baud rate."
  },
  {
   "property": "C57",
   "status": "proved",
   "theorems": [
    "Atl.Props.c57_write",
    "Atl.Props.c57_line",
    "Atl.Props.c57_read"
   ],
   "note": "All values and control registers, over the hardware model of the transmit buffer and receive FIFO."
  },
  {
   "property": "C58",
   "status": "partial",
   "theorems": [
    "Atl.Props.c58_flush_partial",
    "Atl.Props.c58_flush_fails"
   ],
   "note": "False: the loop condition is inverted; proved that Flush never discards anything and does not return on an empty receiver."
  },
  {
   "property": "C59",
   "status": "proved",
   "theorems": [
    "Atl.Props.c59_order",
    "Atl.Props.c59_drain",
    "Atl.Props.c59_accept",
    "Atl.Props.c59_write_steps"
   ],
   "note": "All histories, interrupts also between the loads and stores of Write (the ring buffer write itself is one step, see C04)."
  },
  {
   "property": "C60",
   "status": "partial",
   "theorems": [
    "Atl.Props.c60_direction",
    "Atl.Props.c60_write",
    "Atl.Props.c60_read",
    "Atl.Props.c60_directions",
    "Atl.Props.c60_directionAll",
    "Atl.Props.c60_inputPin",
    "Atl.Props.c60_outputPin",
    "Atl.Props.c60_pullup_partial",
    "Atl.Props.c60_pullup_fails",
    "Atl.Props.c60_outputPin_fails"
   ],
   "note": "EnablePullup ignores its second argument (proved counterexample); the rest proved for all memory contents. Also proved: the output pin constructor drives the old level for a moment."
  },
  {
   "property": "C61",
   "status": "partial",
   "theorems": [
    "Atl.Props.c61_set",
    "Atl.Props.c61_get_fails"
   ],
   "note": "Setter proved; the getter masks with a bit number and reports another peripheral (proved for every content)."
  },
  {
   "property": "C62",
   "status": "proved",
   "theorems": [
    "Atl.Props.c62_coroutine",
    "Atl.Props.c62_yield_once",
    "Atl.Props.c62_wait_immediate",
    "Atl.Props.c62_yield_until"
   ],
   "note": "For all task bodies built from the macros, statements, if, loops, break, continue and nested switch (no macro inside it), all histories of calls; labels (line numbers) distinct, nonzero and representable."
  },
  {
   "property": "C63",
   "status": "partial",
   "theorems": [
    "Atl.Props.c63_goTo",
    "Atl.Props.c63_cursorOff",
    "Atl.Props.c63_setCursor_partial",
    "Atl.Props.c63_setCursor_exact",
    "Atl.Props.c63_setCursor_fails",
    "Atl.Props.c63_setCursor_all",
    "Atl.Props.c63_goTo_all"
   ],
   "note": "GoTo: proved. SetCursor with both coordinates: proved from any position. SetCursor with a don't-care coordinate puts the cursor in the wrong place (proved counterexample). c63_setCursor_all, c63_goTo_all: exact for every pair of coordinates."
  },
  {
   "property": "C64",
   "status": "partial",
   "theorems": [
    "Atl.Props.c64_int32_partial",
    "Atl.Props.c64_int16_partial",
    "Atl.Props.c64_int16_fails",
    "Atl.Props.c64_int16_accum",
    "Atl.Props.c64_int32_defined",
    "Atl.Props.c64_int16_defined_partial",
    "Atl.Props.c64_exact",
    "Atl.Props.c64_process32",
    "Atl.Props.c64_zero_step_fails",
    "Atl.Props.c64_int16_negative_fails",
    "Atl.Props.c64_process16_exact",
    "Atl.Props.c64_process16_partial"
   ],
   "note": "32-bit values: all of Process is the textbook step on unbounded integers when nothing overflows; false for int on AVR when the error falls (division in unsigned int). c64_process16_exact: all of Process for int on AVR: the textbook step with the integral modulo 65536 before clipping and the derivative divided as an unsigned number."
  },
  {
   "property": "C65",
   "status": "partial",
   "theorems": [
    "Atl.Props.c65_delivery_partial",
    "Atl.Props.c65_hangs_fails"
   ],
   "note": "Delivery and non-interference proved for a base class whose Write shows the register; with the library's Serial3WireOutput the call never returns (proved)."
  },
  {
   "property": "C66",
   "status": "partial",
   "theorems": [
    "Atl.Props.c66_out_of_step_fails",
    "Atl.Props.c66_groups_partial",
    "Atl.Props.c66_exact"
   ],
   "note": "False: a single lost byte keeps the stream out of step for ever (proved); losses of whole groups of four bytes cost only these groups. c66_exact: what is read from every stream of bytes, whatever was lost."
  },
  {
   "property": "C67",
   "status": "partial",
   "theorems": [
    "Atl.Props.c67_echo",
    "Atl.Props.c67_wrong_echo",
    "Atl.Props.c67_trigger",
    "Atl.Props.c67_trigger_any",
    "Atl.Props.c67_passive",
    "Atl.Props.c67_silence_fails",
    "Atl.Props.c67_corrupted_fails",
    "Atl.Props.c67_exact"
   ],
   "note": "Echo and wrong answer proved for all arrival patterns; without an answer the call never returns (proved). c67_exact: the result for every stream of answers and every content left over: it is decided by the first frame with a right sum, also if that is a late response to an earlier request; it returns exactly if there is one."
  },
  {
   "property": "C68",
   "status": "partial",
   "theorems": [
    "Atl.Props.c68_temperature_partial",
    "Atl.Props.c68_success_iff",
    "Atl.Props.c68_no_change",
    "Atl.Props.c68_invalid_fails"
   ],
   "note": "False for the invalid marker FFFF, which is delivered as -409.5 degrees (proved). The decoding is proved for the method as intended; as written it calls the misspelled ReceiveRespone and does not compile when instantiated."
  },
  {
   "property": "C69",
   "status": "partial",
   "theorems": [
    "Atl.Props.c69_yield_partial",
    "Atl.Props.c69_return_fails",
    "Atl.Props.c69_wait_fails",
    "Atl.Props.c69_yieldUntil_fails"
   ],
   "note": "False for Return, WaitUntil and YieldUntil (proved); holds for Yield in the proved sense."
  },
  {
   "property": "C70",
   "status": "partial",
   "theorems": [
    "Atl.Props.c70_child_first",
    "Atl.Props.c70_page",
    "Atl.Props.c70_screen",
    "Atl.Props.c70_vertical_fails"
   ],
   "note": "Proved for HorizontalPanel (Line), PageController, Page and for whole screens; VerticalPanel takes Up/Down itself, so no history ever changes an up/down control in it (proved), contrary to its documentation."
  },
  {
   "property": "C71",
   "status": "partial",
   "theorems": [
    "Atl.Props.c71_steps_partial",
    "Atl.Props.c71_kept_partial",
    "Atl.Props.c71_outside_fails",
    "Atl.Props.c71_exact",
    "Atl.Props.c71_written_partial",
    "Atl.Props.c71_zero_fails"
   ],
   "note": "Proved for all histories when the text starts with characters of the set; a character outside the set leaves the iterator behind: Down can write 0, Up continues from another character (proved). c71_exact: what every history of keys does to every text, also outside the set. No character outside the set is ever written if the first character is in the set or the iterator goes round (c71_written_partial); otherwise Down ends the text (c71_zero_fails, every set)."
  },
  {
   "property": "C72",
   "status": "proved",
   "theorems": [
    "Atl.Props.c72_refused",
    "Atl.Props.c72_open",
    "Atl.Props.c72_close"
   ],
   "note": "All memory contents, ports 0 and 1."
  },
  {
   "property": "C73",
   "status": "partial",
   "theorems": [
    "Atl.Props.c73_tryWrite",
    "Atl.Props.c73_flush_partial",
    "Atl.Props.c73_flush_fails"
   ],
   "note": "Flush returns while the last frame is still being sent (proved)."
  },
  {
   "property": "C74",
   "status": "partial",
   "theorems": [
    "Atl.Props.c74_enable_partial",
    "Atl.Props.c74_enable_fails"
   ],
   "note": "Control bits proved; the received data is always lost since the enable bit is cleared first (proved)."
  },
  {
   "property": "C75",
   "status": "proved",
   "theorems": [
    "Atl.Props.c75_notReady",
    "Atl.Props.c75_tryRead",
    "Atl.Props.c75_hasError",
    "Atl.Props.c75_read",
    "Atl.Props.c75_readResult"
   ],
   "note": "All FIFO contents, flags and arrival histories."
  },
  {
   "property": "C76",
   "status": "proved",
   "theorems": [
    "Atl.Props.c76_input",
    "Atl.Props.c76_readEmpty",
    "Atl.Props.c76_exact"
   ],
   "note": "All histories of events; main code and interrupt alternate at call granularity (see C04 for interleaving inside the ring buffer)."
  },
  {
   "property": "C77",
   "status": "partial",
   "theorems": [
    "Atl.Props.c77_pinChange_partial",
    "Atl.Props.c77_timers",
    "Atl.Props.c77_pinChange_fails",
    "Atl.Props.c77_portD_exact"
   ],
   "note": "Port D's mask is never written (proved counterexample); ports A to C and the timers proved. c77_portD_exact: what happens for port D."
  },
  {
   "property": "C78",
   "status": "proved",
   "theorems": [
    "Atl.Props.c78_state",
    "Atl.Props.c78_names",
    "Atl.Props.c78_readings"
   ],
   "note": "All states; all histories of readings of a new button."
  },
  {
   "property": "C79",
   "status": "partial",
   "theorems": [
    "Atl.Props.c79_length_partial",
    "Atl.Props.c79_length_fails",
    "Atl.Props.c79_length_exact"
   ],
   "note": "Exact below 256 bytes; the result type is uint8_t (counterexample with 256 bytes). In general it is this number modulo 256."
  },
  {
   "property": "C80",
   "status": "proved",
   "theorems": [
    "Atl.Props.c80_page",
    "Atl.Props.c80_controls"
   ],
   "note": "All pages of horizontal lines with the library's controls; where two controls overlap the cell shows one of them."
  },
  {
   "property": "C81",
   "status": "partial",
   "theorems": [
    "Atl.Props.c81_cursor",
    "Atl.Props.c81_controls",
    "Atl.Props.c81_hidden_fails"
   ],
   "note": "Proved for all pages except the last part: the cursor stays on when the current control is hidden (proved counterexample)."
  },
  {
   "property": "C82",
   "status": "partial",
   "theorems": [
    "Atl.Props.c82_rows",
    "Atl.Props.c82_collision_fails",
    "Atl.Props.c82_rows_exact"
   ],
   "note": "Proved when no line has a position of its own; otherwise two lines can share a row (proved counterexample). c82_rows_exact: the rows of any lines."
  },
  {
   "property": "C83",
   "status": "partial",
   "theorems": [
    "Atl.Props.c83_page_partial",
    "Atl.Props.c83_pages_partial",
    "Atl.Props.c83_edit_fails",
    "Atl.Props.c83_text_fails",
    "Atl.Props.c83_blink_fails",
    "Atl.Props.c83_blink_exact"
   ],
   "note": "End to end from Page::Display to the bytes the display executes, all sequences of pages that fit, from any position, text controls being edited included. False for a text control being edited below the first line (wrong line) and when the cursor is taken away after editing (keeps blinking); both proved. c83_blink_exact: after any sequence of pages the display blinks exactly as the last page with a current control left it."
  },
  {
   "property": "C84",
   "status": "partial",
   "theorems": [
    "Atl.Props.c84_history",
    "Atl.Props.c84_delta",
    "Atl.Props.c84_milliseconds",
    "Atl.Props.c84_microseconds_partial",
    "Atl.Props.c84_microseconds_fails",
    "Atl.Props.c84_microseconds_exact"
   ],
   "note": "All histories. False for getMilliseconds of a microseconds clock once the tick counter has wrapped (every later reading is wrong, proved). c84_microseconds_exact: that reading is right exactly in the first 2^32 microseconds of every 1000 * 2^32."
  },
  {
   "property": "C85",
   "status": "partial",
   "theorems": [
    "Atl.Props.c85_shift_partial",
    "Atl.Props.c85_down_up",
    "Atl.Props.c85_shift_fails",
    "Atl.Props.c85_shift_exact"
   ],
   "note": "Proved for shifts below the width; from the width on the shift is undefined for arrays as wide as int (proved). c85_shift_exact covers every shift: what is not undefined is right."
  },
  {
   "property": "C86",
   "status": "partial",
   "theorems": [
    "Atl.Props.c86_flush_partial",
    "Atl.Props.c86_flush_exact",
    "Atl.Props.c86_flush_isr_partial",
    "Atl.Props.c86_flush_fails",
    "Atl.Props.c86_close",
    "Atl.Props.c86_close_exact"
   ],
   "note": "Flush and Close after every history, with the handler and the transmitter running at every place of the call. Right as long as the handler runs between the two stores of Clear no oftener than bytes wait; one run more sends memory that never was written (exact bytes proved, and a counterexample)."
  },
  {
   "property": "C87",
   "status": "proved",
   "theorems": [
    "Atl.Props.c87_pattern"
   ],
   "note": "All patterns, addresses and display states with the increment entry mode the view uses."
  },
  {
   "property": "C88",
   "status": "partial",
   "theorems": [
    "Atl.Props.c88_mode_partial",
    "Atl.Props.c88_mode_fails"
   ],
   "note": "Proved after a successful InitAsync; without one the mode is SyncSlave, never Invalid (proved)."
  },
  {
   "property": "C89",
   "status": "partial",
   "theorems": [
    "Atl.Props.c89_output_partial",
    "Atl.Props.c89_construct",
    "Atl.Props.c89_glitch_fails",
    "Atl.Props.c89_input",
    "Atl.Props.c89_pwm",
    "Atl.Props.c89_pwm_read_fails",
    "Atl.Props.c89_input_shared"
   ],
   "note": "All histories on digital pins. False for the constructor with a value (drives low first) and for getValue of an analog pin (stops the PWM); both proved."
  },
  {
   "property": "C90",
   "status": "partial",
   "theorems": [
    "Atl.Props.c90_read",
    "Atl.Props.c90_null",
    "Atl.Props.c90_clear",
    "Atl.Props.c90_write_partial",
    "Atl.Props.c90_flush_fails"
   ],
   "note": "All contents, arrivals and histories; Flush sends the content instead of removing it (proved)."
  },
  {
   "property": "C91",
   "status": "partial",
   "theorems": [
    "Atl.Props.c91_write_partial",
    "Atl.Props.c91_byte",
    "Atl.Props.c91_long_fails",
    "Atl.Props.c91_write_exact"
   ],
   "note": "Up to 32 bytes; every longer array is cut and still reported as written (proved). c91_write_exact: the first 32 bytes of any array, and true exactly when these were taken."
  },
  {
   "property": "C92",
   "status": "partial",
   "theorems": [
    "Atl.Props.c92_wait_partial",
    "Atl.Props.c92_wait_fails",
    "Atl.Props.c92_wait_exact"
   ],
   "note": "Milliseconds for all times, microseconds below 65536; longer waits are too short (proved). In general microseconds modulo 65536."
  },
  {
   "property": "C93",
   "status": "partial",
   "theorems": [
    "Atl.Props.c93_abs_partial",
    "Atl.Props.c93_smallest_fails"
   ],
   "note": "All values but the smallest, which stays negative or overflows (proved)."
  },
  {
   "property": "C94",
   "status": "partial",
   "theorems": [
    "Atl.Props.c94_read_partial",
    "Atl.Props.c94_length",
    "Atl.Props.c94_read_fails",
    "Atl.Props.c94_read_exact"
   ],
   "note": "Strings that fit; others leave the target unterminated (proved). c94_read_exact: content of the target for every string and length."
  },
  {
   "property": "C95",
   "status": "partial",
   "theorems": [
    "Atl.Props.c95_read_partial",
    "Atl.Props.c95_far_fails",
    "Atl.Props.c95_read_exact"
   ],
   "note": "All tables in the first 64 KB; above another byte is read (proved). c95_read_exact: what is read anywhere."
  },
  {
   "property": "C96",
   "status": "proved",
   "theorems": [
    "Atl.Props.c96_log"
   ],
   "note": "All filters and messages."
  },
  {
   "property": "C97",
   "status": "partial",
   "theorems": [
    "Atl.Props.c97_unique_partial",
    "Atl.Props.c97_nonzero",
    "Atl.Props.c97_unique_fails",
    "Atl.Props.c97_exact"
   ],
   "note": "Objects that do not overlap, 16-bit addresses; an object and its first member share the id (proved). In general ids are equal exactly when the addresses agree modulo 64 KB."
  },
  {
   "property": "C98",
   "status": "partial",
   "theorems": [
    "Atl.Props.c98_busy_partial",
    "Atl.Props.c98_content",
    "Atl.Props.c98_profile_fails",
    "Atl.Props.c98_busy_iff"
   ],
   "note": "All profiles that are slow enough for the processor; the profile of the library is not (proved). The seven conditions on the profile and the speed of the processor are necessary as well: c98_busy_iff shows that all programs leave a busy display alone exactly when they hold (otherwise a program that writes two characters after the start already goes wrong)."
  },
  {
   "property": "C99",
   "status": "proved",
   "theorems": [
    "Atl.Props.c99_lamps",
    "Atl.Props.c99_pace",
    "Atl.Props.c99_period",
    "Atl.Props.c99_drift",
    "Atl.Props.c99_too_many"
   ],
   "note": "The whole example program, any tasks within capacity. With equal rounds the period is exact: the timeout in whole rounds plus one, so it drifts (proved)."
  }
 ]
}