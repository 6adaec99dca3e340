#!/usr/bin/env python3
"""Writes MANIFEST.json from the table below."""
import json, os
C = {}
def claim(pid, status, theorems, note=""):
    C[pid] = dict(property=pid, status=status, theorems=theorems.split(), note=note)

def ns(prefix, names):
    return " ".join(prefix + "." + n for n in names.split())

E = "Verif.Endian"
claim("C12", "proved", ns(E, "changeEndianess16_reverses_bytes changeEndianess32_reverses_bytes changeEndianess16_involutive changeEndianess32_involutive changeEndianess16_injective changeEndianess32_injective"))
claim("C13", "proved", ns(E, "changeEndianess16x2_swaps_halves changeEndianess16x2_involutive"))
claim("C14", "proved", ns(E, "changeEndianessToFloat_roundtrip changeEndianessToFloat_bytes"))
M = "Verif.MemoryView"
claim("C15", "proved", ns(M, "elems_ok subspan_spec first_spec last_spec at_spec subspan_at relems_spec front_back_spec ofArray_elems ofPtrs_elems subspan_take sizeBytes_exact null_view"))
claim("C16", "proved", ns(M, "subspan_subspan first_subspan_partition last_eq_subspan"))

S = "Verif.Storage"
claim("C01", "proved", ns(S, "storage_refines_map get_after_set"))
claim("C02", "proved", ns(S, "reopen_identity reopen_unobservable"))
claim("C03", "proved", ns(S, "set_capacity"))
claim("C04", "partial", ns(S, "open_total open_get_safe open_ops_safe_partial arbitrary_keeps open_one_byte_tail_unsafe one_byte_tail_breaks"), "opening and gets proved safe for every content; histories proved safe unless the last entry found has size 1; for every such region the next new object is proved to be lost and, if the region is small, a look-up to read out of bounds")
claim("C05", "proved", ns(S, "crash_append_keeps_records"))
claim("C06", "proved", ns(S, "crash_overwrite_local"))
claim("C07", "partial", ns(S, "crash_append_atomic_partial crash_append_exact_partial crash_overwrite_one_byte_atomic crash_phantom_value crash_overwrite_torn torn_size_one"), "false of the code: negation proved with witnesses; what holds is proved")
claim("C08", "partial", ns(S, "set_get_roundtrip_partial long_name_never_readable long_name_stored_truncated set_get_roundtrip_false"), "true for names up to 4 characters, proved false for every longer name")
claim("C09", "partial", ns(S, "set_get_size_bound_partial big_object_never_readable big_object_accepted big_object_hangs big_object_acknowledged big_object_keeps big_object_truncated big_object_forges big_zeros_hang"), "true for records below 65536 bytes, proved false for every larger record; for larger records it is proved, in every reachable storage, that the call is acknowledged, that what was readable stays readable, that the beginning of the object appears under another size, that suitable objects forge any record and that zeros make look-ups endless")
claim("C10", "proved", ns(S, "set_independent get_trailing_nul get_never_stored"))
claim("C11", "proved", ns(S, "init_wipes"))

O = "Verif.Out"
claim("C17", "proved", ns(O, "text_is_truncated_concatenation"))
claim("C18", "proved", ns(O, "int_printed_exactly canonical_text_unique"))
claim("C19", "partial", ns(O, "width_pads_left_partial width_drops_digits width_out_of_bounds width_kept_when_no_room fill_width_int_partial manipulators_only_set"), "holds when digits <= width <= room; proved false (digits dropped / out-of-bounds write) outside")
claim("C20", "partial", ns(O, "bytes_printed_as_hex byte_printed_as_hex_partial byte_out_of_bounds"), "byte views proved; a single byte proved with room for two characters, undefined behaviour proved otherwise")
claim("C21", "partial", ns(O, "float_printed_partial precision_float_partial rnd_nearest negative_fraction_loses_sign float_too_long_garbage float_out_of_range_ub float_ub_iff float_fields"), "digits, error bound and exactness proved for every in-range float whose integer part fits; sign loss in (-1,0) and garbage on overflow proved")
claim("C22", "proved", ns(O, "messages_sent_in_order close_resets empty_buffer_loses_newline"))
claim("C23", "partial", ns(O, "data_is_text_iff data_shows_text_partial data_truncated"), "true exactly of texts below 65536 characters")

F = "Verif.FrameBuffer"
claim("C24", "proved", ns(F, "drawPixel_exact drawPixel_pixels setColor_masks"), "for depth 32 the pixel writer itself is correct but the constructor is undefined behaviour (depth32_constructor_ub)")
claim("C25", "partial", ns(F, "depth2_exact_partial depth2_negative_shift depth2_wrong_pixel depth2_witness"), "false of the code for every 2-bit geometry and every in-range position; a pixel is drawn right exactly in the first two columns of four and with a colour whose two bits are 0")
claim("C26", "proved", ns(F, "clear_fills clear_depth2_ub"), "clear_depth2_ub: for depth 2 (C25) clear is undefined behaviour")
claim("C27", "partial", ns(F, "dims_depth1_partial dims_deep"), "true for depth 1; proved false for deeper buffers with the exact reported width")
claim("C28", "proved", ns(F, "index_in_bounds depth32_constructor_ub"))

V = "Verif.Canvas"
claim("C29", "proved", ns(V, "drawing_clipped"), "any arguments for which the coordinates can be computed without overflow (see C42); depth other than 2")
claim("C30", "proved", ns(V, "transform_is_phys rotation_bijective rotation_isometry matrix_form_agrees"), "frame buffers up to 2^28 x 2^28 of a depth other than 2 (C25), coordinates up to 2^28 in magnitude")
claim("C31", "proved", ns(V, "drawPixel_paints"), "frame buffers up to 2^28 x 2^28 of a depth other than 2 (C25), coordinates up to 2^28 in magnitude")
claim("C32", "proved", ns(V, "drawLine_line straight_line_exact"), "frame buffers up to 2^28 x 2^28 of a depth other than 2 (C25), coordinates up to 2^28 in magnitude")
claim("C33", "proved", ns(V, "drawLine_direction"), "frame buffers up to 2^28 x 2^28 of a depth other than 2 (C25), coordinates up to 2^28 in magnitude")
claim("C34", "proved", ns(V, "drawRectangle_border drawRectangle_outline drawRectangle_empty_stray"), "frame buffers up to 2^28 x 2^28 of a depth other than 2 (C25), coordinates up to 2^28 in magnitude; for rectangles with positive width and height; an empty rectangle paints two stray columns (proved)")
claim("C35", "proved", ns(V, "drawFilledRectangle_exact empty_rect_paints_nothing"), "frame buffers up to 2^28 x 2^28 of a depth other than 2 (C25), coordinates up to 2^28 in magnitude")
claim("C36", "proved", ns(V, "transformRect_agrees"), "frame buffers up to 2^28 x 2^28 of a depth other than 2 (C25), coordinates up to 2^28 in magnitude")
claim("C37", "proved", ns(V, "drawCircle_exact drawCircle_zero drawCircle_negative circle_near circle_rows onCircle_row_iff onCircle_column_iff onCircle_diagonal_iff circle_within_half drawCircle_ideal"), "frame buffers up to 2^28 x 2^28 of a depth other than 2 (C25), coordinates up to 2^28 in magnitude")
claim("C38", "proved", ns(V, "drawFilledCircle_exact disc_between disc_ideal drawCircle_ideal"), "frame buffers up to 2^28 x 2^28 of a depth other than 2 (C25), coordinates up to 2^28 in magnitude")
claim("C39", "proved", ns(V, "circle_symmetric circle_rotation_invariant"), "frame buffers up to 2^28 x 2^28 of a depth other than 2 (C25), coordinates up to 2^28 in magnitude")
claim("C42", "proved", ns(V, "no_overflow"), "frame buffers up to 2^28 x 2^28 of a depth other than 2 (C25), coordinates up to 2^28 in magnitude")

T = "Verif.Font"
X = "Verif.Text"
claim("C40", "partial", ns(X, "drawCharAt_exact drawCharAt_glyph_partial glyphSet_congr"), "every looked-up glyph is drawn exactly; the last glyph of every font is undefined behaviour before drawing (C44)")
claim("C41", "proved", ns(X, "drawStringAt_exact"), "frame buffers up to 2^28 x 2^28 of a depth other than 2 (C25), coordinates up to 2^27 in magnitude; texts staying within them")
claim("C45", "partial", ns(X, "textBounds_exact textBounds_empty text_fits_rows_partial char_fits_partial text_fits_partial text_sticks_out freeSans_ll_sticks_out text_fits_iff text_excess_partial freeSans_excess_partial freeSans_excess_attained"), "rows and one-character texts proved; horizontally false of the code: exact condition, witness, and for the shipped font a bound of ten columns, which is attained")
claim("C43", "partial", ns(T, "getBitmap_finds_partial getBitmap_fallback_partial getBitmap_terminates high_font_hangs signed_upper_half_fallback control_codes_alias"), "true of repertoire characters of fonts starting at or below '~'; the rest proved false")
claim("C44", "partial", ns(T, "glyph_view_inside_partial last_glyph_ub"), "true of every glyph but the last; undefined behaviour proved for the last glyph of every font")
claim("C46", "proved", ns(T, "freeSans_consistent freeSans_inside freeSans_lookup"))

K = "Verif.Converter"
claim("C47", "proved", ns(K, "bitStream_exact bitStream_reusable"))
claim("C48", "partial", ns(K, "convertGlyph_ok converted_glyph_draws_partial"), "every glyph but the last of the font, which is undefined behaviour on the device (C44)")
claim("C49", "proved", ns(K, "binary_offsets binary_offset_wraps glyphsFile_reads header_offsets header_tokens header_offset_truncated"))
claim("C50", "proved", ns(K, "codes_order codes_exact codes_nodup lookup_agrees"))
claim("C51", "proved", ns(K, "hex_stream_tokens header_tokens long_name_truncated writeHeaderFile_total"), "for identifiers of at most 300 characters as font names; the truncation for very long names is proved")
claim("C52", "proved", ns(K, "convertRaw_in_bounds convert_in_bounds convert_history_ok convert_stateless convert_code_points convert_bytes convert_history_exact completed_sequence_not_reset"))

E = "Verif.Uart.Esp"
A = "Verif.Uart.Arduino"
claim("C53", "proved", ns(E, "receiveUntil_exact receiveUntil_terminates receiveUntil_zero_blocks receiveUntil_wrap_gives_up"))
claim("C54", "partial", ns(E, "receiveBetween_exact_partial receiveBetween_wrap_exact receiveBetween_wrap receiveBetween_waits_past_deadline receiveBetween_zero_timeout"), "proved while the deadline does not wrap the 32-bit counter; false of the code when it does, with the exact result")
claim("C55", "partial", ns(A, "receive_exact receive_terminates receiveUntil_exact_partial receiveUntil_stream receiveUntil_zero_size_ub receiveUntil_zero_size_unlimited receiveUntil_timeout_terminated receiveUntil_full_splits receiveBetween_exact_partial receiveBetween_size_one_ub receiveBetween_small_unlimited send_restores"), "Receive for all sizes, ReceiveUntil from 1 byte, ReceiveBetween from 2 bytes; smaller sizes proved to write out of bounds")

P = "Verif.Spi"
H = "Verif.Hal"
claim("C56", "proved", ns(P + ".Arduino", "transfer_exact transfer_null answers_get exchanges_get"))
claim("C57", "proved", ns(P + ".Esp", "transfer_exact transfer_overrun transfer_wire pieces_sum pieces_bound pieces_length submitted_bounds Bus.transfer_no_handle Bus.transfer_nothing receive_needs_half_duplex"))
claim("C58", "partial", ns(P + ".Esp", "new_destroy init_exact release_success_fails release_twice_ub destroy_after_release_ub reinit_fails release_failure release_never_succeeds release_none_partial"), "false of the code for every initialised bus; what release does is proved for every driver answer")
claim("C59", "proved", ns(H + ".Gpio", "select_brackets select_other"))
claim("C60", "proved", ns(H + ".I2c", "Arduino.sendSync_exact Arduino.receiveSync_exact Arduino.sendThenReceive_exact Esp.sendThenReceive_exact"))
claim("C61", "proved", ns(H + ".Time", "delayMicroseconds_waits delayMicroseconds_zero delayMicroseconds_stops"))
claim("C62", "partial", ns(H + ".Time", "delayTicks_exact delay_at_most delay_at_least_partial delay_measured_partial delay_measured_at_most delay_nine millisecondTicks_exact ticks_difference"), "the lower bound is false of the code: the wait is never longer than requested; proved short by less than two ticks")
claim("C63", "partial", ns(H + ".Time", "lightSleep_partial lightSleep_exact lightSleep_on_time lightSleep_stops wakeup_exact lightSleep_overshoots lightSleep_wrap_returns deepSleep_exact"), "proved outside of the race window and without wrap of the deadline; both violations proved")
claim("C64", "partial", ns(H + ".Adc", "lookup_sound lookup_complete singleRead_exact_partial singleRead_calls second_read_fails"), "lookup and result proved; repeated reads proved to fail")
claim("C65", "proved", ns(H + ".Gpio", "initEsp_exact initEsp_ub_iff initArduino_exact"))
claim("C66", "partial", ns("Verif.Uart.Device", "packetReceive_exact_partial packetSend_exact_partial receive_overreports receive_ambiguous") + " " + ns(E, "error_reported_as_count count_passed_on"), "calls, buffer contents and counts exact over an arbitrary driver; the error indication of the driver is reported as 65535 bytes: exactly then the count exceeds the request")
claim("C67", "proved", ns(H + ".I2c", "Esp.addressByte_exact") + " " + ns(H + ".I2cBus", "testAddress_exact_partial"), "the whole probe, for command links with room, is testAddress_exact_partial of C76")
claim("C68", "proved", ns(S, "storage_with_crashes_refines_map recovered_refines_map torn_size_breaks_storage torn_size_phantom"), "the exclusion in the statement is shown to be necessary for every object size it concerns")

G = "Verif.Geometry"
claim("C69", "partial", ns(G, "corners_int_partial corners_exact corners_narrow topRight_overflows canvas_corners_agree"), "exact wherever the position behind the rectangle is representable; proved false for a rectangle touching INT_MAX, where topRight overflows although its result is representable")
claim("C70", "proved", ns(G, "addAssign_eq_add add_int add_narrow translate_corner_narrow translate_corner_int convert_exact convert_to_int point_eq_iff size_add_sub size_mul_div size_div matrix_mul_int matrix_mul_8bit matrix_mul_defined matrix_mul_int16 matrix_mul_uint16_ub"), "for int8, uint8, int16, uint16 and int")
claim("C71", "proved", ns(M, "asBytes_elems asBytes_write write_ok_iff sizeBytes_wraps"), "byte size representable in the size type, otherwise sizeBytes_wraps")
claim("C72", "partial", ns(S, "older_object_reads_partial older_object_overwrites two_objects_lose_record two_objects_phantom"), "reads are safe and overwrites are shared; records appended by the newer object are invisible to the older one, and appending through the older one destroys them: proved for every state, all names and all objects of equal size")
claim("C73", "partial", ns(K + ".Config", "config_as_described_partial stoi_number stoi_no_number stoi_intDec ascii_any_case exception_iff upper_ub encoding_ub bad_option_help unknown_letter_help missing_value_help last_char_agrees"), "proved for all well-formed settings; false for malformed numbers, which terminate the program by an uncaught exception (exception_iff), and for encoding names with bytes from 0x80 to 0xFE, which are undefined behaviour (encoding_ub)")
claim("C74", "partial", ns(K + ".Main", "main_table binary_font_draws_partial header_font_tokens exit_status missing_glyph_noticed exit_ignores_write_errors incomplete_header unreadable_font_ub negative_size_ub missing_directory_redirected fileName_in_directory fileName_plain dropExtension_ext dropExtension_none join_names fontName_parts charWidth_iff headerHeight_iff"), "every character but the last (C44); the exit status is proved to tell what was attempted, write errors are proved to go unnoticed, FreeType errors and negative sizes to be undefined behaviour")
claim("C75", "partial", ns("Verif.Uart.Device", "init_history_partial init_fresh init_again init_never_false reinit_ignored send_exact receive_exact receive_below_tick_polls"), "the settings are those of the first request for the port; later requests are ignored although reported as successful, and failures abort the program instead of returning false")
claim("C76", "partial", ns(H + ".I2cBus", "init_exact testAddress_exact_partial testAddress_no_memory testAddress_no_leak testAddress_truncated scan_exact reset_exact timeouts"), "false when the driver has no room for the address in the command link: the probe goes on without it (testAddress_truncated)")
claim("C77", "partial", ns(H + ".Clock", "milliseconds_agree elapsed_esp elapsed_arduino_iff elapsed_arduino_partial arduino_runs_backwards"), "proved for the ESP32; on Arduino true iff the 32-bit counter does not wrap in between")
claim("C78", "proved", ns(P + ".Device", "Esp.platforms_agree Esp.init_ready Esp.no_handle_refused Esp.device_exact Arduino.device_exact Arduino.in_place_exact"), "after initialisation, with a driver which accepts everything")
claim("C79", "partial", ns("Verif.Pbm", "compare_iff read_binary read_ascii read_ascii_ub read_overflow read_empty read_sound header_general header_sound binary_roundtrip compare_binary compare_truncated ascii_roundtrip_partial ascii_unaligned_ub writePBM_file writePBM_no_rows writePBMBinary_file writePBMBinary_undefined asciiLines_ok asciiLines_ub"), "the comparison is exact; false for ASCII images whose width is not a multiple of eight (the written file makes readPBM write out of bounds), for surplus pixels and for dimensions whose product overflows; truncated binary files count as zero filled")
claim("C80", "partial", ns(S, "arbitrary_refines_map_partial reopen_keeps arbitrary_keeps arbitrary_get_after_set one_byte_tail_breaks one_byte_tail_kept one_byte_tail_hangs one_byte_tail_shifted"), "proved unless the last entry found is one byte long; for every such region the sizes of new objects which are kept whatever their contents are exactly those with a record size divisible by 256; the others are acknowledged and lost, shifted or make look-ups endless")
claim("C81", "proved", ns(S, "durable acknowledged_durable events_defined"), "a storage in use is one whose reopenings found no one-byte entry at the end (C80); objects readable after opening are kept unconditionally")
claim("C82", "proved", ns(O, "op_exact ops_exact effect_unique float_fields"), "if the integer part of a float does not fit, the rest of the buffer is unspecified (std::to_chars leaves it so); the decimals of a float are within the error bound of C21")
claim("C83", "proved", ns(X, "picture fresh_picture clear_hides seen_unique draw_covers"), "for the depths 1, 4, 8, 16 and 24 (the others are findings of C24 and C28), coordinates up to 2^28 and radii that are not negative")
claim("C84", "proved", ns(E, "stream_shared_out stream_taken stream_packets Mixed.mixed_shared_out Mixed.failed_read_repeats"), "mixed_shared_out covers calls of Receive in between, none of whose reads fails (C66); stream_taken covers wrapping deadlines, for which ReceiveBetween does not wait for the start byte (finding of C54); stream_shared_out excludes them")
claim("C85", "proved", ns(O, "serial_exact serial_unique char_printed_as_number"), "finding: there is no operator for char, which is printed as a number; the packets are those handed to the UART, whose answer is ignored by the code")
claim("C86", "proved", ns(A, "stream_timed stream_shared_out call_taken runTimed_runCalls call_takes receiveUntilS_ok receiveBetweenS_ok receiveUntilS_agrees"), "for the buffer sizes for which C55 holds (1 for ReceiveUntil, 2 for ReceiveBetween at least); readBytesUntil of the Arduino core reads byte by byte until the terminator, a pause or the length")
claim("C87", "partial", ns("Verif.Uart.Wire", "esp_prints_partial esp_losses_unnoticed arduino_prints prints_alike"), "packets, order and settings proved; false: on Arduino every packet sent drops the bytes received and not yet read (flush(false)), and on ESP32 losses reported by the driver go unnoticed")
claim("C88", "partial", ns(H + ".Gpio.Read", "check_arduino check_esp_input_partial check_esp_output_low uninitialised_esp esp_readback_false"), "proved on Arduino and for inputs on ESP32; false for outputs on ESP32, which always read low: negation proved with the exact behaviour")
claim("C89", "partial", ns(P + ".Shared", "own_clock_iff run_clocked transfers_own_clock_partial sendByte_foreign_clock transfer_clocked sendByte_clocked sendBytes_clocked sendBytes_ub"), "order and completeness proved for every program; transfer has its own settings; sendByte and sendBytes begin no transaction and have those of the last transfer of any object: exact condition and negation proved")
claim("C90", "partial", ns("Verif.Uart.Portable", "platforms_agree_partial esp_messages arduino_messages idle_line full_buffer too_long zero_timeout Bulk.platforms_agree_partial Bulk.esp_messages Bulk.arduino_messages Bulk.receive_zero_timeout Bulk.receive_failure"), "agreement proved for every program of messages shorter than the buffer by one byte at least (for Receive: of the size asked for) and arriving in time; false otherwise, each case with a general theorem: packet filling the buffer, packet too long, idle line, time-out zero, failing driver")
claim("C91", "proved", ns(P + ".Select", "isolation isolation_all run_exact session_exact platforms_agree arduino_exact espFull_exact espHalf_exact receive_refused low_pin_sees unset_pins_disturb"), "noninterference for arbitrary devices and interactive drivers; that the pins must be high is shown by the last two theorems")
claim("C92", "partial", ns(H + ".I2c.Portable", "platforms_agree_partial call_portable_iff long_message_cut long_read_fails Arduino.call_exact Esp.call_exact call_isolated"), "agreement for all programs whose messages fit the buffer of TwoWire; false for every longer message; exact condition for single calls; calls to one device tell the others nothing and depend only on the messages to it (call_isolated)")
claim("C93", "partial", ns(K + ".Main", "header_compiles formats_agree header_font_draws_partial large_header_refused"), "the header compiles exactly if there is a pixel, the bitmaps begin below 65536 and the height fits a byte; then both formats are the same font; drawing of all characters but the last one (C44)")
claim("C94", "proved", ns(P + ".Esp.Life", "call_exact never_hangs init_once success_needs_init undefined_only_after_release"), "a null handle is refused by the driver, as the vendor documents")
claim("C95", "proved", ns(K + ".Main", "handles_tidy handles_balanced mainActs_main"), "the traced program is proved to be the one of C74 apart from the trace; nothing is claimed of runs with undefined behaviour")
claim("C96", "partial", ns(H + ".Gpio.Portable", "portable_agrees_partial portable_exact"), "results and levels agree exactly for the programs whose init is never refused and which read no output that is high (C88)")
claim("C97", "proved", ns("Verif.Uart.Lines", "esp_lines_arrive arduino_lines_arrive esp_numbers_arrive arduino_numbers_arrive reads_no_newline"), "under the conditions of C90 on the receiver (two bytes to spare, quick clock); what happens otherwise is shown there")
claim("C98", "proved", ns(K + ".Main", "mainSays_main says_exact usage_wrong_default"), "the talking program is proved to be the one of C74 apart from the messages; the text of getopt and of uncaught exceptions is not modelled; finding: the usage names a wrong default encoding")
claim("C99", "proved", ns(S, "image_exact image_only_sets image_opens image_injective"), "the log and its bytes are specified without the model's encoder; objects which do not fit the size field are excluded (C09)")
claim("C100", "partial", ns(K + ".Main", "binary_text_draws_partial header_text_draws_partial"), "exact: texts without the last character of the font are set as rendered, texts with it are undefined behaviour (C44); screen-scale positions, bitmaps below 64 KiB (C49, C93)")
claim("C101", "proved", "Verif.Pbm.checkBuffer_iff Verif.Pbm.drawing_test_exact", "the readable files are those of C79; drawing commands as in C83")
claim("C102", "proved", "Verif.Canvas.circle_connected Verif.Canvas.circle_tight Verif.Canvas.drawCircle_closed", "gaps in the sense of the eight neighbours, filling in the sense of the four")

claim("C103", "proved", ns(S, "wear_exact quiet_ops wearOf_log"), "the trace consists of the addresses of the writes in program order; the counted log of the specification is the log of C99 (wearOf_log); objects which do not fit the size field are excluded (C09)")
claim("C104", "proved", ns(H + ".Time", "measured_at_least measured_exact measuredMs_at_least delays_end"))
claim("C105", "proved", ns("Verif.Canvas", "line_writes rectangle_writes filled_rectangle_writes circle_writes disc_writes outer_steep dot_writes") + " " + ns("Verif.Text", "char_writes string_writes"), "rows of filled circles are those of the unrotated screen, that is columns after turning it by 90 or 270 degrees")
claim("C106", "proved", ns(S, "all_stored_iff order_irrelevant store_again last_store_wins"), "names of at most four characters and records below 65536 bytes (C08, C09); store_again for every state")
claim("C107", "proved", ns("Verif.Text", "same_pixels_iff legible legible_visible page_legible number_legible legTable_eq legTable_readable"), "'~', the last character of the font, is undefined behaviour (C44), so it is excluded")
claim("C108", "partial", ns("Verif.Out", "floats_ordered_partial fixed_unique negative_mirrored fraction_without_sign fractions_reversed"), "proved outside of (-1, 0); values there are printed without their sign, which reverses their order")
claim("C109", "partial", ns(V, "drawLine_exact line_turned_iff drawLine_turned_partial line_turned_differs lineAt_moved") + " " + ns(X, "turned_program covered_turned"), "the exact pixels, ties included, proved for every line; false: of two equally near pixels the one towards the physically smaller end is taken, so that lines with ties differ between rotations; exact condition and witness proved; turned_program: programs without such lines make the same picture in every rotation")
claim("C110", "proved", ns(X, "order_irrelevant one_colour order_matters img_ext"), "depths as in C83; equality of the whole image memory")
claim("C111", "proved", ns(X, "draw_moved program_moved covered_moved"), "coordinates of screen scale before and after moving; no change of the rotation on the way")
claim("C112", "partial", ns(X + ".Adafruit", "char_as_adafruit_partial text_as_adafruit_partial last_char_differs outside_differs converted_as_adafruit freeSans_seven_bit"), "false for the font's last character, which that library draws and which is undefined here (C44); characters outside the font are skipped there and drawn as the first character here; both proved. The reference is that library's published procedure, written down in the spec (no line wrapping, text size 1)")
claim("C113", "partial", ns("Verif.Converter.Config", "documented_options_partial long_option_help documented_iff long_number_terminates") + " " + ns("Verif.Converter.Main", "long_option_writes_nothing default_directory"), "true of the short spellings, false of every command line with a long one (documented_iff)")
claim("C114", "partial", ns("Verif.Uart.Timed", "until_in_time until_prompt between_in_time_partial between_prompt between_endless between_late_start until_wrap until_wrap_waits receive_in_time receive_prompt untilA_in_time_partial untilA_prompt betweenA_in_time_partial untilA_slow until_not_slow between_dripping receiveUntil_untimed receiveBetween_untimed receive_untimed receiveUntilA_untimed receiveBetweenA_untimed"), "proved for ReceiveUntil on ESP32 and Receive on Arduino away from the end of the counter; the other calls have weaker bounds, which are attained or unbounded (between_endless, untilA_slow); every timed run is a run of the untimed models (…_untimed)")
claim("C115", "partial", ns("Verif.Hal.Adc.Portable", "portable_iff_partial at_most_two not_portable_twice"), "false of the code because the unit is never released; the exact condition and the bound are proved")
claim("C116", "partial", ns("Verif.Out", "like_stream_partial std_step_iff places_of_ge_four stdEffect_unique stdEffect_exists std_differs near_stream_partial far_from_stream"), "false of the code in five ways (std_differs); the exact condition is proved except for floats below 4 with more than 21 binary places; every float with at most seven decimals is proved to be within one unit of the last decimal of what the stream prints (near_stream_partial), which is false for eight (far_from_stream)")
claim("C117", "partial", ns("Verif.Spi.Display", "picture_arrives_partial pieces_arrive large_image_cut blank_display"), "true of images below 65536 bytes; false of every larger one, which is cut without notice (large_image_cut); in pieces every image arrives; the display has to have the row length the frame buffer reports, cf. C27")
claim("C118","proved", ns("Verif.App.Thermometer","thermometer measure_exact converted depicts_unique"), "a composition of C12, C18, C92, C107, C91/C117 over arbitrary sensors; room of 29 points per character is asked for, image below 65536 bytes (C117)")
claim("C119","proved", ns("Verif.App.BootCounter","counts boot_exact reset_while_counting reset_at_carry reset_at_first reset_at_first_stuck beside_run prints"), "a composition of the refinement of C01/C02, the printing theorem of C87 and the power-loss relation of C81; ESP32 only; reset_at_carry and reset_at_first_stuck show that the exceptions are needed")
claim("C120","partial", ns("Verif.Uart.Server","esp_serves arduino_serves lockStep_alike inTime_lossless arduino_forgets"), "proved on ESP32 for every spread of the bytes; false on Arduino for clients which do not wait (arduino_forgets), where arduino_serves says exactly which bytes are answered; to waiting clients both platforms are alike")
claim("C121","proved", ns("Verif.App.KeyValue","esp_keyValue arduino_keyValue says_unique handle_says"), "a composition of C120 and of the refinement of C01; says_unique: different results have different answers")
claim("C122","proved", ns("Verif.App.Telemetry","esp_sends arduino_sends frames_arrive accept_total equal_marks"), "senders, receiver, decoding of any packets whatever; equal_marks: with equal bytes at start and end the receiver may get nothing for ever")
claim("C123","proved", ns("Verif.Uart.DebugLog","esp_log arduino_log safe_sane esp_log_lost arduino_log_interferes"), "safe_sane: which lines are correct for certain; findings: on ESP32 nothing initialises UART 0 (esp_log_lost), on Arduino a program which uses Serial itself loses input by logging (arduino_log_interferes)")
claim("C124","proved", ns("Verif.App.TwoSlots","all_or_nothing update_total Register.last one_slot_tears"), "about a user program on top of the storage; Register.last says what the specification allows; one_slot_tears is the general form of the finding of C07 which makes two copies necessary")
claim("C125","proved", ns("Verif.App.Sleep","sleep_transparent sleep_forgets"), "generalises C119 to any program and any number of drivers; power losses are the subject of C68, C81 and C124")
claim("C126","proved", ns("Verif.Spi.Faults","espFull_exact espHalf_exact run_exact isolation fault_reported"), "extends C91; the contents of a receive buffer after a failed call are not looked at by the drivers considered (what they are: C57)")
claim("C127","proved", ns("Verif.App.Once","exactly_once always_progress too_late"), "a user's program on top of C124")
claim("C128","proved", ns("Verif.Hal.I2c.Shared","arduino_exact esp_exact run_exact isolation same_address"), "the I2C counterpart of C91")
claim("C129","proved", ns("Verif.Storage","getA_exec setA_exec interleave_alone tasks_isolated no_race lost_object torn_read"), "getA_exec and setA_exec tie the access-by-access code to the model of C01-C05; lost_object and torn_read show that the condition is needed")
claim("C130","proved", ns("Verif.Storage","interleave_adder one_adder only_head"), "free_head_ is an ordinary member: accesses to it are taken as atomic (single core, or an atomic member); with two adding tasks the claim is false (lost_object of C129)")
claim("C131","proved", ns("Verif.Storage","Acc.work_steps get_work set_work made_few call_work work_tight"), "accesses are counted on the access-by-access code of C129, which reads all four bytes of a name; Acc.work_steps says that the count is the number of steps")
claim("C132","proved", ns("Verif.Storage","uniform_inUse uniform_kept uniform_cost uniform_sharp"), "removes, for objects of one size, the exception of C81 (one-byte entries left by torn size fields); uniform_sharp shows that the size limit is needed")
claim("C133","proved", ns("Verif.App.KeyValue","acknowledged_kept restarts esp_life arduino_life phantom"), "the program is ours, everything it calls is modelled code; a power loss in the middle of a request is the one of C07 (any subset of its byte writes, in any order)")
claim("C134","proved", ns("Verif.Text","drawPixelC_assigns jobsA_exec share_iff drawn_alone rows_apart lost_pixel color_mixed"), "the tasks are ours; accesses happen one after the other (sequential consistency), which C++ guarantees as there is no data race; clearing is left out, it concerns the whole screen")
claim("C135","proved", ns("Verif.Uart.LogTasks","line_solo packets_whole lines_merge esp_lines_whole full_line_cut shared_mixed shared_overrun"), "line_solo ties the steps to the printing of C85, C87 and C123; assumption: the driver serialises calls of uart_write_bytes")
claim("C136","proved", ns("Verif.Hal.I2c.Tasks","opIo_exec progIo_exec esp_alone register_mixed opTw_exec sent_astray read_astray"), "opIo_exec, progIo_exec and opTw_exec tie the steps to the calls of C92; assumptions: the ESP-IDF driver serialises its calls; a TwoWire without a lock of its own")
claim("C137","proved", ns("Verif.App.Lock","serial no_deadlock") + " " + ns("Verif.App.Locked","Store.storage_serial Store.storage_ends Store.no_lost_update Log.log_serial Log.log_ends I2c.progTw_exec I2c.esp_serial I2c.wire_serial I2c.bus_ends") + " " + ns("Verif.App.LockedDraw","draw_serial draw_ends"), "the lock is a mutex of the operating system: its operations are atomic and make memory visible")
claim("C138","proved", ns("Verif.Spi.Tasks","scope_completes spi_serial spi_ends whole_frames both_selected"), "scope_completes ties the steps to the scopes of C91")
claim("C139","proved", ns("Verif.App.LockedPower","power_loss counter_power_loss boots_keep torn_under_lock"), "writes reach memory in the order of the program (a new storage in RTC or battery-backed memory without a cache); boots which find a one-byte entry at the end are excluded (C08)")
claim("C140","proved", ns("Verif.App.LockedSlots","slots_serial slots_power_loss slots_ends life_counts"), "as C139; the slots have been set up before")
claim("C141","proved", ns("Verif.Hal.Misuse","arduino_i2c_send arduino_i2c_receive esp_i2c_send esp_i2c_receive uart_send uart_receive arduino_spi esp_spi esp_spi_refused"), "SPI on the ESP: for a driver which accepts every piece, and for one which refuses the first")
claim("C142","proved", ns("Verif.Canvas","drawPixel_domain drawRectangle_domain drawFilledRectangle_domain drawLine_domain drawCircle_domain drawCircle_domain_nonpos errOverflow_small errOverflow_big errOverflow_first drawCircle_domain_small drawCircle_never"), "for frame buffers of up to 2^28 rows and columns; between 715827999 and 715829428 the error value overflows for some radii and not for others, decided by the pixels of the circle")
claim("C143","proved", ns("Verif.Text","drawCharAt_domain drawStringAt_domain drawStringAt_fine"), "for frame buffers of up to 2^28 rows and columns")
claim("C144","proved", ns("Verif.FrameBuffer","drawPixel_anywhere drawPixel_anywhere_exact inRange_fine drawPixel_above"), "exactly the undefined positions for every depth; with 2 bits the pixel drawn instead is the one C25 describes")
claim("C145","proved", ns("Verif.Storage","openA_exec open_work open_work_tight open_beside open_torn open_while_added open_stale open_torn_all"), "the constructor as single byte accesses beside the tasks of C129; what the lost object means is shown for one object; sizes above 256 with a low byte of one to five are not covered")
#END
if __name__ == "__main__":
    root = os.path.dirname(os.path.dirname(os.path.abspath(__file__)))
    out = {"claims": [C[k] for k in sorted(C)]}
    json.dump(out, open(os.path.join(root, "MANIFEST.json"), "w"), indent=1)
    open(os.path.join(root, "MANIFEST.json"), "a").write("\n")
