{
 "claims": [
  {
   "property": "C01",
   "status": "proved",
   "theorems": [
    "Verif.Storage.storage_refines_map",
    "Verif.Storage.get_after_set"
   ],
   "note": ""
  },
  {
   "property": "C02",
   "status": "proved",
   "theorems": [
    "Verif.Storage.reopen_identity",
    "Verif.Storage.reopen_unobservable"
   ],
   "note": ""
  },
  {
   "property": "C03",
   "status": "proved",
   "theorems": [
    "Verif.Storage.set_capacity"
   ],
   "note": ""
  },
  {
   "property": "C04",
   "status": "partial",
   "theorems": [
    "Verif.Storage.open_total",
    "Verif.Storage.open_get_safe",
    "Verif.Storage.open_ops_safe_partial",
    "Verif.Storage.arbitrary_keeps",
    "Verif.Storage.open_one_byte_tail_unsafe",
    "Verif.Storage.one_byte_tail_breaks"
   ],
   "note": "opening and gets proved safe for every content; histories proved safe unless the last entry found has size 1; for every such region the next new object is proved to be lost and, if the region is small, a look-up to read out of bounds"
  },
  {
   "property": "C05",
   "status": "proved",
   "theorems": [
    "Verif.Storage.crash_append_keeps_records"
   ],
   "note": ""
  },
  {
   "property": "C06",
   "status": "proved",
   "theorems": [
    "Verif.Storage.crash_overwrite_local"
   ],
   "note": ""
  },
  {
   "property": "C07",
   "status": "partial",
   "theorems": [
    "Verif.Storage.crash_append_atomic_partial",
    "Verif.Storage.crash_append_exact_partial",
    "Verif.Storage.crash_overwrite_one_byte_atomic",
    "Verif.Storage.crash_phantom_value",
    "Verif.Storage.crash_overwrite_torn",
    "Verif.Storage.torn_size_one"
   ],
   "note": "false of the code: negation proved with witnesses; what holds is proved"
  },
  {
   "property": "C08",
   "status": "partial",
   "theorems": [
    "Verif.Storage.set_get_roundtrip_partial",
    "Verif.Storage.long_name_never_readable",
    "Verif.Storage.long_name_stored_truncated",
    "Verif.Storage.set_get_roundtrip_false"
   ],
   "note": "true for names up to 4 characters, proved false for every longer name"
  },
  {
   "property": "C09",
   "status": "partial",
   "theorems": [
    "Verif.Storage.set_get_size_bound_partial",
    "Verif.Storage.big_object_never_readable",
    "Verif.Storage.big_object_accepted",
    "Verif.Storage.big_object_hangs",
    "Verif.Storage.big_object_acknowledged",
    "Verif.Storage.big_object_keeps",
    "Verif.Storage.big_object_truncated",
    "Verif.Storage.big_object_forges",
    "Verif.Storage.big_zeros_hang"
   ],
   "note": "true for records below 65536 bytes, proved false for every larger record; for larger records it is proved, in every reachable storage, that the call is acknowledged, that what was readable stays readable, that the beginning of the object appears under another size, that suitable objects forge any record and that zeros make look-ups endless"
  },
  {
   "property": "C10",
   "status": "proved",
   "theorems": [
    "Verif.Storage.set_independent",
    "Verif.Storage.get_trailing_nul",
    "Verif.Storage.get_never_stored"
   ],
   "note": ""
  },
  {
   "property": "C100",
   "status": "partial",
   "theorems": [
    "Verif.Converter.Main.binary_text_draws_partial",
    "Verif.Converter.Main.header_text_draws_partial"
   ],
   "note": "exact: texts without the last character of the font are set as rendered, texts with it are undefined behaviour (C44); screen-scale positions, bitmaps below 64 KiB (C49, C93)"
  },
  {
   "property": "C101",
   "status": "proved",
   "theorems": [
    "Verif.Pbm.checkBuffer_iff",
    "Verif.Pbm.drawing_test_exact"
   ],
   "note": "the readable files are those of C79; drawing commands as in C83"
  },
  {
   "property": "C102",
   "status": "proved",
   "theorems": [
    "Verif.Canvas.circle_connected",
    "Verif.Canvas.circle_tight",
    "Verif.Canvas.drawCircle_closed"
   ],
   "note": "gaps in the sense of the eight neighbours, filling in the sense of the four"
  },
  {
   "property": "C103",
   "status": "proved",
   "theorems": [
    "Verif.Storage.wear_exact",
    "Verif.Storage.quiet_ops",
    "Verif.Storage.wearOf_log"
   ],
   "note": "the trace consists of the addresses of the writes in program order; the counted log of the specification is the log of C99 (wearOf_log); objects which do not fit the size field are excluded (C09)"
  },
  {
   "property": "C104",
   "status": "proved",
   "theorems": [
    "Verif.Hal.Time.measured_at_least",
    "Verif.Hal.Time.measured_exact",
    "Verif.Hal.Time.measuredMs_at_least",
    "Verif.Hal.Time.delays_end"
   ],
   "note": ""
  },
  {
   "property": "C105",
   "status": "proved",
   "theorems": [
    "Verif.Canvas.line_writes",
    "Verif.Canvas.rectangle_writes",
    "Verif.Canvas.filled_rectangle_writes",
    "Verif.Canvas.circle_writes",
    "Verif.Canvas.disc_writes",
    "Verif.Canvas.outer_steep",
    "Verif.Canvas.dot_writes",
    "Verif.Text.char_writes",
    "Verif.Text.string_writes"
   ],
   "note": "rows of filled circles are those of the unrotated screen, that is columns after turning it by 90 or 270 degrees"
  },
  {
   "property": "C106",
   "status": "proved",
   "theorems": [
    "Verif.Storage.all_stored_iff",
    "Verif.Storage.order_irrelevant",
    "Verif.Storage.store_again",
    "Verif.Storage.last_store_wins"
   ],
   "note": "names of at most four characters and records below 65536 bytes (C08, C09); store_again for every state"
  },
  {
   "property": "C107",
   "status": "proved",
   "theorems": [
    "Verif.Text.same_pixels_iff",
    "Verif.Text.legible",
    "Verif.Text.legible_visible",
    "Verif.Text.page_legible",
    "Verif.Text.number_legible",
    "Verif.Text.legTable_eq",
    "Verif.Text.legTable_readable"
   ],
   "note": "'~', the last character of the font, is undefined behaviour (C44), so it is excluded"
  },
  {
   "property": "C108",
   "status": "partial",
   "theorems": [
    "Verif.Out.floats_ordered_partial",
    "Verif.Out.fixed_unique",
    "Verif.Out.negative_mirrored",
    "Verif.Out.fraction_without_sign",
    "Verif.Out.fractions_reversed"
   ],
   "note": "proved outside of (-1, 0); values there are printed without their sign, which reverses their order"
  },
  {
   "property": "C109",
   "status": "partial",
   "theorems": [
    "Verif.Canvas.drawLine_exact",
    "Verif.Canvas.line_turned_iff",
    "Verif.Canvas.drawLine_turned_partial",
    "Verif.Canvas.line_turned_differs",
    "Verif.Canvas.lineAt_moved",
    "Verif.Text.turned_program",
    "Verif.Text.covered_turned"
   ],
   "note": "the exact pixels, ties included, proved for every line; false: of two equally near pixels the one towards the physically smaller end is taken, so that lines with ties differ between rotations; exact condition and witness proved; turned_program: programs without such lines make the same picture in every rotation"
  },
  {
   "property": "C11",
   "status": "proved",
   "theorems": [
    "Verif.Storage.init_wipes"
   ],
   "note": ""
  },
  {
   "property": "C110",
   "status": "proved",
   "theorems": [
    "Verif.Text.order_irrelevant",
    "Verif.Text.one_colour",
    "Verif.Text.order_matters",
    "Verif.Text.img_ext"
   ],
   "note": "depths as in C83; equality of the whole image memory"
  },
  {
   "property": "C111",
   "status": "proved",
   "theorems": [
    "Verif.Text.draw_moved",
    "Verif.Text.program_moved",
    "Verif.Text.covered_moved"
   ],
   "note": "coordinates of screen scale before and after moving; no change of the rotation on the way"
  },
  {
   "property": "C112",
   "status": "partial",
   "theorems": [
    "Verif.Text.Adafruit.char_as_adafruit_partial",
    "Verif.Text.Adafruit.text_as_adafruit_partial",
    "Verif.Text.Adafruit.last_char_differs",
    "Verif.Text.Adafruit.outside_differs",
    "Verif.Text.Adafruit.converted_as_adafruit",
    "Verif.Text.Adafruit.freeSans_seven_bit"
   ],
   "note": "false for the font's last character, which that library draws and which is undefined here (C44); characters outside the font are skipped there and drawn as the first character here; both proved. The reference is that library's published procedure, written down in the spec (no line wrapping, text size 1)"
  },
  {
   "property": "C113",
   "status": "partial",
   "theorems": [
    "Verif.Converter.Config.documented_options_partial",
    "Verif.Converter.Config.long_option_help",
    "Verif.Converter.Config.documented_iff",
    "Verif.Converter.Config.long_number_terminates",
    "Verif.Converter.Main.long_option_writes_nothing",
    "Verif.Converter.Main.default_directory"
   ],
   "note": "true of the short spellings, false of every command line with a long one (documented_iff)"
  },
  {
   "property": "C114",
   "status": "partial",
   "theorems": [
    "Verif.Uart.Timed.until_in_time",
    "Verif.Uart.Timed.until_prompt",
    "Verif.Uart.Timed.between_in_time_partial",
    "Verif.Uart.Timed.between_prompt",
    "Verif.Uart.Timed.between_endless",
    "Verif.Uart.Timed.between_late_start",
    "Verif.Uart.Timed.until_wrap",
    "Verif.Uart.Timed.until_wrap_waits",
    "Verif.Uart.Timed.receive_in_time",
    "Verif.Uart.Timed.receive_prompt",
    "Verif.Uart.Timed.untilA_in_time_partial",
    "Verif.Uart.Timed.untilA_prompt",
    "Verif.Uart.Timed.betweenA_in_time_partial",
    "Verif.Uart.Timed.untilA_slow",
    "Verif.Uart.Timed.until_not_slow",
    "Verif.Uart.Timed.between_dripping",
    "Verif.Uart.Timed.receiveUntil_untimed",
    "Verif.Uart.Timed.receiveBetween_untimed",
    "Verif.Uart.Timed.receive_untimed",
    "Verif.Uart.Timed.receiveUntilA_untimed",
    "Verif.Uart.Timed.receiveBetweenA_untimed"
   ],
   "note": "proved for ReceiveUntil on ESP32 and Receive on Arduino away from the end of the counter; the other calls have weaker bounds, which are attained or unbounded (between_endless, untilA_slow); every timed run is a run of the untimed models (\u2026_untimed)"
  },
  {
   "property": "C115",
   "status": "partial",
   "theorems": [
    "Verif.Hal.Adc.Portable.portable_iff_partial",
    "Verif.Hal.Adc.Portable.at_most_two",
    "Verif.Hal.Adc.Portable.not_portable_twice"
   ],
   "note": "false of the code because the unit is never released; the exact condition and the bound are proved"
  },
  {
   "property": "C116",
   "status": "partial",
   "theorems": [
    "Verif.Out.like_stream_partial",
    "Verif.Out.std_step_iff",
    "Verif.Out.places_of_ge_four",
    "Verif.Out.stdEffect_unique",
    "Verif.Out.stdEffect_exists",
    "Verif.Out.std_differs",
    "Verif.Out.near_stream_partial",
    "Verif.Out.far_from_stream"
   ],
   "note": "false of the code in five ways (std_differs); the exact condition is proved except for floats below 4 with more than 21 binary places; every float with at most seven decimals is proved to be within one unit of the last decimal of what the stream prints (near_stream_partial), which is false for eight (far_from_stream)"
  },
  {
   "property": "C117",
   "status": "partial",
   "theorems": [
    "Verif.Spi.Display.picture_arrives_partial",
    "Verif.Spi.Display.pieces_arrive",
    "Verif.Spi.Display.large_image_cut",
    "Verif.Spi.Display.blank_display"
   ],
   "note": "true of images below 65536 bytes; false of every larger one, which is cut without notice (large_image_cut); in pieces every image arrives; the display has to have the row length the frame buffer reports, cf. C27"
  },
  {
   "property": "C118",
   "status": "proved",
   "theorems": [
    "Verif.App.Thermometer.thermometer",
    "Verif.App.Thermometer.measure_exact",
    "Verif.App.Thermometer.converted",
    "Verif.App.Thermometer.depicts_unique"
   ],
   "note": "a composition of C12, C18, C92, C107, C91/C117 over arbitrary sensors; room of 29 points per character is asked for, image below 65536 bytes (C117)"
  },
  {
   "property": "C119",
   "status": "proved",
   "theorems": [
    "Verif.App.BootCounter.counts",
    "Verif.App.BootCounter.boot_exact",
    "Verif.App.BootCounter.reset_while_counting",
    "Verif.App.BootCounter.reset_at_carry",
    "Verif.App.BootCounter.reset_at_first",
    "Verif.App.BootCounter.reset_at_first_stuck",
    "Verif.App.BootCounter.beside_run",
    "Verif.App.BootCounter.prints"
   ],
   "note": "a composition of the refinement of C01/C02, the printing theorem of C87 and the power-loss relation of C81; ESP32 only; reset_at_carry and reset_at_first_stuck show that the exceptions are needed"
  },
  {
   "property": "C12",
   "status": "proved",
   "theorems": [
    "Verif.Endian.changeEndianess16_reverses_bytes",
    "Verif.Endian.changeEndianess32_reverses_bytes",
    "Verif.Endian.changeEndianess16_involutive",
    "Verif.Endian.changeEndianess32_involutive",
    "Verif.Endian.changeEndianess16_injective",
    "Verif.Endian.changeEndianess32_injective"
   ],
   "note": ""
  },
  {
   "property": "C120",
   "status": "partial",
   "theorems": [
    "Verif.Uart.Server.esp_serves",
    "Verif.Uart.Server.arduino_serves",
    "Verif.Uart.Server.lockStep_alike",
    "Verif.Uart.Server.inTime_lossless",
    "Verif.Uart.Server.arduino_forgets"
   ],
   "note": "proved on ESP32 for every spread of the bytes; false on Arduino for clients which do not wait (arduino_forgets), where arduino_serves says exactly which bytes are answered; to waiting clients both platforms are alike"
  },
  {
   "property": "C121",
   "status": "proved",
   "theorems": [
    "Verif.App.KeyValue.esp_keyValue",
    "Verif.App.KeyValue.arduino_keyValue",
    "Verif.App.KeyValue.says_unique",
    "Verif.App.KeyValue.handle_says"
   ],
   "note": "a composition of C120 and of the refinement of C01; says_unique: different results have different answers"
  },
  {
   "property": "C122",
   "status": "proved",
   "theorems": [
    "Verif.App.Telemetry.esp_sends",
    "Verif.App.Telemetry.arduino_sends",
    "Verif.App.Telemetry.frames_arrive",
    "Verif.App.Telemetry.accept_total",
    "Verif.App.Telemetry.equal_marks"
   ],
   "note": "senders, receiver, decoding of any packets whatever; equal_marks: with equal bytes at start and end the receiver may get nothing for ever"
  },
  {
   "property": "C123",
   "status": "proved",
   "theorems": [
    "Verif.Uart.DebugLog.esp_log",
    "Verif.Uart.DebugLog.arduino_log",
    "Verif.Uart.DebugLog.safe_sane",
    "Verif.Uart.DebugLog.esp_log_lost",
    "Verif.Uart.DebugLog.arduino_log_interferes"
   ],
   "note": "safe_sane: which lines are correct for certain; findings: on ESP32 nothing initialises UART 0 (esp_log_lost), on Arduino a program which uses Serial itself loses input by logging (arduino_log_interferes)"
  },
  {
   "property": "C124",
   "status": "proved",
   "theorems": [
    "Verif.App.TwoSlots.all_or_nothing",
    "Verif.App.TwoSlots.update_total",
    "Verif.App.TwoSlots.Register.last",
    "Verif.App.TwoSlots.one_slot_tears"
   ],
   "note": "about a user program on top of the storage; Register.last says what the specification allows; one_slot_tears is the general form of the finding of C07 which makes two copies necessary"
  },
  {
   "property": "C125",
   "status": "proved",
   "theorems": [
    "Verif.App.Sleep.sleep_transparent",
    "Verif.App.Sleep.sleep_forgets"
   ],
   "note": "generalises C119 to any program and any number of drivers; power losses are the subject of C68, C81 and C124"
  },
  {
   "property": "C126",
   "status": "proved",
   "theorems": [
    "Verif.Spi.Faults.espFull_exact",
    "Verif.Spi.Faults.espHalf_exact",
    "Verif.Spi.Faults.run_exact",
    "Verif.Spi.Faults.isolation",
    "Verif.Spi.Faults.fault_reported"
   ],
   "note": "extends C91; the contents of a receive buffer after a failed call are not looked at by the drivers considered (what they are: C57)"
  },
  {
   "property": "C127",
   "status": "proved",
   "theorems": [
    "Verif.App.Once.exactly_once",
    "Verif.App.Once.always_progress",
    "Verif.App.Once.too_late"
   ],
   "note": "a user's program on top of C124"
  },
  {
   "property": "C128",
   "status": "proved",
   "theorems": [
    "Verif.Hal.I2c.Shared.arduino_exact",
    "Verif.Hal.I2c.Shared.esp_exact",
    "Verif.Hal.I2c.Shared.run_exact",
    "Verif.Hal.I2c.Shared.isolation",
    "Verif.Hal.I2c.Shared.same_address"
   ],
   "note": "the I2C counterpart of C91"
  },
  {
   "property": "C129",
   "status": "proved",
   "theorems": [
    "Verif.Storage.getA_exec",
    "Verif.Storage.setA_exec",
    "Verif.Storage.interleave_alone",
    "Verif.Storage.tasks_isolated",
    "Verif.Storage.no_race",
    "Verif.Storage.lost_object",
    "Verif.Storage.torn_read"
   ],
   "note": "getA_exec and setA_exec tie the access-by-access code to the model of C01-C05; lost_object and torn_read show that the condition is needed"
  },
  {
   "property": "C13",
   "status": "proved",
   "theorems": [
    "Verif.Endian.changeEndianess16x2_swaps_halves",
    "Verif.Endian.changeEndianess16x2_involutive"
   ],
   "note": ""
  },
  {
   "property": "C130",
   "status": "proved",
   "theorems": [
    "Verif.Storage.interleave_adder",
    "Verif.Storage.one_adder",
    "Verif.Storage.only_head"
   ],
   "note": "free_head_ is an ordinary member: accesses to it are taken as atomic (single core, or an atomic member); with two adding tasks the claim is false (lost_object of C129)"
  },
  {
   "property": "C131",
   "status": "proved",
   "theorems": [
    "Verif.Storage.Acc.work_steps",
    "Verif.Storage.get_work",
    "Verif.Storage.set_work",
    "Verif.Storage.made_few",
    "Verif.Storage.call_work",
    "Verif.Storage.work_tight"
   ],
   "note": "accesses are counted on the access-by-access code of C129, which reads all four bytes of a name; Acc.work_steps says that the count is the number of steps"
  },
  {
   "property": "C132",
   "status": "proved",
   "theorems": [
    "Verif.Storage.uniform_inUse",
    "Verif.Storage.uniform_kept",
    "Verif.Storage.uniform_cost",
    "Verif.Storage.uniform_sharp"
   ],
   "note": "removes, for objects of one size, the exception of C81 (one-byte entries left by torn size fields); uniform_sharp shows that the size limit is needed"
  },
  {
   "property": "C133",
   "status": "proved",
   "theorems": [
    "Verif.App.KeyValue.acknowledged_kept",
    "Verif.App.KeyValue.restarts",
    "Verif.App.KeyValue.esp_life",
    "Verif.App.KeyValue.arduino_life",
    "Verif.App.KeyValue.phantom"
   ],
   "note": "the program is ours, everything it calls is modelled code; a power loss in the middle of a request is the one of C07 (any subset of its byte writes, in any order)"
  },
  {
   "property": "C134",
   "status": "proved",
   "theorems": [
    "Verif.Text.drawPixelC_assigns",
    "Verif.Text.jobsA_exec",
    "Verif.Text.share_iff",
    "Verif.Text.drawn_alone",
    "Verif.Text.rows_apart",
    "Verif.Text.lost_pixel",
    "Verif.Text.color_mixed"
   ],
   "note": "the tasks are ours; accesses happen one after the other (sequential consistency), which C++ guarantees as there is no data race; clearing is left out, it concerns the whole screen"
  },
  {
   "property": "C135",
   "status": "proved",
   "theorems": [
    "Verif.Uart.LogTasks.line_solo",
    "Verif.Uart.LogTasks.packets_whole",
    "Verif.Uart.LogTasks.lines_merge",
    "Verif.Uart.LogTasks.esp_lines_whole",
    "Verif.Uart.LogTasks.full_line_cut",
    "Verif.Uart.LogTasks.shared_mixed",
    "Verif.Uart.LogTasks.shared_overrun"
   ],
   "note": "line_solo ties the steps to the printing of C85, C87 and C123; assumption: the driver serialises calls of uart_write_bytes"
  },
  {
   "property": "C136",
   "status": "proved",
   "theorems": [
    "Verif.Hal.I2c.Tasks.opIo_exec",
    "Verif.Hal.I2c.Tasks.progIo_exec",
    "Verif.Hal.I2c.Tasks.esp_alone",
    "Verif.Hal.I2c.Tasks.register_mixed",
    "Verif.Hal.I2c.Tasks.opTw_exec",
    "Verif.Hal.I2c.Tasks.sent_astray",
    "Verif.Hal.I2c.Tasks.read_astray"
   ],
   "note": "opIo_exec, progIo_exec and opTw_exec tie the steps to the calls of C92; assumptions: the ESP-IDF driver serialises its calls; a TwoWire without a lock of its own"
  },
  {
   "property": "C137",
   "status": "proved",
   "theorems": [
    "Verif.App.Lock.serial",
    "Verif.App.Lock.no_deadlock",
    "Verif.App.Locked.Store.storage_serial",
    "Verif.App.Locked.Store.storage_ends",
    "Verif.App.Locked.Store.no_lost_update",
    "Verif.App.Locked.Log.log_serial",
    "Verif.App.Locked.Log.log_ends",
    "Verif.App.Locked.I2c.progTw_exec",
    "Verif.App.Locked.I2c.esp_serial",
    "Verif.App.Locked.I2c.wire_serial",
    "Verif.App.Locked.I2c.bus_ends",
    "Verif.App.LockedDraw.draw_serial",
    "Verif.App.LockedDraw.draw_ends"
   ],
   "note": "the lock is a mutex of the operating system: its operations are atomic and make memory visible"
  },
  {
   "property": "C138",
   "status": "proved",
   "theorems": [
    "Verif.Spi.Tasks.scope_completes",
    "Verif.Spi.Tasks.spi_serial",
    "Verif.Spi.Tasks.spi_ends",
    "Verif.Spi.Tasks.whole_frames",
    "Verif.Spi.Tasks.both_selected"
   ],
   "note": "scope_completes ties the steps to the scopes of C91"
  },
  {
   "property": "C139",
   "status": "proved",
   "theorems": [
    "Verif.App.LockedPower.power_loss",
    "Verif.App.LockedPower.counter_power_loss",
    "Verif.App.LockedPower.boots_keep",
    "Verif.App.LockedPower.torn_under_lock"
   ],
   "note": "writes reach memory in the order of the program (a new storage in RTC or battery-backed memory without a cache); boots which find a one-byte entry at the end are excluded (C08)"
  },
  {
   "property": "C14",
   "status": "proved",
   "theorems": [
    "Verif.Endian.changeEndianessToFloat_roundtrip",
    "Verif.Endian.changeEndianessToFloat_bytes"
   ],
   "note": ""
  },
  {
   "property": "C140",
   "status": "proved",
   "theorems": [
    "Verif.App.LockedSlots.slots_serial",
    "Verif.App.LockedSlots.slots_power_loss",
    "Verif.App.LockedSlots.slots_ends",
    "Verif.App.LockedSlots.life_counts"
   ],
   "note": "as C139; the slots have been set up before"
  },
  {
   "property": "C141",
   "status": "proved",
   "theorems": [
    "Verif.Hal.Misuse.arduino_i2c_send",
    "Verif.Hal.Misuse.arduino_i2c_receive",
    "Verif.Hal.Misuse.esp_i2c_send",
    "Verif.Hal.Misuse.esp_i2c_receive",
    "Verif.Hal.Misuse.uart_send",
    "Verif.Hal.Misuse.uart_receive",
    "Verif.Hal.Misuse.arduino_spi",
    "Verif.Hal.Misuse.esp_spi",
    "Verif.Hal.Misuse.esp_spi_refused"
   ],
   "note": "SPI on the ESP: for a driver which accepts every piece, and for one which refuses the first"
  },
  {
   "property": "C142",
   "status": "proved",
   "theorems": [
    "Verif.Canvas.drawPixel_domain",
    "Verif.Canvas.drawRectangle_domain",
    "Verif.Canvas.drawFilledRectangle_domain",
    "Verif.Canvas.drawLine_domain",
    "Verif.Canvas.drawCircle_domain",
    "Verif.Canvas.drawCircle_domain_nonpos",
    "Verif.Canvas.errOverflow_small",
    "Verif.Canvas.errOverflow_big",
    "Verif.Canvas.errOverflow_first",
    "Verif.Canvas.drawCircle_domain_small",
    "Verif.Canvas.drawCircle_never"
   ],
   "note": "for frame buffers of up to 2^28 rows and columns; between 715827999 and 715829428 the error value overflows for some radii and not for others, decided by the pixels of the circle"
  },
  {
   "property": "C143",
   "status": "proved",
   "theorems": [
    "Verif.Text.drawCharAt_domain",
    "Verif.Text.drawStringAt_domain",
    "Verif.Text.drawStringAt_fine"
   ],
   "note": "for frame buffers of up to 2^28 rows and columns"
  },
  {
   "property": "C144",
   "status": "proved",
   "theorems": [
    "Verif.FrameBuffer.drawPixel_anywhere",
    "Verif.FrameBuffer.drawPixel_anywhere_exact",
    "Verif.FrameBuffer.inRange_fine",
    "Verif.FrameBuffer.drawPixel_above"
   ],
   "note": "exactly the undefined positions for every depth; with 2 bits the pixel drawn instead is the one C25 describes"
  },
  {
   "property": "C145",
   "status": "proved",
   "theorems": [
    "Verif.Storage.openA_exec",
    "Verif.Storage.open_work",
    "Verif.Storage.open_work_tight",
    "Verif.Storage.open_beside",
    "Verif.Storage.open_torn",
    "Verif.Storage.open_while_added",
    "Verif.Storage.open_stale",
    "Verif.Storage.open_torn_all"
   ],
   "note": "the constructor as single byte accesses beside the tasks of C129; what the lost object means is shown for one object; sizes above 256 with a low byte of one to five are not covered"
  },
  {
   "property": "C15",
   "status": "proved",
   "theorems": [
    "Verif.MemoryView.elems_ok",
    "Verif.MemoryView.subspan_spec",
    "Verif.MemoryView.first_spec",
    "Verif.MemoryView.last_spec",
    "Verif.MemoryView.at_spec",
    "Verif.MemoryView.subspan_at",
    "Verif.MemoryView.relems_spec",
    "Verif.MemoryView.front_back_spec",
    "Verif.MemoryView.ofArray_elems",
    "Verif.MemoryView.ofPtrs_elems",
    "Verif.MemoryView.subspan_take",
    "Verif.MemoryView.sizeBytes_exact",
    "Verif.MemoryView.null_view"
   ],
   "note": ""
  },
  {
   "property": "C16",
   "status": "proved",
   "theorems": [
    "Verif.MemoryView.subspan_subspan",
    "Verif.MemoryView.first_subspan_partition",
    "Verif.MemoryView.last_eq_subspan"
   ],
   "note": ""
  },
  {
   "property": "C17",
   "status": "proved",
   "theorems": [
    "Verif.Out.text_is_truncated_concatenation"
   ],
   "note": ""
  },
  {
   "property": "C18",
   "status": "proved",
   "theorems": [
    "Verif.Out.int_printed_exactly",
    "Verif.Out.canonical_text_unique"
   ],
   "note": ""
  },
  {
   "property": "C19",
   "status": "partial",
   "theorems": [
    "Verif.Out.width_pads_left_partial",
    "Verif.Out.width_drops_digits",
    "Verif.Out.width_out_of_bounds",
    "Verif.Out.width_kept_when_no_room",
    "Verif.Out.fill_width_int_partial",
    "Verif.Out.manipulators_only_set"
   ],
   "note": "holds when digits <= width <= room; proved false (digits dropped / out-of-bounds write) outside"
  },
  {
   "property": "C20",
   "status": "partial",
   "theorems": [
    "Verif.Out.bytes_printed_as_hex",
    "Verif.Out.byte_printed_as_hex_partial",
    "Verif.Out.byte_out_of_bounds"
   ],
   "note": "byte views proved; a single byte proved with room for two characters, undefined behaviour proved otherwise"
  },
  {
   "property": "C21",
   "status": "partial",
   "theorems": [
    "Verif.Out.float_printed_partial",
    "Verif.Out.precision_float_partial",
    "Verif.Out.rnd_nearest",
    "Verif.Out.negative_fraction_loses_sign",
    "Verif.Out.float_too_long_garbage",
    "Verif.Out.float_out_of_range_ub",
    "Verif.Out.float_ub_iff",
    "Verif.Out.float_fields"
   ],
   "note": "digits, error bound and exactness proved for every in-range float whose integer part fits; sign loss in (-1,0) and garbage on overflow proved"
  },
  {
   "property": "C22",
   "status": "proved",
   "theorems": [
    "Verif.Out.messages_sent_in_order",
    "Verif.Out.close_resets",
    "Verif.Out.empty_buffer_loses_newline"
   ],
   "note": ""
  },
  {
   "property": "C23",
   "status": "partial",
   "theorems": [
    "Verif.Out.data_is_text_iff",
    "Verif.Out.data_shows_text_partial",
    "Verif.Out.data_truncated"
   ],
   "note": "true exactly of texts below 65536 characters"
  },
  {
   "property": "C24",
   "status": "proved",
   "theorems": [
    "Verif.FrameBuffer.drawPixel_exact",
    "Verif.FrameBuffer.drawPixel_pixels",
    "Verif.FrameBuffer.setColor_masks"
   ],
   "note": "for depth 32 the pixel writer itself is correct but the constructor is undefined behaviour (depth32_constructor_ub)"
  },
  {
   "property": "C25",
   "status": "partial",
   "theorems": [
    "Verif.FrameBuffer.depth2_exact_partial",
    "Verif.FrameBuffer.depth2_negative_shift",
    "Verif.FrameBuffer.depth2_wrong_pixel",
    "Verif.FrameBuffer.depth2_witness"
   ],
   "note": "false of the code for every 2-bit geometry and every in-range position; a pixel is drawn right exactly in the first two columns of four and with a colour whose two bits are 0"
  },
  {
   "property": "C26",
   "status": "proved",
   "theorems": [
    "Verif.FrameBuffer.clear_fills",
    "Verif.FrameBuffer.clear_depth2_ub"
   ],
   "note": "clear_depth2_ub: for depth 2 (C25) clear is undefined behaviour"
  },
  {
   "property": "C27",
   "status": "partial",
   "theorems": [
    "Verif.FrameBuffer.dims_depth1_partial",
    "Verif.FrameBuffer.dims_deep"
   ],
   "note": "true for depth 1; proved false for deeper buffers with the exact reported width"
  },
  {
   "property": "C28",
   "status": "proved",
   "theorems": [
    "Verif.FrameBuffer.index_in_bounds",
    "Verif.FrameBuffer.depth32_constructor_ub"
   ],
   "note": ""
  },
  {
   "property": "C29",
   "status": "proved",
   "theorems": [
    "Verif.Canvas.drawing_clipped"
   ],
   "note": "any arguments for which the coordinates can be computed without overflow (see C42); depth other than 2"
  },
  {
   "property": "C30",
   "status": "proved",
   "theorems": [
    "Verif.Canvas.transform_is_phys",
    "Verif.Canvas.rotation_bijective",
    "Verif.Canvas.rotation_isometry",
    "Verif.Canvas.matrix_form_agrees"
   ],
   "note": "frame buffers up to 2^28 x 2^28 of a depth other than 2 (C25), coordinates up to 2^28 in magnitude"
  },
  {
   "property": "C31",
   "status": "proved",
   "theorems": [
    "Verif.Canvas.drawPixel_paints"
   ],
   "note": "frame buffers up to 2^28 x 2^28 of a depth other than 2 (C25), coordinates up to 2^28 in magnitude"
  },
  {
   "property": "C32",
   "status": "proved",
   "theorems": [
    "Verif.Canvas.drawLine_line",
    "Verif.Canvas.straight_line_exact"
   ],
   "note": "frame buffers up to 2^28 x 2^28 of a depth other than 2 (C25), coordinates up to 2^28 in magnitude"
  },
  {
   "property": "C33",
   "status": "proved",
   "theorems": [
    "Verif.Canvas.drawLine_direction"
   ],
   "note": "frame buffers up to 2^28 x 2^28 of a depth other than 2 (C25), coordinates up to 2^28 in magnitude"
  },
  {
   "property": "C34",
   "status": "proved",
   "theorems": [
    "Verif.Canvas.drawRectangle_border",
    "Verif.Canvas.drawRectangle_outline",
    "Verif.Canvas.drawRectangle_empty_stray"
   ],
   "note": "frame buffers up to 2^28 x 2^28 of a depth other than 2 (C25), coordinates up to 2^28 in magnitude; for rectangles with positive width and height; an empty rectangle paints two stray columns (proved)"
  },
  {
   "property": "C35",
   "status": "proved",
   "theorems": [
    "Verif.Canvas.drawFilledRectangle_exact",
    "Verif.Canvas.empty_rect_paints_nothing"
   ],
   "note": "frame buffers up to 2^28 x 2^28 of a depth other than 2 (C25), coordinates up to 2^28 in magnitude"
  },
  {
   "property": "C36",
   "status": "proved",
   "theorems": [
    "Verif.Canvas.transformRect_agrees"
   ],
   "note": "frame buffers up to 2^28 x 2^28 of a depth other than 2 (C25), coordinates up to 2^28 in magnitude"
  },
  {
   "property": "C37",
   "status": "proved",
   "theorems": [
    "Verif.Canvas.drawCircle_exact",
    "Verif.Canvas.drawCircle_zero",
    "Verif.Canvas.drawCircle_negative",
    "Verif.Canvas.circle_near",
    "Verif.Canvas.circle_rows",
    "Verif.Canvas.onCircle_row_iff",
    "Verif.Canvas.onCircle_column_iff",
    "Verif.Canvas.onCircle_diagonal_iff",
    "Verif.Canvas.circle_within_half",
    "Verif.Canvas.drawCircle_ideal"
   ],
   "note": "frame buffers up to 2^28 x 2^28 of a depth other than 2 (C25), coordinates up to 2^28 in magnitude"
  },
  {
   "property": "C38",
   "status": "proved",
   "theorems": [
    "Verif.Canvas.drawFilledCircle_exact",
    "Verif.Canvas.disc_between",
    "Verif.Canvas.disc_ideal",
    "Verif.Canvas.drawCircle_ideal"
   ],
   "note": "frame buffers up to 2^28 x 2^28 of a depth other than 2 (C25), coordinates up to 2^28 in magnitude"
  },
  {
   "property": "C39",
   "status": "proved",
   "theorems": [
    "Verif.Canvas.circle_symmetric",
    "Verif.Canvas.circle_rotation_invariant"
   ],
   "note": "frame buffers up to 2^28 x 2^28 of a depth other than 2 (C25), coordinates up to 2^28 in magnitude"
  },
  {
   "property": "C40",
   "status": "partial",
   "theorems": [
    "Verif.Text.drawCharAt_exact",
    "Verif.Text.drawCharAt_glyph_partial",
    "Verif.Text.glyphSet_congr"
   ],
   "note": "every looked-up glyph is drawn exactly; the last glyph of every font is undefined behaviour before drawing (C44)"
  },
  {
   "property": "C41",
   "status": "proved",
   "theorems": [
    "Verif.Text.drawStringAt_exact"
   ],
   "note": "frame buffers up to 2^28 x 2^28 of a depth other than 2 (C25), coordinates up to 2^27 in magnitude; texts staying within them"
  },
  {
   "property": "C42",
   "status": "proved",
   "theorems": [
    "Verif.Canvas.no_overflow"
   ],
   "note": "frame buffers up to 2^28 x 2^28 of a depth other than 2 (C25), coordinates up to 2^28 in magnitude"
  },
  {
   "property": "C43",
   "status": "partial",
   "theorems": [
    "Verif.Font.getBitmap_finds_partial",
    "Verif.Font.getBitmap_fallback_partial",
    "Verif.Font.getBitmap_terminates",
    "Verif.Font.high_font_hangs",
    "Verif.Font.signed_upper_half_fallback",
    "Verif.Font.control_codes_alias"
   ],
   "note": "true of repertoire characters of fonts starting at or below '~'; the rest proved false"
  },
  {
   "property": "C44",
   "status": "partial",
   "theorems": [
    "Verif.Font.glyph_view_inside_partial",
    "Verif.Font.last_glyph_ub"
   ],
   "note": "true of every glyph but the last; undefined behaviour proved for the last glyph of every font"
  },
  {
   "property": "C45",
   "status": "partial",
   "theorems": [
    "Verif.Text.textBounds_exact",
    "Verif.Text.textBounds_empty",
    "Verif.Text.text_fits_rows_partial",
    "Verif.Text.char_fits_partial",
    "Verif.Text.text_fits_partial",
    "Verif.Text.text_sticks_out",
    "Verif.Text.freeSans_ll_sticks_out",
    "Verif.Text.text_fits_iff",
    "Verif.Text.text_excess_partial",
    "Verif.Text.freeSans_excess_partial",
    "Verif.Text.freeSans_excess_attained"
   ],
   "note": "rows and one-character texts proved; horizontally false of the code: exact condition, witness, and for the shipped font a bound of ten columns, which is attained"
  },
  {
   "property": "C46",
   "status": "proved",
   "theorems": [
    "Verif.Font.freeSans_consistent",
    "Verif.Font.freeSans_inside",
    "Verif.Font.freeSans_lookup"
   ],
   "note": ""
  },
  {
   "property": "C47",
   "status": "proved",
   "theorems": [
    "Verif.Converter.bitStream_exact",
    "Verif.Converter.bitStream_reusable"
   ],
   "note": ""
  },
  {
   "property": "C48",
   "status": "partial",
   "theorems": [
    "Verif.Converter.convertGlyph_ok",
    "Verif.Converter.converted_glyph_draws_partial"
   ],
   "note": "every glyph but the last of the font, which is undefined behaviour on the device (C44)"
  },
  {
   "property": "C49",
   "status": "proved",
   "theorems": [
    "Verif.Converter.binary_offsets",
    "Verif.Converter.binary_offset_wraps",
    "Verif.Converter.glyphsFile_reads",
    "Verif.Converter.header_offsets",
    "Verif.Converter.header_tokens",
    "Verif.Converter.header_offset_truncated"
   ],
   "note": ""
  },
  {
   "property": "C50",
   "status": "proved",
   "theorems": [
    "Verif.Converter.codes_order",
    "Verif.Converter.codes_exact",
    "Verif.Converter.codes_nodup",
    "Verif.Converter.lookup_agrees"
   ],
   "note": ""
  },
  {
   "property": "C51",
   "status": "proved",
   "theorems": [
    "Verif.Converter.hex_stream_tokens",
    "Verif.Converter.header_tokens",
    "Verif.Converter.long_name_truncated",
    "Verif.Converter.writeHeaderFile_total"
   ],
   "note": "for identifiers of at most 300 characters as font names; the truncation for very long names is proved"
  },
  {
   "property": "C52",
   "status": "proved",
   "theorems": [
    "Verif.Converter.convertRaw_in_bounds",
    "Verif.Converter.convert_in_bounds",
    "Verif.Converter.convert_history_ok",
    "Verif.Converter.convert_stateless",
    "Verif.Converter.convert_code_points",
    "Verif.Converter.convert_bytes",
    "Verif.Converter.convert_history_exact",
    "Verif.Converter.completed_sequence_not_reset"
   ],
   "note": ""
  },
  {
   "property": "C53",
   "status": "proved",
   "theorems": [
    "Verif.Uart.Esp.receiveUntil_exact",
    "Verif.Uart.Esp.receiveUntil_terminates",
    "Verif.Uart.Esp.receiveUntil_zero_blocks",
    "Verif.Uart.Esp.receiveUntil_wrap_gives_up"
   ],
   "note": ""
  },
  {
   "property": "C54",
   "status": "partial",
   "theorems": [
    "Verif.Uart.Esp.receiveBetween_exact_partial",
    "Verif.Uart.Esp.receiveBetween_wrap_exact",
    "Verif.Uart.Esp.receiveBetween_wrap",
    "Verif.Uart.Esp.receiveBetween_waits_past_deadline",
    "Verif.Uart.Esp.receiveBetween_zero_timeout"
   ],
   "note": "proved while the deadline does not wrap the 32-bit counter; false of the code when it does, with the exact result"
  },
  {
   "property": "C55",
   "status": "partial",
   "theorems": [
    "Verif.Uart.Arduino.receive_exact",
    "Verif.Uart.Arduino.receive_terminates",
    "Verif.Uart.Arduino.receiveUntil_exact_partial",
    "Verif.Uart.Arduino.receiveUntil_stream",
    "Verif.Uart.Arduino.receiveUntil_zero_size_ub",
    "Verif.Uart.Arduino.receiveUntil_zero_size_unlimited",
    "Verif.Uart.Arduino.receiveUntil_timeout_terminated",
    "Verif.Uart.Arduino.receiveUntil_full_splits",
    "Verif.Uart.Arduino.receiveBetween_exact_partial",
    "Verif.Uart.Arduino.receiveBetween_size_one_ub",
    "Verif.Uart.Arduino.receiveBetween_small_unlimited",
    "Verif.Uart.Arduino.send_restores"
   ],
   "note": "Receive for all sizes, ReceiveUntil from 1 byte, ReceiveBetween from 2 bytes; smaller sizes proved to write out of bounds"
  },
  {
   "property": "C56",
   "status": "proved",
   "theorems": [
    "Verif.Spi.Arduino.transfer_exact",
    "Verif.Spi.Arduino.transfer_null",
    "Verif.Spi.Arduino.answers_get",
    "Verif.Spi.Arduino.exchanges_get"
   ],
   "note": ""
  },
  {
   "property": "C57",
   "status": "proved",
   "theorems": [
    "Verif.Spi.Esp.transfer_exact",
    "Verif.Spi.Esp.transfer_overrun",
    "Verif.Spi.Esp.transfer_wire",
    "Verif.Spi.Esp.pieces_sum",
    "Verif.Spi.Esp.pieces_bound",
    "Verif.Spi.Esp.pieces_length",
    "Verif.Spi.Esp.submitted_bounds",
    "Verif.Spi.Esp.Bus.transfer_no_handle",
    "Verif.Spi.Esp.Bus.transfer_nothing",
    "Verif.Spi.Esp.receive_needs_half_duplex"
   ],
   "note": ""
  },
  {
   "property": "C58",
   "status": "partial",
   "theorems": [
    "Verif.Spi.Esp.new_destroy",
    "Verif.Spi.Esp.init_exact",
    "Verif.Spi.Esp.release_success_fails",
    "Verif.Spi.Esp.release_twice_ub",
    "Verif.Spi.Esp.destroy_after_release_ub",
    "Verif.Spi.Esp.reinit_fails",
    "Verif.Spi.Esp.release_failure",
    "Verif.Spi.Esp.release_never_succeeds",
    "Verif.Spi.Esp.release_none_partial"
   ],
   "note": "false of the code for every initialised bus; what release does is proved for every driver answer"
  },
  {
   "property": "C59",
   "status": "proved",
   "theorems": [
    "Verif.Hal.Gpio.select_brackets",
    "Verif.Hal.Gpio.select_other"
   ],
   "note": ""
  },
  {
   "property": "C60",
   "status": "proved",
   "theorems": [
    "Verif.Hal.I2c.Arduino.sendSync_exact",
    "Verif.Hal.I2c.Arduino.receiveSync_exact",
    "Verif.Hal.I2c.Arduino.sendThenReceive_exact",
    "Verif.Hal.I2c.Esp.sendThenReceive_exact"
   ],
   "note": ""
  },
  {
   "property": "C61",
   "status": "proved",
   "theorems": [
    "Verif.Hal.Time.delayMicroseconds_waits",
    "Verif.Hal.Time.delayMicroseconds_zero",
    "Verif.Hal.Time.delayMicroseconds_stops"
   ],
   "note": ""
  },
  {
   "property": "C62",
   "status": "partial",
   "theorems": [
    "Verif.Hal.Time.delayTicks_exact",
    "Verif.Hal.Time.delay_at_most",
    "Verif.Hal.Time.delay_at_least_partial",
    "Verif.Hal.Time.delay_measured_partial",
    "Verif.Hal.Time.delay_measured_at_most",
    "Verif.Hal.Time.delay_nine",
    "Verif.Hal.Time.millisecondTicks_exact",
    "Verif.Hal.Time.ticks_difference"
   ],
   "note": "the lower bound is false of the code: the wait is never longer than requested; proved short by less than two ticks"
  },
  {
   "property": "C63",
   "status": "partial",
   "theorems": [
    "Verif.Hal.Time.lightSleep_partial",
    "Verif.Hal.Time.lightSleep_exact",
    "Verif.Hal.Time.lightSleep_on_time",
    "Verif.Hal.Time.lightSleep_stops",
    "Verif.Hal.Time.wakeup_exact",
    "Verif.Hal.Time.lightSleep_overshoots",
    "Verif.Hal.Time.lightSleep_wrap_returns",
    "Verif.Hal.Time.deepSleep_exact"
   ],
   "note": "proved outside of the race window and without wrap of the deadline; both violations proved"
  },
  {
   "property": "C64",
   "status": "partial",
   "theorems": [
    "Verif.Hal.Adc.lookup_sound",
    "Verif.Hal.Adc.lookup_complete",
    "Verif.Hal.Adc.singleRead_exact_partial",
    "Verif.Hal.Adc.singleRead_calls",
    "Verif.Hal.Adc.second_read_fails"
   ],
   "note": "lookup and result proved; repeated reads proved to fail"
  },
  {
   "property": "C65",
   "status": "proved",
   "theorems": [
    "Verif.Hal.Gpio.initEsp_exact",
    "Verif.Hal.Gpio.initEsp_ub_iff",
    "Verif.Hal.Gpio.initArduino_exact"
   ],
   "note": ""
  },
  {
   "property": "C66",
   "status": "partial",
   "theorems": [
    "Verif.Uart.Device.packetReceive_exact_partial",
    "Verif.Uart.Device.packetSend_exact_partial",
    "Verif.Uart.Device.receive_overreports",
    "Verif.Uart.Device.receive_ambiguous",
    "Verif.Uart.Esp.error_reported_as_count",
    "Verif.Uart.Esp.count_passed_on"
   ],
   "note": "calls, buffer contents and counts exact over an arbitrary driver; the error indication of the driver is reported as 65535 bytes: exactly then the count exceeds the request"
  },
  {
   "property": "C67",
   "status": "proved",
   "theorems": [
    "Verif.Hal.I2c.Esp.addressByte_exact",
    "Verif.Hal.I2cBus.testAddress_exact_partial"
   ],
   "note": "the whole probe, for command links with room, is testAddress_exact_partial of C76"
  },
  {
   "property": "C68",
   "status": "proved",
   "theorems": [
    "Verif.Storage.storage_with_crashes_refines_map",
    "Verif.Storage.recovered_refines_map",
    "Verif.Storage.torn_size_breaks_storage",
    "Verif.Storage.torn_size_phantom"
   ],
   "note": "the exclusion in the statement is shown to be necessary for every object size it concerns"
  },
  {
   "property": "C69",
   "status": "partial",
   "theorems": [
    "Verif.Geometry.corners_int_partial",
    "Verif.Geometry.corners_exact",
    "Verif.Geometry.corners_narrow",
    "Verif.Geometry.topRight_overflows",
    "Verif.Geometry.canvas_corners_agree"
   ],
   "note": "exact wherever the position behind the rectangle is representable; proved false for a rectangle touching INT_MAX, where topRight overflows although its result is representable"
  },
  {
   "property": "C70",
   "status": "proved",
   "theorems": [
    "Verif.Geometry.addAssign_eq_add",
    "Verif.Geometry.add_int",
    "Verif.Geometry.add_narrow",
    "Verif.Geometry.translate_corner_narrow",
    "Verif.Geometry.translate_corner_int",
    "Verif.Geometry.convert_exact",
    "Verif.Geometry.convert_to_int",
    "Verif.Geometry.point_eq_iff",
    "Verif.Geometry.size_add_sub",
    "Verif.Geometry.size_mul_div",
    "Verif.Geometry.size_div",
    "Verif.Geometry.matrix_mul_int",
    "Verif.Geometry.matrix_mul_8bit",
    "Verif.Geometry.matrix_mul_defined",
    "Verif.Geometry.matrix_mul_int16",
    "Verif.Geometry.matrix_mul_uint16_ub"
   ],
   "note": "for int8, uint8, int16, uint16 and int"
  },
  {
   "property": "C71",
   "status": "proved",
   "theorems": [
    "Verif.MemoryView.asBytes_elems",
    "Verif.MemoryView.asBytes_write",
    "Verif.MemoryView.write_ok_iff",
    "Verif.MemoryView.sizeBytes_wraps"
   ],
   "note": "byte size representable in the size type, otherwise sizeBytes_wraps"
  },
  {
   "property": "C72",
   "status": "partial",
   "theorems": [
    "Verif.Storage.older_object_reads_partial",
    "Verif.Storage.older_object_overwrites",
    "Verif.Storage.two_objects_lose_record",
    "Verif.Storage.two_objects_phantom"
   ],
   "note": "reads are safe and overwrites are shared; records appended by the newer object are invisible to the older one, and appending through the older one destroys them: proved for every state, all names and all objects of equal size"
  },
  {
   "property": "C73",
   "status": "partial",
   "theorems": [
    "Verif.Converter.Config.config_as_described_partial",
    "Verif.Converter.Config.stoi_number",
    "Verif.Converter.Config.stoi_no_number",
    "Verif.Converter.Config.stoi_intDec",
    "Verif.Converter.Config.ascii_any_case",
    "Verif.Converter.Config.exception_iff",
    "Verif.Converter.Config.upper_ub",
    "Verif.Converter.Config.encoding_ub",
    "Verif.Converter.Config.bad_option_help",
    "Verif.Converter.Config.unknown_letter_help",
    "Verif.Converter.Config.missing_value_help",
    "Verif.Converter.Config.last_char_agrees"
   ],
   "note": "proved for all well-formed settings; false for malformed numbers, which terminate the program by an uncaught exception (exception_iff), and for encoding names with bytes from 0x80 to 0xFE, which are undefined behaviour (encoding_ub)"
  },
  {
   "property": "C74",
   "status": "partial",
   "theorems": [
    "Verif.Converter.Main.main_table",
    "Verif.Converter.Main.binary_font_draws_partial",
    "Verif.Converter.Main.header_font_tokens",
    "Verif.Converter.Main.exit_status",
    "Verif.Converter.Main.missing_glyph_noticed",
    "Verif.Converter.Main.exit_ignores_write_errors",
    "Verif.Converter.Main.incomplete_header",
    "Verif.Converter.Main.unreadable_font_ub",
    "Verif.Converter.Main.negative_size_ub",
    "Verif.Converter.Main.missing_directory_redirected",
    "Verif.Converter.Main.fileName_in_directory",
    "Verif.Converter.Main.fileName_plain",
    "Verif.Converter.Main.dropExtension_ext",
    "Verif.Converter.Main.dropExtension_none",
    "Verif.Converter.Main.join_names",
    "Verif.Converter.Main.fontName_parts",
    "Verif.Converter.Main.charWidth_iff",
    "Verif.Converter.Main.headerHeight_iff"
   ],
   "note": "every character but the last (C44); the exit status is proved to tell what was attempted, write errors are proved to go unnoticed, FreeType errors and negative sizes to be undefined behaviour"
  },
  {
   "property": "C75",
   "status": "partial",
   "theorems": [
    "Verif.Uart.Device.init_history_partial",
    "Verif.Uart.Device.init_fresh",
    "Verif.Uart.Device.init_again",
    "Verif.Uart.Device.init_never_false",
    "Verif.Uart.Device.reinit_ignored",
    "Verif.Uart.Device.send_exact",
    "Verif.Uart.Device.receive_exact",
    "Verif.Uart.Device.receive_below_tick_polls"
   ],
   "note": "the settings are those of the first request for the port; later requests are ignored although reported as successful, and failures abort the program instead of returning false"
  },
  {
   "property": "C76",
   "status": "partial",
   "theorems": [
    "Verif.Hal.I2cBus.init_exact",
    "Verif.Hal.I2cBus.testAddress_exact_partial",
    "Verif.Hal.I2cBus.testAddress_no_memory",
    "Verif.Hal.I2cBus.testAddress_no_leak",
    "Verif.Hal.I2cBus.testAddress_truncated",
    "Verif.Hal.I2cBus.scan_exact",
    "Verif.Hal.I2cBus.reset_exact",
    "Verif.Hal.I2cBus.timeouts"
   ],
   "note": "false when the driver has no room for the address in the command link: the probe goes on without it (testAddress_truncated)"
  },
  {
   "property": "C77",
   "status": "partial",
   "theorems": [
    "Verif.Hal.Clock.milliseconds_agree",
    "Verif.Hal.Clock.elapsed_esp",
    "Verif.Hal.Clock.elapsed_arduino_iff",
    "Verif.Hal.Clock.elapsed_arduino_partial",
    "Verif.Hal.Clock.arduino_runs_backwards"
   ],
   "note": "proved for the ESP32; on Arduino true iff the 32-bit counter does not wrap in between"
  },
  {
   "property": "C78",
   "status": "proved",
   "theorems": [
    "Verif.Spi.Device.Esp.platforms_agree",
    "Verif.Spi.Device.Esp.init_ready",
    "Verif.Spi.Device.Esp.no_handle_refused",
    "Verif.Spi.Device.Esp.device_exact",
    "Verif.Spi.Device.Arduino.device_exact",
    "Verif.Spi.Device.Arduino.in_place_exact"
   ],
   "note": "after initialisation, with a driver which accepts everything"
  },
  {
   "property": "C79",
   "status": "partial",
   "theorems": [
    "Verif.Pbm.compare_iff",
    "Verif.Pbm.read_binary",
    "Verif.Pbm.read_ascii",
    "Verif.Pbm.read_ascii_ub",
    "Verif.Pbm.read_overflow",
    "Verif.Pbm.read_empty",
    "Verif.Pbm.read_sound",
    "Verif.Pbm.header_general",
    "Verif.Pbm.header_sound",
    "Verif.Pbm.binary_roundtrip",
    "Verif.Pbm.compare_binary",
    "Verif.Pbm.compare_truncated",
    "Verif.Pbm.ascii_roundtrip_partial",
    "Verif.Pbm.ascii_unaligned_ub",
    "Verif.Pbm.writePBM_file",
    "Verif.Pbm.writePBM_no_rows",
    "Verif.Pbm.writePBMBinary_file",
    "Verif.Pbm.writePBMBinary_undefined",
    "Verif.Pbm.asciiLines_ok",
    "Verif.Pbm.asciiLines_ub"
   ],
   "note": "the comparison is exact; false for ASCII images whose width is not a multiple of eight (the written file makes readPBM write out of bounds), for surplus pixels and for dimensions whose product overflows; truncated binary files count as zero filled"
  },
  {
   "property": "C80",
   "status": "partial",
   "theorems": [
    "Verif.Storage.arbitrary_refines_map_partial",
    "Verif.Storage.reopen_keeps",
    "Verif.Storage.arbitrary_keeps",
    "Verif.Storage.arbitrary_get_after_set",
    "Verif.Storage.one_byte_tail_breaks",
    "Verif.Storage.one_byte_tail_kept",
    "Verif.Storage.one_byte_tail_hangs",
    "Verif.Storage.one_byte_tail_shifted"
   ],
   "note": "proved unless the last entry found is one byte long; for every such region the sizes of new objects which are kept whatever their contents are exactly those with a record size divisible by 256; the others are acknowledged and lost, shifted or make look-ups endless"
  },
  {
   "property": "C81",
   "status": "proved",
   "theorems": [
    "Verif.Storage.durable",
    "Verif.Storage.acknowledged_durable",
    "Verif.Storage.events_defined"
   ],
   "note": "a storage in use is one whose reopenings found no one-byte entry at the end (C80); objects readable after opening are kept unconditionally"
  },
  {
   "property": "C82",
   "status": "proved",
   "theorems": [
    "Verif.Out.op_exact",
    "Verif.Out.ops_exact",
    "Verif.Out.effect_unique",
    "Verif.Out.float_fields"
   ],
   "note": "if the integer part of a float does not fit, the rest of the buffer is unspecified (std::to_chars leaves it so); the decimals of a float are within the error bound of C21"
  },
  {
   "property": "C83",
   "status": "proved",
   "theorems": [
    "Verif.Text.picture",
    "Verif.Text.fresh_picture",
    "Verif.Text.clear_hides",
    "Verif.Text.seen_unique",
    "Verif.Text.draw_covers"
   ],
   "note": "for the depths 1, 4, 8, 16 and 24 (the others are findings of C24 and C28), coordinates up to 2^28 and radii that are not negative"
  },
  {
   "property": "C84",
   "status": "proved",
   "theorems": [
    "Verif.Uart.Esp.stream_shared_out",
    "Verif.Uart.Esp.stream_taken",
    "Verif.Uart.Esp.stream_packets",
    "Verif.Uart.Esp.Mixed.mixed_shared_out",
    "Verif.Uart.Esp.Mixed.failed_read_repeats"
   ],
   "note": "mixed_shared_out covers calls of Receive in between, none of whose reads fails (C66); stream_taken covers wrapping deadlines, for which ReceiveBetween does not wait for the start byte (finding of C54); stream_shared_out excludes them"
  },
  {
   "property": "C85",
   "status": "proved",
   "theorems": [
    "Verif.Out.serial_exact",
    "Verif.Out.serial_unique",
    "Verif.Out.char_printed_as_number"
   ],
   "note": "finding: there is no operator for char, which is printed as a number; the packets are those handed to the UART, whose answer is ignored by the code"
  },
  {
   "property": "C86",
   "status": "proved",
   "theorems": [
    "Verif.Uart.Arduino.stream_timed",
    "Verif.Uart.Arduino.stream_shared_out",
    "Verif.Uart.Arduino.call_taken",
    "Verif.Uart.Arduino.runTimed_runCalls",
    "Verif.Uart.Arduino.call_takes",
    "Verif.Uart.Arduino.receiveUntilS_ok",
    "Verif.Uart.Arduino.receiveBetweenS_ok",
    "Verif.Uart.Arduino.receiveUntilS_agrees"
   ],
   "note": "for the buffer sizes for which C55 holds (1 for ReceiveUntil, 2 for ReceiveBetween at least); readBytesUntil of the Arduino core reads byte by byte until the terminator, a pause or the length"
  },
  {
   "property": "C87",
   "status": "partial",
   "theorems": [
    "Verif.Uart.Wire.esp_prints_partial",
    "Verif.Uart.Wire.esp_losses_unnoticed",
    "Verif.Uart.Wire.arduino_prints",
    "Verif.Uart.Wire.prints_alike"
   ],
   "note": "packets, order and settings proved; false: on Arduino every packet sent drops the bytes received and not yet read (flush(false)), and on ESP32 losses reported by the driver go unnoticed"
  },
  {
   "property": "C88",
   "status": "partial",
   "theorems": [
    "Verif.Hal.Gpio.Read.check_arduino",
    "Verif.Hal.Gpio.Read.check_esp_input_partial",
    "Verif.Hal.Gpio.Read.check_esp_output_low",
    "Verif.Hal.Gpio.Read.uninitialised_esp",
    "Verif.Hal.Gpio.Read.esp_readback_false"
   ],
   "note": "proved on Arduino and for inputs on ESP32; false for outputs on ESP32, which always read low: negation proved with the exact behaviour"
  },
  {
   "property": "C89",
   "status": "partial",
   "theorems": [
    "Verif.Spi.Shared.own_clock_iff",
    "Verif.Spi.Shared.run_clocked",
    "Verif.Spi.Shared.transfers_own_clock_partial",
    "Verif.Spi.Shared.sendByte_foreign_clock",
    "Verif.Spi.Shared.transfer_clocked",
    "Verif.Spi.Shared.sendByte_clocked",
    "Verif.Spi.Shared.sendBytes_clocked",
    "Verif.Spi.Shared.sendBytes_ub"
   ],
   "note": "order and completeness proved for every program; transfer has its own settings; sendByte and sendBytes begin no transaction and have those of the last transfer of any object: exact condition and negation proved"
  },
  {
   "property": "C90",
   "status": "partial",
   "theorems": [
    "Verif.Uart.Portable.platforms_agree_partial",
    "Verif.Uart.Portable.esp_messages",
    "Verif.Uart.Portable.arduino_messages",
    "Verif.Uart.Portable.idle_line",
    "Verif.Uart.Portable.full_buffer",
    "Verif.Uart.Portable.too_long",
    "Verif.Uart.Portable.zero_timeout",
    "Verif.Uart.Portable.Bulk.platforms_agree_partial",
    "Verif.Uart.Portable.Bulk.esp_messages",
    "Verif.Uart.Portable.Bulk.arduino_messages",
    "Verif.Uart.Portable.Bulk.receive_zero_timeout",
    "Verif.Uart.Portable.Bulk.receive_failure"
   ],
   "note": "agreement proved for every program of messages shorter than the buffer by one byte at least (for Receive: of the size asked for) and arriving in time; false otherwise, each case with a general theorem: packet filling the buffer, packet too long, idle line, time-out zero, failing driver"
  },
  {
   "property": "C91",
   "status": "proved",
   "theorems": [
    "Verif.Spi.Select.isolation",
    "Verif.Spi.Select.isolation_all",
    "Verif.Spi.Select.run_exact",
    "Verif.Spi.Select.session_exact",
    "Verif.Spi.Select.platforms_agree",
    "Verif.Spi.Select.arduino_exact",
    "Verif.Spi.Select.espFull_exact",
    "Verif.Spi.Select.espHalf_exact",
    "Verif.Spi.Select.receive_refused",
    "Verif.Spi.Select.low_pin_sees",
    "Verif.Spi.Select.unset_pins_disturb"
   ],
   "note": "noninterference for arbitrary devices and interactive drivers; that the pins must be high is shown by the last two theorems"
  },
  {
   "property": "C92",
   "status": "partial",
   "theorems": [
    "Verif.Hal.I2c.Portable.platforms_agree_partial",
    "Verif.Hal.I2c.Portable.call_portable_iff",
    "Verif.Hal.I2c.Portable.long_message_cut",
    "Verif.Hal.I2c.Portable.long_read_fails",
    "Verif.Hal.I2c.Portable.Arduino.call_exact",
    "Verif.Hal.I2c.Portable.Esp.call_exact",
    "Verif.Hal.I2c.Portable.call_isolated"
   ],
   "note": "agreement for all programs whose messages fit the buffer of TwoWire; false for every longer message; exact condition for single calls; calls to one device tell the others nothing and depend only on the messages to it (call_isolated)"
  },
  {
   "property": "C93",
   "status": "partial",
   "theorems": [
    "Verif.Converter.Main.header_compiles",
    "Verif.Converter.Main.formats_agree",
    "Verif.Converter.Main.header_font_draws_partial",
    "Verif.Converter.Main.large_header_refused"
   ],
   "note": "the header compiles exactly if there is a pixel, the bitmaps begin below 65536 and the height fits a byte; then both formats are the same font; drawing of all characters but the last one (C44)"
  },
  {
   "property": "C94",
   "status": "proved",
   "theorems": [
    "Verif.Spi.Esp.Life.call_exact",
    "Verif.Spi.Esp.Life.never_hangs",
    "Verif.Spi.Esp.Life.init_once",
    "Verif.Spi.Esp.Life.success_needs_init",
    "Verif.Spi.Esp.Life.undefined_only_after_release"
   ],
   "note": "a null handle is refused by the driver, as the vendor documents"
  },
  {
   "property": "C95",
   "status": "proved",
   "theorems": [
    "Verif.Converter.Main.handles_tidy",
    "Verif.Converter.Main.handles_balanced",
    "Verif.Converter.Main.mainActs_main"
   ],
   "note": "the traced program is proved to be the one of C74 apart from the trace; nothing is claimed of runs with undefined behaviour"
  },
  {
   "property": "C96",
   "status": "partial",
   "theorems": [
    "Verif.Hal.Gpio.Portable.portable_agrees_partial",
    "Verif.Hal.Gpio.Portable.portable_exact"
   ],
   "note": "results and levels agree exactly for the programs whose init is never refused and which read no output that is high (C88)"
  },
  {
   "property": "C97",
   "status": "proved",
   "theorems": [
    "Verif.Uart.Lines.esp_lines_arrive",
    "Verif.Uart.Lines.arduino_lines_arrive",
    "Verif.Uart.Lines.esp_numbers_arrive",
    "Verif.Uart.Lines.arduino_numbers_arrive",
    "Verif.Uart.Lines.reads_no_newline"
   ],
   "note": "under the conditions of C90 on the receiver (two bytes to spare, quick clock); what happens otherwise is shown there"
  },
  {
   "property": "C98",
   "status": "proved",
   "theorems": [
    "Verif.Converter.Main.mainSays_main",
    "Verif.Converter.Main.says_exact",
    "Verif.Converter.Main.usage_wrong_default"
   ],
   "note": "the talking program is proved to be the one of C74 apart from the messages; the text of getopt and of uncaught exceptions is not modelled; finding: the usage names a wrong default encoding"
  },
  {
   "property": "C99",
   "status": "proved",
   "theorems": [
    "Verif.Storage.image_exact",
    "Verif.Storage.image_only_sets",
    "Verif.Storage.image_opens",
    "Verif.Storage.image_injective"
   ],
   "note": "the log and its bytes are specified without the model's encoder; objects which do not fit the size field are excluded (C09)"
  }
 ]
}
