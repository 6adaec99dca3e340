# Axioms of the property theorems

Written by `tools/axioms.py` from `#print axioms`.

## Quot.sound (2)

* `Verif.Hal.Misuse.uart_send`
* `Verif.Hal.Misuse.esp_spi_refused`

## none (9)

* `Verif.Hal.Misuse.arduino_i2c_send`
* `Verif.Hal.Misuse.esp_i2c_send`
* `Verif.Out.manipulators_only_set`
* `Verif.Converter.codes_nodup`
* `Verif.Hal.Time.delayMicroseconds_zero`
* `Verif.Geometry.matrix_mul_defined`
* `Verif.Uart.Device.init_again`
* `Verif.Spi.Device.Esp.init_ready`
* `Verif.Uart.Arduino.runTimed_runCalls`

## propext (54)

* `Verif.Storage.open_one_byte_tail_unsafe`
* `Verif.Storage.crash_phantom_value`
* `Verif.Storage.crash_overwrite_torn`
* `Verif.Storage.set_get_roundtrip_false`
* `Verif.Storage.wearOf_log`
* `Verif.Text.legTable_eq`
* `Verif.Out.fixed_unique`
* `Verif.Canvas.line_turned_differs`
* `Verif.Uart.Timed.until_wrap_waits`
* `Verif.Out.far_from_stream`
* `Verif.Uart.Server.inTime_lossless`
* `Verif.App.KeyValue.says_unique`
* `Verif.Uart.DebugLog.esp_log_lost`
* `Verif.Storage.lost_object`
* `Verif.Storage.torn_read`
* `Verif.Storage.work_tight`
* `Verif.App.Lock.serial`
* `Verif.App.LockedPower.torn_under_lock`
* `Verif.Storage.open_work_tight`
* `Verif.Storage.open_torn`
* `Verif.Storage.open_stale`
* `Verif.MemoryView.sizeBytes_exact`
* `Verif.MemoryView.null_view`
* `Verif.Out.close_resets`
* `Verif.Text.textBounds_empty`
* `Verif.Text.freeSans_excess_attained`
* `Verif.Uart.Arduino.send_restores`
* `Verif.Spi.Arduino.transfer_null`
* `Verif.Spi.Arduino.answers_get`
* `Verif.Spi.Arduino.exchanges_get`
* `Verif.Spi.Esp.new_destroy`
* `Verif.Spi.Esp.init_exact`
* `Verif.Spi.Esp.release_none_partial`
* `Verif.Hal.Gpio.select_other`
* `Verif.Hal.Time.delayTicks_exact`
* `Verif.Hal.Time.delay_nine`
* `Verif.Hal.Gpio.initEsp_ub_iff`
* `Verif.Uart.Esp.error_reported_as_count`
* `Verif.Uart.Esp.count_passed_on`
* `Verif.Storage.torn_size_breaks_storage`
* `Verif.Geometry.addAssign_eq_add`
* `Verif.MemoryView.sizeBytes_wraps`
* `Verif.Storage.two_objects_phantom`
* `Verif.Converter.Main.fileName_in_directory`
* `Verif.Converter.Main.dropExtension_ext`
* `Verif.Converter.Main.dropExtension_none`
* `Verif.Converter.Main.join_names`
* `Verif.Hal.I2cBus.init_exact`
* `Verif.Hal.I2cBus.reset_exact`
* `Verif.Pbm.writePBM_no_rows`
* `Verif.Text.seen_unique`
* `Verif.Spi.Shared.sendByte_clocked`
* `Verif.Spi.Select.low_pin_sees`
* `Verif.Converter.Main.usage_wrong_default`

## Quot.sound, propext (203)

* `Verif.Storage.big_object_never_readable`
* `Verif.Text.legTable_readable`
* `Verif.Storage.init_wipes`
* `Verif.Text.Adafruit.freeSans_seven_bit`
* `Verif.Uart.Timed.until_wrap`
* `Verif.Uart.Timed.untilA_in_time_partial`
* `Verif.Uart.Timed.untilA_slow`
* `Verif.Uart.Timed.receiveUntil_untimed`
* `Verif.Uart.Timed.receiveBetween_untimed`
* `Verif.Uart.Timed.receive_untimed`
* `Verif.Uart.Timed.receiveUntilA_untimed`
* `Verif.Uart.Timed.receiveBetweenA_untimed`
* `Verif.Hal.Adc.Portable.at_most_two`
* `Verif.App.BootCounter.reset_at_carry`
* `Verif.App.BootCounter.reset_at_first_stuck`
* `Verif.App.BootCounter.beside_run`
* `Verif.Uart.Server.arduino_forgets`
* `Verif.Uart.DebugLog.safe_sane`
* `Verif.App.TwoSlots.Register.last`
* `Verif.Hal.I2c.Shared.esp_exact`
* `Verif.Storage.getA_exec`
* `Verif.Storage.interleave_alone`
* `Verif.Storage.interleave_adder`
* `Verif.Storage.Acc.work_steps`
* `Verif.Storage.uniform_sharp`
* `Verif.App.KeyValue.phantom`
* `Verif.Text.drawPixelC_assigns`
* `Verif.Text.jobsA_exec`
* `Verif.Text.color_mixed`
* `Verif.Uart.LogTasks.line_solo`
* `Verif.Uart.LogTasks.lines_merge`
* `Verif.Uart.LogTasks.full_line_cut`
* `Verif.Uart.LogTasks.shared_mixed`
* `Verif.Uart.LogTasks.shared_overrun`
* `Verif.Hal.I2c.Tasks.opIo_exec`
* `Verif.Hal.I2c.Tasks.progIo_exec`
* `Verif.Hal.I2c.Tasks.register_mixed`
* `Verif.App.Locked.I2c.esp_serial`
* `Verif.Spi.Tasks.scope_completes`
* `Verif.Spi.Tasks.both_selected`
* `Verif.Hal.Misuse.arduino_i2c_receive`
* `Verif.Hal.Misuse.esp_i2c_receive`
* `Verif.Storage.openA_exec`
* `Verif.Storage.open_torn_all`
* `Verif.MemoryView.elems_ok`
* `Verif.MemoryView.subspan_at`
* `Verif.MemoryView.relems_spec`
* `Verif.MemoryView.ofArray_elems`
* `Verif.Out.canonical_text_unique`
* `Verif.Out.width_drops_digits`
* `Verif.Out.width_out_of_bounds`
* `Verif.Out.bytes_printed_as_hex`
* `Verif.Out.byte_printed_as_hex_partial`
* `Verif.Out.byte_out_of_bounds`
* `Verif.Out.float_out_of_range_ub`
* `Verif.Out.empty_buffer_loses_newline`
* `Verif.Out.data_is_text_iff`
* `Verif.Out.data_shows_text_partial`
* `Verif.Out.data_truncated`
* `Verif.FrameBuffer.depth2_witness`
* `Verif.FrameBuffer.depth32_constructor_ub`
* `Verif.Canvas.transform_is_phys`
* `Verif.Canvas.rotation_isometry`
* `Verif.Canvas.matrix_form_agrees`
* `Verif.Canvas.empty_rect_paints_nothing`
* `Verif.Text.glyphSet_congr`
* `Verif.Font.getBitmap_finds_partial`
* `Verif.Font.getBitmap_fallback_partial`
* `Verif.Font.getBitmap_terminates`
* `Verif.Font.high_font_hangs`
* `Verif.Font.signed_upper_half_fallback`
* `Verif.Font.glyph_view_inside_partial`
* `Verif.Font.last_glyph_ub`
* `Verif.Font.freeSans_consistent`
* `Verif.Font.freeSans_inside`
* `Verif.Converter.glyphsFile_reads`
* `Verif.Converter.header_offset_truncated`
* `Verif.Converter.codes_order`
* `Verif.Converter.long_name_truncated`
* `Verif.Converter.convertRaw_in_bounds`
* `Verif.Converter.convert_in_bounds`
* `Verif.Converter.convert_history_ok`
* `Verif.Converter.convert_stateless`
* `Verif.Converter.convert_code_points`
* `Verif.Converter.convert_bytes`
* `Verif.Converter.convert_history_exact`
* `Verif.Uart.Esp.receiveUntil_exact`
* `Verif.Uart.Esp.receiveUntil_terminates`
* `Verif.Uart.Esp.receiveUntil_zero_blocks`
* `Verif.Uart.Esp.receiveUntil_wrap_gives_up`
* `Verif.Uart.Esp.receiveBetween_wrap`
* `Verif.Uart.Esp.receiveBetween_zero_timeout`
* `Verif.Uart.Arduino.receive_exact`
* `Verif.Uart.Arduino.receive_terminates`
* `Verif.Uart.Arduino.receiveUntil_exact_partial`
* `Verif.Uart.Arduino.receiveUntil_stream`
* `Verif.Uart.Arduino.receiveUntil_zero_size_ub`
* `Verif.Uart.Arduino.receiveUntil_zero_size_unlimited`
* `Verif.Uart.Arduino.receiveUntil_timeout_terminated`
* `Verif.Uart.Arduino.receiveUntil_full_splits`
* `Verif.Uart.Arduino.receiveBetween_exact_partial`
* `Verif.Uart.Arduino.receiveBetween_size_one_ub`
* `Verif.Uart.Arduino.receiveBetween_small_unlimited`
* `Verif.Spi.Esp.transfer_exact`
* `Verif.Spi.Esp.transfer_overrun`
* `Verif.Spi.Esp.pieces_sum`
* `Verif.Spi.Esp.pieces_length`
* `Verif.Spi.Esp.Bus.transfer_no_handle`
* `Verif.Spi.Esp.Bus.transfer_nothing`
* `Verif.Spi.Esp.receive_needs_half_duplex`
* `Verif.Spi.Esp.release_success_fails`
* `Verif.Spi.Esp.release_twice_ub`
* `Verif.Spi.Esp.destroy_after_release_ub`
* `Verif.Spi.Esp.reinit_fails`
* `Verif.Spi.Esp.release_failure`
* `Verif.Spi.Esp.release_never_succeeds`
* `Verif.Hal.I2c.Arduino.sendSync_exact`
* `Verif.Hal.I2c.Arduino.receiveSync_exact`
* `Verif.Hal.I2c.Arduino.sendThenReceive_exact`
* `Verif.Hal.Time.delay_at_most`
* `Verif.Hal.Time.delay_at_least_partial`
* `Verif.Hal.Time.wakeup_exact`
* `Verif.Hal.Time.lightSleep_wrap_returns`
* `Verif.Hal.Time.deepSleep_exact`
* `Verif.Hal.Adc.lookup_complete`
* `Verif.Hal.Adc.singleRead_exact_partial`
* `Verif.Hal.Adc.second_read_fails`
* `Verif.Hal.Gpio.initEsp_exact`
* `Verif.Hal.Gpio.initArduino_exact`
* `Verif.Uart.Device.packetReceive_exact_partial`
* `Verif.Uart.Device.packetSend_exact_partial`
* `Verif.Uart.Device.receive_overreports`
* `Verif.Uart.Device.receive_ambiguous`
* `Verif.Hal.I2c.Esp.addressByte_exact`
* `Verif.Hal.I2cBus.testAddress_exact_partial`
* `Verif.Geometry.point_eq_iff`
* `Verif.MemoryView.asBytes_elems`
* `Verif.MemoryView.asBytes_write`
* `Verif.MemoryView.write_ok_iff`
* `Verif.Converter.Config.stoi_number`
* `Verif.Converter.Config.stoi_no_number`
* `Verif.Converter.Config.exception_iff`
* `Verif.Converter.Config.upper_ub`
* `Verif.Converter.Config.encoding_ub`
* `Verif.Converter.Config.bad_option_help`
* `Verif.Converter.Config.last_char_agrees`
* `Verif.Converter.Main.exit_status`
* `Verif.Converter.Main.missing_glyph_noticed`
* `Verif.Converter.Main.exit_ignores_write_errors`
* `Verif.Converter.Main.incomplete_header`
* `Verif.Converter.Main.unreadable_font_ub`
* `Verif.Converter.Main.negative_size_ub`
* `Verif.Converter.Main.missing_directory_redirected`
* `Verif.Converter.Main.fileName_plain`
* `Verif.Converter.Main.fontName_parts`
* `Verif.Uart.Device.init_history_partial`
* `Verif.Uart.Device.init_fresh`
* `Verif.Uart.Device.init_never_false`
* `Verif.Uart.Device.reinit_ignored`
* `Verif.Uart.Device.send_exact`
* `Verif.Uart.Device.receive_exact`
* `Verif.Uart.Device.receive_below_tick_polls`
* `Verif.Hal.I2cBus.testAddress_no_memory`
* `Verif.Hal.I2cBus.testAddress_no_leak`
* `Verif.Hal.I2cBus.testAddress_truncated`
* `Verif.Hal.I2cBus.scan_exact`
* `Verif.Hal.I2cBus.timeouts`
* `Verif.Hal.Clock.elapsed_esp`
* `Verif.Hal.Clock.elapsed_arduino_partial`
* `Verif.Hal.Clock.arduino_runs_backwards`
* `Verif.Spi.Device.Esp.no_handle_refused`
* `Verif.Spi.Device.Esp.device_exact`
* `Verif.Pbm.header_sound`
* `Verif.Pbm.writePBM_file`
* `Verif.Out.effect_unique`
* `Verif.Uart.Esp.Mixed.failed_read_repeats`
* `Verif.Out.serial_unique`
* `Verif.Hal.Gpio.Read.check_arduino`
* `Verif.Hal.Gpio.Read.check_esp_input_partial`
* `Verif.Hal.Gpio.Read.check_esp_output_low`
* `Verif.Hal.Gpio.Read.uninitialised_esp`
* `Verif.Hal.Gpio.Read.esp_readback_false`
* `Verif.Spi.Shared.sendBytes_clocked`
* `Verif.Spi.Shared.sendBytes_ub`
* `Verif.Uart.Portable.esp_messages`
* `Verif.Uart.Portable.full_buffer`
* `Verif.Uart.Portable.too_long`
* `Verif.Uart.Portable.zero_timeout`
* `Verif.Uart.Portable.Bulk.esp_messages`
* `Verif.Uart.Portable.Bulk.receive_zero_timeout`
* `Verif.Spi.Select.unset_pins_disturb`
* `Verif.Hal.I2c.Portable.Esp.call_exact`
* `Verif.Spi.Esp.Life.call_exact`
* `Verif.Spi.Esp.Life.init_once`
* `Verif.Spi.Esp.Life.success_needs_init`
* `Verif.Spi.Esp.Life.undefined_only_after_release`
* `Verif.Converter.Main.handles_tidy`
* `Verif.Converter.Main.mainActs_main`
* `Verif.Hal.Gpio.Portable.portable_agrees_partial`
* `Verif.Hal.Gpio.Portable.portable_exact`
* `Verif.Uart.Lines.reads_no_newline`
* `Verif.Converter.Main.mainSays_main`
* `Verif.Converter.Main.says_exact`

## Classical.choice, Quot.sound, propext (473)

* `Verif.Storage.storage_refines_map`
* `Verif.Storage.get_after_set`
* `Verif.Storage.reopen_identity`
* `Verif.Storage.reopen_unobservable`
* `Verif.Storage.set_capacity`
* `Verif.Storage.open_total`
* `Verif.Storage.open_get_safe`
* `Verif.Storage.open_ops_safe_partial`
* `Verif.Storage.arbitrary_keeps`
* `Verif.Storage.one_byte_tail_breaks`
* `Verif.Storage.crash_append_keeps_records`
* `Verif.Storage.crash_overwrite_local`
* `Verif.Storage.crash_append_atomic_partial`
* `Verif.Storage.crash_append_exact_partial`
* `Verif.Storage.crash_overwrite_one_byte_atomic`
* `Verif.Storage.torn_size_one`
* `Verif.Storage.set_get_roundtrip_partial`
* `Verif.Storage.long_name_never_readable`
* `Verif.Storage.long_name_stored_truncated`
* `Verif.Storage.set_get_size_bound_partial`
* `Verif.Storage.big_object_accepted`
* `Verif.Storage.big_object_hangs`
* `Verif.Storage.big_object_acknowledged`
* `Verif.Storage.big_object_keeps`
* `Verif.Storage.big_object_truncated`
* `Verif.Storage.big_object_forges`
* `Verif.Storage.big_zeros_hang`
* `Verif.Storage.set_independent`
* `Verif.Storage.get_trailing_nul`
* `Verif.Storage.get_never_stored`
* `Verif.Converter.Main.binary_text_draws_partial`
* `Verif.Converter.Main.header_text_draws_partial`
* `Verif.Pbm.checkBuffer_iff`
* `Verif.Pbm.drawing_test_exact`
* `Verif.Canvas.circle_connected`
* `Verif.Canvas.circle_tight`
* `Verif.Canvas.drawCircle_closed`
* `Verif.Storage.wear_exact`
* `Verif.Storage.quiet_ops`
* `Verif.Hal.Time.measured_at_least`
* `Verif.Hal.Time.measured_exact`
* `Verif.Hal.Time.measuredMs_at_least`
* `Verif.Hal.Time.delays_end`
* `Verif.Canvas.line_writes`
* `Verif.Canvas.rectangle_writes`
* `Verif.Canvas.filled_rectangle_writes`
* `Verif.Canvas.circle_writes`
* `Verif.Canvas.disc_writes`
* `Verif.Canvas.outer_steep`
* `Verif.Canvas.dot_writes`
* `Verif.Text.char_writes`
* `Verif.Text.string_writes`
* `Verif.Storage.all_stored_iff`
* `Verif.Storage.order_irrelevant`
* `Verif.Storage.store_again`
* `Verif.Storage.last_store_wins`
* `Verif.Text.same_pixels_iff`
* `Verif.Text.legible`
* `Verif.Text.legible_visible`
* `Verif.Text.page_legible`
* `Verif.Text.number_legible`
* `Verif.Out.floats_ordered_partial`
* `Verif.Out.negative_mirrored`
* `Verif.Out.fraction_without_sign`
* `Verif.Out.fractions_reversed`
* `Verif.Canvas.drawLine_exact`
* `Verif.Canvas.line_turned_iff`
* `Verif.Canvas.drawLine_turned_partial`
* `Verif.Canvas.lineAt_moved`
* `Verif.Text.turned_program`
* `Verif.Text.covered_turned`
* `Verif.Text.order_irrelevant`
* `Verif.Text.one_colour`
* `Verif.Text.order_matters`
* `Verif.Text.img_ext`
* `Verif.Text.draw_moved`
* `Verif.Text.program_moved`
* `Verif.Text.covered_moved`
* `Verif.Text.Adafruit.char_as_adafruit_partial`
* `Verif.Text.Adafruit.text_as_adafruit_partial`
* `Verif.Text.Adafruit.last_char_differs`
* `Verif.Text.Adafruit.outside_differs`
* `Verif.Text.Adafruit.converted_as_adafruit`
* `Verif.Converter.Config.documented_options_partial`
* `Verif.Converter.Config.long_option_help`
* `Verif.Converter.Config.documented_iff`
* `Verif.Converter.Config.long_number_terminates`
* `Verif.Converter.Main.long_option_writes_nothing`
* `Verif.Converter.Main.default_directory`
* `Verif.Uart.Timed.until_in_time`
* `Verif.Uart.Timed.until_prompt`
* `Verif.Uart.Timed.between_in_time_partial`
* `Verif.Uart.Timed.between_prompt`
* `Verif.Uart.Timed.between_endless`
* `Verif.Uart.Timed.between_late_start`
* `Verif.Uart.Timed.receive_in_time`
* `Verif.Uart.Timed.receive_prompt`
* `Verif.Uart.Timed.untilA_prompt`
* `Verif.Uart.Timed.betweenA_in_time_partial`
* `Verif.Uart.Timed.until_not_slow`
* `Verif.Uart.Timed.between_dripping`
* `Verif.Hal.Adc.Portable.portable_iff_partial`
* `Verif.Hal.Adc.Portable.not_portable_twice`
* `Verif.Out.like_stream_partial`
* `Verif.Out.std_step_iff`
* `Verif.Out.places_of_ge_four`
* `Verif.Out.stdEffect_unique`
* `Verif.Out.stdEffect_exists`
* `Verif.Out.std_differs`
* `Verif.Out.near_stream_partial`
* `Verif.Spi.Display.picture_arrives_partial`
* `Verif.Spi.Display.pieces_arrive`
* `Verif.Spi.Display.large_image_cut`
* `Verif.Spi.Display.blank_display`
* `Verif.App.Thermometer.thermometer`
* `Verif.App.Thermometer.measure_exact`
* `Verif.App.Thermometer.converted`
* `Verif.App.Thermometer.depicts_unique`
* `Verif.App.BootCounter.counts`
* `Verif.App.BootCounter.boot_exact`
* `Verif.App.BootCounter.reset_while_counting`
* `Verif.App.BootCounter.reset_at_first`
* `Verif.App.BootCounter.prints`
* `Verif.Endian.changeEndianess16_reverses_bytes`
* `Verif.Endian.changeEndianess32_reverses_bytes`
* `Verif.Endian.changeEndianess16_involutive`
* `Verif.Endian.changeEndianess32_involutive`
* `Verif.Endian.changeEndianess16_injective`
* `Verif.Endian.changeEndianess32_injective`
* `Verif.Uart.Server.esp_serves`
* `Verif.Uart.Server.arduino_serves`
* `Verif.Uart.Server.lockStep_alike`
* `Verif.App.KeyValue.esp_keyValue`
* `Verif.App.KeyValue.arduino_keyValue`
* `Verif.App.KeyValue.handle_says`
* `Verif.App.Telemetry.esp_sends`
* `Verif.App.Telemetry.arduino_sends`
* `Verif.App.Telemetry.frames_arrive`
* `Verif.App.Telemetry.accept_total`
* `Verif.App.Telemetry.equal_marks`
* `Verif.Uart.DebugLog.esp_log`
* `Verif.Uart.DebugLog.arduino_log`
* `Verif.Uart.DebugLog.arduino_log_interferes`
* `Verif.App.TwoSlots.all_or_nothing`
* `Verif.App.TwoSlots.update_total`
* `Verif.App.TwoSlots.one_slot_tears`
* `Verif.App.Sleep.sleep_transparent`
* `Verif.App.Sleep.sleep_forgets`
* `Verif.Spi.Faults.espFull_exact`
* `Verif.Spi.Faults.espHalf_exact`
* `Verif.Spi.Faults.run_exact`
* `Verif.Spi.Faults.isolation`
* `Verif.Spi.Faults.fault_reported`
* `Verif.App.Once.exactly_once`
* `Verif.App.Once.always_progress`
* `Verif.App.Once.too_late`
* `Verif.Hal.I2c.Shared.arduino_exact`
* `Verif.Hal.I2c.Shared.run_exact`
* `Verif.Hal.I2c.Shared.isolation`
* `Verif.Hal.I2c.Shared.same_address`
* `Verif.Storage.setA_exec`
* `Verif.Storage.tasks_isolated`
* `Verif.Storage.no_race`
* `Verif.Endian.changeEndianess16x2_swaps_halves`
* `Verif.Endian.changeEndianess16x2_involutive`
* `Verif.Storage.one_adder`
* `Verif.Storage.only_head`
* `Verif.Storage.get_work`
* `Verif.Storage.set_work`
* `Verif.Storage.made_few`
* `Verif.Storage.call_work`
* `Verif.Storage.uniform_inUse`
* `Verif.Storage.uniform_kept`
* `Verif.Storage.uniform_cost`
* `Verif.App.KeyValue.acknowledged_kept`
* `Verif.App.KeyValue.restarts`
* `Verif.App.KeyValue.esp_life`
* `Verif.App.KeyValue.arduino_life`
* `Verif.Text.share_iff`
* `Verif.Text.drawn_alone`
* `Verif.Text.rows_apart`
* `Verif.Text.lost_pixel`
* `Verif.Uart.LogTasks.packets_whole`
* `Verif.Uart.LogTasks.esp_lines_whole`
* `Verif.Hal.I2c.Tasks.esp_alone`
* `Verif.Hal.I2c.Tasks.opTw_exec`
* `Verif.Hal.I2c.Tasks.sent_astray`
* `Verif.Hal.I2c.Tasks.read_astray`
* `Verif.App.Lock.no_deadlock`
* `Verif.App.Locked.Store.storage_serial`
* `Verif.App.Locked.Store.storage_ends`
* `Verif.App.Locked.Store.no_lost_update`
* `Verif.App.Locked.Log.log_serial`
* `Verif.App.Locked.Log.log_ends`
* `Verif.App.Locked.I2c.progTw_exec`
* `Verif.App.Locked.I2c.wire_serial`
* `Verif.App.Locked.I2c.bus_ends`
* `Verif.App.LockedDraw.draw_serial`
* `Verif.App.LockedDraw.draw_ends`
* `Verif.Spi.Tasks.spi_serial`
* `Verif.Spi.Tasks.spi_ends`
* `Verif.Spi.Tasks.whole_frames`
* `Verif.App.LockedPower.power_loss`
* `Verif.App.LockedPower.counter_power_loss`
* `Verif.App.LockedPower.boots_keep`
* `Verif.Endian.changeEndianessToFloat_roundtrip`
* `Verif.Endian.changeEndianessToFloat_bytes`
* `Verif.App.LockedSlots.slots_serial`
* `Verif.App.LockedSlots.slots_power_loss`
* `Verif.App.LockedSlots.slots_ends`
* `Verif.App.LockedSlots.life_counts`
* `Verif.Hal.Misuse.uart_receive`
* `Verif.Hal.Misuse.arduino_spi`
* `Verif.Hal.Misuse.esp_spi`
* `Verif.Canvas.drawPixel_domain`
* `Verif.Canvas.drawRectangle_domain`
* `Verif.Canvas.drawFilledRectangle_domain`
* `Verif.Canvas.drawLine_domain`
* `Verif.Canvas.drawCircle_domain`
* `Verif.Canvas.drawCircle_domain_nonpos`
* `Verif.Canvas.errOverflow_small`
* `Verif.Canvas.errOverflow_big`
* `Verif.Canvas.errOverflow_first`
* `Verif.Canvas.drawCircle_domain_small`
* `Verif.Canvas.drawCircle_never`
* `Verif.Text.drawCharAt_domain`
* `Verif.Text.drawStringAt_domain`
* `Verif.Text.drawStringAt_fine`
* `Verif.FrameBuffer.drawPixel_anywhere`
* `Verif.FrameBuffer.drawPixel_anywhere_exact`
* `Verif.FrameBuffer.inRange_fine`
* `Verif.FrameBuffer.drawPixel_above`
* `Verif.Storage.open_work`
* `Verif.Storage.open_beside`
* `Verif.Storage.open_while_added`
* `Verif.MemoryView.subspan_spec`
* `Verif.MemoryView.first_spec`
* `Verif.MemoryView.last_spec`
* `Verif.MemoryView.at_spec`
* `Verif.MemoryView.front_back_spec`
* `Verif.MemoryView.ofPtrs_elems`
* `Verif.MemoryView.subspan_take`
* `Verif.MemoryView.subspan_subspan`
* `Verif.MemoryView.first_subspan_partition`
* `Verif.MemoryView.last_eq_subspan`
* `Verif.Out.text_is_truncated_concatenation`
* `Verif.Out.int_printed_exactly`
* `Verif.Out.width_pads_left_partial`
* `Verif.Out.width_kept_when_no_room`
* `Verif.Out.fill_width_int_partial`
* `Verif.Out.float_printed_partial`
* `Verif.Out.precision_float_partial`
* `Verif.Out.rnd_nearest`
* `Verif.Out.negative_fraction_loses_sign`
* `Verif.Out.float_too_long_garbage`
* `Verif.Out.float_ub_iff`
* `Verif.Out.float_fields`
* `Verif.Out.messages_sent_in_order`
* `Verif.FrameBuffer.drawPixel_exact`
* `Verif.FrameBuffer.drawPixel_pixels`
* `Verif.FrameBuffer.setColor_masks`
* `Verif.FrameBuffer.depth2_exact_partial`
* `Verif.FrameBuffer.depth2_negative_shift`
* `Verif.FrameBuffer.depth2_wrong_pixel`
* `Verif.FrameBuffer.clear_fills`
* `Verif.FrameBuffer.clear_depth2_ub`
* `Verif.FrameBuffer.dims_depth1_partial`
* `Verif.FrameBuffer.dims_deep`
* `Verif.FrameBuffer.index_in_bounds`
* `Verif.Canvas.drawing_clipped`
* `Verif.Canvas.rotation_bijective`
* `Verif.Canvas.drawPixel_paints`
* `Verif.Canvas.drawLine_line`
* `Verif.Canvas.straight_line_exact`
* `Verif.Canvas.drawLine_direction`
* `Verif.Canvas.drawRectangle_border`
* `Verif.Canvas.drawRectangle_outline`
* `Verif.Canvas.drawRectangle_empty_stray`
* `Verif.Canvas.drawFilledRectangle_exact`
* `Verif.Canvas.transformRect_agrees`
* `Verif.Canvas.drawCircle_exact`
* `Verif.Canvas.drawCircle_zero`
* `Verif.Canvas.drawCircle_negative`
* `Verif.Canvas.circle_near`
* `Verif.Canvas.circle_rows`
* `Verif.Canvas.onCircle_row_iff`
* `Verif.Canvas.onCircle_column_iff`
* `Verif.Canvas.onCircle_diagonal_iff`
* `Verif.Canvas.circle_within_half`
* `Verif.Canvas.drawCircle_ideal`
* `Verif.Canvas.drawFilledCircle_exact`
* `Verif.Canvas.disc_between`
* `Verif.Canvas.disc_ideal`
* `Verif.Canvas.circle_symmetric`
* `Verif.Canvas.circle_rotation_invariant`
* `Verif.Text.drawCharAt_exact`
* `Verif.Text.drawCharAt_glyph_partial`
* `Verif.Text.drawStringAt_exact`
* `Verif.Canvas.no_overflow`
* `Verif.Font.control_codes_alias`
* `Verif.Text.textBounds_exact`
* `Verif.Text.text_fits_rows_partial`
* `Verif.Text.char_fits_partial`
* `Verif.Text.text_fits_partial`
* `Verif.Text.text_sticks_out`
* `Verif.Text.freeSans_ll_sticks_out`
* `Verif.Text.text_fits_iff`
* `Verif.Text.text_excess_partial`
* `Verif.Text.freeSans_excess_partial`
* `Verif.Font.freeSans_lookup`
* `Verif.Converter.bitStream_exact`
* `Verif.Converter.bitStream_reusable`
* `Verif.Converter.convertGlyph_ok`
* `Verif.Converter.converted_glyph_draws_partial`
* `Verif.Converter.binary_offsets`
* `Verif.Converter.binary_offset_wraps`
* `Verif.Converter.header_offsets`
* `Verif.Converter.header_tokens`
* `Verif.Converter.codes_exact`
* `Verif.Converter.lookup_agrees`
* `Verif.Converter.hex_stream_tokens`
* `Verif.Converter.writeHeaderFile_total`
* `Verif.Converter.completed_sequence_not_reset`
* `Verif.Uart.Esp.receiveBetween_exact_partial`
* `Verif.Uart.Esp.receiveBetween_wrap_exact`
* `Verif.Uart.Esp.receiveBetween_waits_past_deadline`
* `Verif.Spi.Arduino.transfer_exact`
* `Verif.Spi.Esp.transfer_wire`
* `Verif.Spi.Esp.pieces_bound`
* `Verif.Spi.Esp.submitted_bounds`
* `Verif.Hal.Gpio.select_brackets`
* `Verif.Hal.I2c.Esp.sendThenReceive_exact`
* `Verif.Hal.Time.delayMicroseconds_waits`
* `Verif.Hal.Time.delayMicroseconds_stops`
* `Verif.Hal.Time.delay_measured_partial`
* `Verif.Hal.Time.delay_measured_at_most`
* `Verif.Hal.Time.millisecondTicks_exact`
* `Verif.Hal.Time.ticks_difference`
* `Verif.Hal.Time.lightSleep_partial`
* `Verif.Hal.Time.lightSleep_exact`
* `Verif.Hal.Time.lightSleep_on_time`
* `Verif.Hal.Time.lightSleep_stops`
* `Verif.Hal.Time.lightSleep_overshoots`
* `Verif.Hal.Adc.lookup_sound`
* `Verif.Hal.Adc.singleRead_calls`
* `Verif.Storage.storage_with_crashes_refines_map`
* `Verif.Storage.recovered_refines_map`
* `Verif.Storage.torn_size_phantom`
* `Verif.Geometry.corners_int_partial`
* `Verif.Geometry.corners_exact`
* `Verif.Geometry.corners_narrow`
* `Verif.Geometry.topRight_overflows`
* `Verif.Geometry.canvas_corners_agree`
* `Verif.Geometry.add_int`
* `Verif.Geometry.add_narrow`
* `Verif.Geometry.translate_corner_narrow`
* `Verif.Geometry.translate_corner_int`
* `Verif.Geometry.convert_exact`
* `Verif.Geometry.convert_to_int`
* `Verif.Geometry.size_add_sub`
* `Verif.Geometry.size_mul_div`
* `Verif.Geometry.size_div`
* `Verif.Geometry.matrix_mul_int`
* `Verif.Geometry.matrix_mul_8bit`
* `Verif.Geometry.matrix_mul_int16`
* `Verif.Geometry.matrix_mul_uint16_ub`
* `Verif.Storage.older_object_reads_partial`
* `Verif.Storage.older_object_overwrites`
* `Verif.Storage.two_objects_lose_record`
* `Verif.Converter.Config.config_as_described_partial`
* `Verif.Converter.Config.stoi_intDec`
* `Verif.Converter.Config.ascii_any_case`
* `Verif.Converter.Config.unknown_letter_help`
* `Verif.Converter.Config.missing_value_help`
* `Verif.Converter.Main.main_table`
* `Verif.Converter.Main.binary_font_draws_partial`
* `Verif.Converter.Main.header_font_tokens`
* `Verif.Converter.Main.charWidth_iff`
* `Verif.Converter.Main.headerHeight_iff`
* `Verif.Hal.Clock.milliseconds_agree`
* `Verif.Hal.Clock.elapsed_arduino_iff`
* `Verif.Spi.Device.Esp.platforms_agree`
* `Verif.Spi.Device.Arduino.device_exact`
* `Verif.Spi.Device.Arduino.in_place_exact`
* `Verif.Pbm.compare_iff`
* `Verif.Pbm.read_binary`
* `Verif.Pbm.read_ascii`
* `Verif.Pbm.read_ascii_ub`
* `Verif.Pbm.read_overflow`
* `Verif.Pbm.read_empty`
* `Verif.Pbm.read_sound`
* `Verif.Pbm.header_general`
* `Verif.Pbm.binary_roundtrip`
* `Verif.Pbm.compare_binary`
* `Verif.Pbm.compare_truncated`
* `Verif.Pbm.ascii_roundtrip_partial`
* `Verif.Pbm.ascii_unaligned_ub`
* `Verif.Pbm.writePBMBinary_file`
* `Verif.Pbm.writePBMBinary_undefined`
* `Verif.Pbm.asciiLines_ok`
* `Verif.Pbm.asciiLines_ub`
* `Verif.Storage.arbitrary_refines_map_partial`
* `Verif.Storage.reopen_keeps`
* `Verif.Storage.arbitrary_get_after_set`
* `Verif.Storage.one_byte_tail_kept`
* `Verif.Storage.one_byte_tail_hangs`
* `Verif.Storage.one_byte_tail_shifted`
* `Verif.Storage.durable`
* `Verif.Storage.acknowledged_durable`
* `Verif.Storage.events_defined`
* `Verif.Out.op_exact`
* `Verif.Out.ops_exact`
* `Verif.Text.picture`
* `Verif.Text.fresh_picture`
* `Verif.Text.clear_hides`
* `Verif.Text.draw_covers`
* `Verif.Uart.Esp.stream_shared_out`
* `Verif.Uart.Esp.stream_taken`
* `Verif.Uart.Esp.stream_packets`
* `Verif.Uart.Esp.Mixed.mixed_shared_out`
* `Verif.Out.serial_exact`
* `Verif.Out.char_printed_as_number`
* `Verif.Uart.Arduino.stream_timed`
* `Verif.Uart.Arduino.stream_shared_out`
* `Verif.Uart.Arduino.call_taken`
* `Verif.Uart.Arduino.call_takes`
* `Verif.Uart.Arduino.receiveUntilS_ok`
* `Verif.Uart.Arduino.receiveBetweenS_ok`
* `Verif.Uart.Arduino.receiveUntilS_agrees`
* `Verif.Uart.Wire.esp_prints_partial`
* `Verif.Uart.Wire.esp_losses_unnoticed`
* `Verif.Uart.Wire.arduino_prints`
* `Verif.Uart.Wire.prints_alike`
* `Verif.Spi.Shared.own_clock_iff`
* `Verif.Spi.Shared.run_clocked`
* `Verif.Spi.Shared.transfers_own_clock_partial`
* `Verif.Spi.Shared.sendByte_foreign_clock`
* `Verif.Spi.Shared.transfer_clocked`
* `Verif.Uart.Portable.platforms_agree_partial`
* `Verif.Uart.Portable.arduino_messages`
* `Verif.Uart.Portable.idle_line`
* `Verif.Uart.Portable.Bulk.platforms_agree_partial`
* `Verif.Uart.Portable.Bulk.arduino_messages`
* `Verif.Uart.Portable.Bulk.receive_failure`
* `Verif.Spi.Select.isolation`
* `Verif.Spi.Select.isolation_all`
* `Verif.Spi.Select.run_exact`
* `Verif.Spi.Select.session_exact`
* `Verif.Spi.Select.platforms_agree`
* `Verif.Spi.Select.arduino_exact`
* `Verif.Spi.Select.espFull_exact`
* `Verif.Spi.Select.espHalf_exact`
* `Verif.Spi.Select.receive_refused`
* `Verif.Hal.I2c.Portable.platforms_agree_partial`
* `Verif.Hal.I2c.Portable.call_portable_iff`
* `Verif.Hal.I2c.Portable.long_message_cut`
* `Verif.Hal.I2c.Portable.long_read_fails`
* `Verif.Hal.I2c.Portable.Arduino.call_exact`
* `Verif.Hal.I2c.Portable.call_isolated`
* `Verif.Converter.Main.header_compiles`
* `Verif.Converter.Main.formats_agree`
* `Verif.Converter.Main.header_font_draws_partial`
* `Verif.Converter.Main.large_header_refused`
* `Verif.Spi.Esp.Life.never_hangs`
* `Verif.Converter.Main.handles_balanced`
* `Verif.Uart.Lines.esp_lines_arrive`
* `Verif.Uart.Lines.arduino_lines_arrive`
* `Verif.Uart.Lines.esp_numbers_arrive`
* `Verif.Uart.Lines.arduino_numbers_arrive`
* `Verif.Storage.image_exact`
* `Verif.Storage.image_only_sets`
* `Verif.Storage.image_opens`
* `Verif.Storage.image_injective`
