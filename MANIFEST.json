{"claims": [
{"property": "C01", "status": "proved", "theorems": ["TT.Properties.C01_basic_wire", "TT.Properties.C01_compiles_iff"], "note": ""},
{"property": "C02", "status": "proved", "theorems": ["TT.Properties.C02_checksum_wire"], "note": ""},
{"property": "C03", "status": "proved", "theorems": ["TT.Properties.C03_size"], "note": ""},
{"property": "C04", "status": "proved", "theorems": ["TT.Properties.C04_autosized", "TT.Properties.C04_new", "TT.Properties.C04_collection"], "note": ""},
{"property": "C05", "status": "proved", "theorems": ["TT.Properties.C05_array_boundary"], "note": ""},
{"property": "C06", "status": "proved", "theorems": ["TT.Properties.C06_vector_accumulates"], "note": ""},
{"property": "C07", "status": "proved", "theorems": ["TT.Properties.C07_composition", "TT.Properties.C07_checksum"], "note": ""},
{"property": "C08", "status": "proved", "theorems": ["TT.Properties.C08_id_is_position", "TT.Properties.C08_ids_distinct", "TT.Properties.C08_dispatch", "TT.Properties.C08_dispatch_invalid"], "note": ""},
{"property": "C09", "status": "proved", "theorems": ["TT.Properties.C09_length_valid", "TT.Properties.C09_length_invalid"], "note": ""},
{"property": "C10", "status": "proved", "theorems": ["TT.Properties.C10_max_length"], "note": ""},
{"property": "C11", "status": "proved", "theorems": ["TT.Properties.C11_roundtrip", "TT.Properties.C11_incomplete"], "note": ""},
{"property": "C12", "status": "proved", "theorems": ["TT.Properties.C12_byte_order"], "note": ""},
{"property": "C13", "status": "proved", "theorems": ["TT.Properties.C13_refines_list", "TT.Properties.C13_from_range", "TT.Properties.C13_from_array"], "note": ""},
{"property": "C14", "status": "proved", "theorems": ["TT.Properties.C14_no_fault"], "note": ""},
{"property": "C15", "status": "proved", "theorems": ["TT.Properties.C15_copy_assign", "TT.Properties.C15_self_assign"], "note": ""},
{"property": "C16", "status": "proved", "theorems": ["TT.Properties.C16_erase", "TT.Properties.C16_erase_empty"], "note": ""},
{"property": "C17", "status": "proved", "theorems": ["TT.Properties.C17_external_functor", "TT.Properties.C17_limit_mod_256"], "note": ""},
{"property": "C18", "status": "proved", "theorems": ["TT.Properties.C18_terminates", "TT.Properties.C18_reachable"], "note": ""},
{"property": "C19", "status": "proved", "theorems": ["TT.Properties.C19_sound", "TT.Properties.C19_each_call"], "note": ""},
{"property": "C20", "status": "proved", "theorems": ["TT.Properties.C20_greedy", "TT.Properties.C20_decoding_unique"], "note": ""},
{"property": "C21", "status": "proved", "theorems": ["TT.Properties.C21_conservation", "TT.Properties.C21_delivered"], "note": ""},
{"property": "C22", "status": "proved", "theorems": ["TT.Properties.C22_idempotent", "TT.Properties.C22_builds_agree"], "note": ""},
{"property": "C23", "status": "proved", "theorems": ["TT.Properties.C23_returned", "TT.Properties.C23_leftover"], "note": ""},
{"property": "C24", "status": "proved", "theorems": ["TT.Properties.C24_chunking"], "note": ""},
{"property": "C25", "status": "proved", "theorems": ["TT.Properties.C25_round_trip", "TT.Properties.C25_fed_is_chunks"], "note": ""},
{"property": "C26", "status": "proved", "theorems": ["TT.Properties.C26_prompt"], "note": ""},
{"property": "C27", "status": "proved", "theorems": ["TT.Properties.C27_no_truncated", "TT.Properties.C27_completed"], "note": ""},
{"property": "C28", "status": "proved", "theorems": ["TT.Properties.C28_noise"], "note": ""},
{"property": "C29", "status": "proved", "theorems": ["TT.Properties.C29_resync"], "note": ""},
{"property": "C30", "status": "proved", "theorems": ["TT.Properties.C30_prefix_free", "TT.Properties.C30_uniquely_decodable"], "note": ""},
{"property": "C31", "status": "proved", "theorems": ["TT.Properties.C31_same_length", "TT.Properties.C31_not_start", "TT.Properties.C31_not_delivered", "TT.Properties.C31_next_delivered"], "note": ""},
{"property": "C32", "status": "proved", "theorems": ["TT.Properties.C32_checksum", "TT.Properties.C32_basic", "TT.Properties.C32_reordering"], "note": ""},
{"property": "C33", "status": "proved", "theorems": ["TT.Properties.C33_space", "TT.Properties.C33_rounds_legal"], "note": ""},
{"property": "C34", "status": "proved", "theorems": ["TT.Properties.C34_no_fault", "TT.Properties.C34_terminates", "TT.Properties.C34_feedback_witness"], "note": ""},
{"property": "C35", "status": "proved", "theorems": ["TT.Properties.C35_overfull", "TT.Properties.C35_witness"], "note": ""},
{"property": "C36", "status": "proved", "theorems": ["TT.Properties.C36_no_handler", "TT.Properties.C36_waiting", "TT.Properties.C36_later"], "note": ""},
{"property": "C37", "status": "proved", "theorems": ["TT.Properties.C37_constructed", "TT.Properties.C37_current_handler", "TT.Properties.C37_nothing_lost"], "note": ""},
{"property": "C38", "status": "proved", "theorems": ["TT.Properties.C38_count", "TT.Properties.C38_exact", "TT.Properties.C38_wrap_witness"], "note": ""},
{"property": "C39", "status": "proved", "theorems": ["TT.Properties.C39_last_id", "TT.Properties.C39_last_call"], "note": ""},
{"property": "C40", "status": "proved", "theorems": ["TT.Properties.C40_throw", "TT.Properties.C40_propagates", "TT.Properties.C40_redelivered"], "note": ""},
{"property": "C41", "status": "proved", "theorems": ["TT.Properties.C41_append_inside"], "note": ""},
{"property": "C42", "status": "proved", "theorems": ["TT.Properties.C42_clear_inside"], "note": ""},
{"property": "C43", "status": "proved", "theorems": ["TT.Properties.C43_next_message", "TT.Properties.C43_switch"], "note": ""},
{"property": "C44", "status": "proved", "theorems": ["TT.Properties.C44_debug_abort", "TT.Properties.C44_release_ub", "TT.Properties.C44_delivered_twice", "TT.Properties.C44_release_wrap_witness"], "note": ""},
{"property": "C45", "status": "proved", "theorems": ["TT.Properties.C45_partial_base", "TT.Properties.C45_parameter"], "note": ""},
{"property": "C46", "status": "proved", "theorems": ["TT.Properties.C46_receive", "TT.Properties.C46_vrpn", "TT.Properties.C46_arduino", "TT.Properties.C46_error_witness"], "note": ""},
{"property": "C47", "status": "proved", "theorems": ["TT.Properties.C47_copy", "TT.Properties.C47_same_behaviour"], "note": ""},
{"property": "C48", "status": "proved", "theorems": ["TT.Properties.C48_i2c_one_write", "TT.Properties.C48_i2c_overflow", "TT.Properties.C48_i2c_sequence"], "note": ""},
{"property": "C49", "status": "proved", "theorems": ["TT.Properties.C49_fixed_outputs", "TT.Properties.C49_same_bytes"], "note": ""},
{"property": "C50", "status": "proved", "theorems": ["TT.Properties.C50_bound", "TT.Properties.C50_exact"], "note": ""},
{"property": "C51", "status": "proved", "theorems": ["TT.Properties.C51_basic_id", "TT.Properties.C51_checksum_id", "TT.Properties.C51_shorter_witness"], "note": ""},
{"property": "C52", "status": "proved", "theorems": ["TT.Properties.C52_overload", "TT.Properties.C52_wrong_arity"], "note": ""},
{"property": "C53", "status": "proved", "theorems": ["TT.Properties.C53_push_own_element", "TT.Properties.C53_witness", "TT.Properties.C53_range"], "note": ""},
{"property": "C54", "status": "proved", "theorems": ["TT.Properties.C54_polling", "TT.Properties.C54_vrpn", "TT.Properties.C54_arduino"], "note": ""},
{"property": "C55", "status": "proved", "theorems": ["TT.Properties.C55_drains", "TT.Properties.C55_round", "TT.Properties.C55_shipped_round", "TT.Properties.C55_shipped_drains"], "note": ""},
{"property": "C56", "status": "proved", "theorems": ["TT.Properties.C56_lost_not_start", "TT.Properties.C56_lost", "TT.Properties.C56_lost_id", "TT.Properties.C56_lost_id_witness"], "note": ""},
{"property": "C57", "status": "proved", "theorems": ["TT.Properties.C57_inserted_same", "TT.Properties.C57_inserted", "TT.Properties.C57_checksum_witness"], "note": ""},
{"property": "C58", "status": "proved", "theorems": ["TT.Properties.C58_held_back", "TT.Properties.C58_released"], "note": ""},
{"property": "C59", "status": "proved", "theorems": ["TT.Properties.C59_payload_delivered"], "note": ""},
{"property": "C60", "status": "proved", "theorems": ["TT.Properties.C60_basic_to_checksum", "TT.Properties.C60_checksum_to_basic"], "note": ""},
{"property": "C61", "status": "proved", "theorems": ["TT.Properties.C61_same_send", "TT.Properties.C61_old_receiver", "TT.Properties.C61_new_receiver", "TT.Properties.C61_front_witness"], "note": ""},
{"property": "C62", "status": "proved", "theorems": ["TT.Properties.C62_forward", "TT.Properties.C62_cleans", "TT.Properties.C62_downstream"], "note": ""},
{"property": "C63", "status": "proved", "theorems": ["TT.Properties.C63_own", "TT.Properties.C63_construct", "TT.Properties.C63_copy", "TT.Properties.C63_dangling", "TT.Properties.C63_reset", "TT.Properties.C63_i2c_own", "TT.Properties.C63_i2c"], "note": ""},
{"property": "C64", "status": "proved", "theorems": ["TT.Properties.C64_assign", "TT.Properties.C64_self", "TT.Properties.C64_self_after_append"], "note": ""},
{"property": "C65", "status": "proved", "theorems": ["TT.Properties.C65_error", "TT.Properties.C65_small"], "note": ""},
{"property": "C66", "status": "proved", "theorems": ["TT.Properties.C66_writes", "TT.Properties.C66_short_writes", "TT.Properties.C66_no_loss"], "note": ""},
{"property": "C67", "status": "proved", "theorems": ["TT.Properties.C67_recovery", "TT.Properties.C67_count", "TT.Properties.C67_swallowed"], "note": ""},
{"property": "C68", "status": "proved", "theorems": ["TT.Properties.C68_size_mismatch", "TT.Properties.C68_complete", "TT.Properties.C68_witness"], "note": ""},
{"property": "C69", "status": "proved", "theorems": ["TT.Properties.C69_exact", "TT.Properties.C69_bound", "TT.Properties.C69_worst", "TT.Properties.C69_attack"], "note": ""},
{"property": "C70", "status": "proved", "theorems": ["TT.Properties.C70_one_in_256", "TT.Properties.C70_position"], "note": ""},
{"property": "C71", "status": "proved", "theorems": ["TT.Properties.C71_settled"], "note": ""},
{"property": "C72", "status": "proved", "theorems": ["TT.Properties.C72_never_flushed", "TT.Properties.C72_i2c_silent", "TT.Properties.C72_i2c_overflow"], "note": ""},
{"property": "C73", "status": "proved", "theorems": ["TT.Properties.C73_late", "TT.Properties.C73_locked_basic", "TT.Properties.C73_locked_checksum", "TT.Properties.C73_left_witness"], "note": ""},
{"property": "C74", "status": "proved", "theorems": ["TT.Properties.C74_calls", "TT.Properties.C74_prefix", "TT.Properties.C74_sequence", "TT.Properties.C74_receiver", "TT.Properties.C74_code_witness"], "note": ""},
{"property": "C75", "status": "proved", "theorems": ["TT.Properties.C75_in_order", "TT.Properties.C75_complete", "TT.Properties.C75_catches_up", "TT.Properties.C75_answers", "TT.Properties.C75_responses"], "note": ""},
{"property": "C76", "status": "proved", "theorems": ["TT.Properties.C76_same", "TT.Properties.C76_call", "TT.Properties.C76_history", "TT.Properties.C76_idle"], "note": ""},
{"property": "C77", "status": "proved", "theorems": ["TT.Properties.C77_call", "TT.Properties.C77_polled", "TT.Properties.C77_history", "TT.Properties.C77_throw_witness"], "note": ""},
{"property": "C78", "status": "proved", "theorems": ["TT.Properties.C78_same_send", "TT.Properties.C78_same_receiver", "TT.Properties.C78_send", "TT.Properties.C78_receiver", "TT.Properties.C78_round_trip", "TT.Properties.C78_short"], "note": ""},
{"property": "C79", "status": "proved", "theorems": ["TT.Properties.C79_partial_handler", "TT.Properties.C79_parameter_exact", "TT.Properties.C79_parameter_converted", "TT.Properties.C79_compiles", "TT.Properties.C79_stream"], "note": ""},
{"property": "C80", "status": "proved", "theorems": ["TT.Properties.C80_unique", "TT.Properties.C80_survives", "TT.Properties.C80_seen", "TT.Properties.C80_exact"], "note": ""},
{"property": "C81", "status": "proved", "theorems": ["TT.Properties.C81_safe", "TT.Properties.C81_rejected", "TT.Properties.C81_recovers", "TT.Properties.C81_agrees", "TT.Properties.C81_clear_witness", "TT.Properties.C81_wrap_witness"], "note": ""},
{"property": "C82", "status": "proved", "theorems": ["TT.Properties.C82_bound", "TT.Properties.C82_exact"], "note": ""},
{"property": "C83", "status": "proved", "theorems": ["TT.Properties.C83_exact", "TT.Properties.C83_idle", "TT.Properties.C83_dead", "TT.Properties.C83_live"], "note": ""},
{"property": "C84", "status": "proved", "theorems": ["TT.Properties.C84_safe", "TT.Properties.C84_process", "TT.Properties.C84_stream", "TT.Properties.C84_round_trip", "TT.Properties.C84_shipped", "TT.Properties.C84_second_look", "TT.Properties.C84_settled_witness", "TT.Properties.C84_online_witness"], "note": ""},
{"property": "C85", "status": "proved", "theorems": ["TT.Properties.C85_place", "TT.Properties.C85_stable", "TT.Properties.C85_from_empty", "TT.Properties.C85_push_moves", "TT.Properties.C85_at"], "note": ""},
{"property": "C86", "status": "proved", "theorems": ["TT.Properties.C86_reads", "TT.Properties.C86_calls", "TT.Properties.C86_wrong_number", "TT.Properties.C86_one_converted", "TT.Properties.C86_same", "TT.Properties.C86_overload", "TT.Properties.C86_config"], "note": ""},
{"property": "C87", "status": "proved", "theorems": ["TT.Properties.C87_defaults", "TT.Properties.C87_empty", "TT.Properties.C87_reads", "TT.Properties.C87_limits", "TT.Properties.C87_send_limits", "TT.Properties.C87_candidates"], "note": ""},
{"property": "C88", "status": "proved", "theorems": ["TT.Properties.C88_refill", "TT.Properties.C88_copies", "TT.Properties.C88_reset", "TT.Properties.C88_loaded", "TT.Properties.C88_model"], "note": ""},
{"property": "C89", "status": "proved", "theorems": ["TT.Properties.C89_order", "TT.Properties.C89_uses", "TT.Properties.C89_limits", "TT.Properties.C89_which", "TT.Properties.C89_fusion_first"], "note": ""},
{"property": "C90", "status": "proved", "theorems": ["TT.Properties.C90_vector", "TT.Properties.C90_port", "TT.Properties.C90_array", "TT.Properties.C90_i2c", "TT.Properties.C90_composition", "TT.Properties.C90_both", "TT.Properties.C90_minimal"], "note": ""},
{"property": "C91", "status": "proved", "theorems": ["TT.Properties.C91_compiles", "TT.Properties.C91_gateway", "TT.Properties.C91_end_to_end"], "note": ""},
{"property": "C92", "status": "proved", "theorems": ["TT.Properties.C92_messages", "TT.Properties.C92_i2c", "TT.Properties.C92_port_loss_witness", "TT.Properties.C92_port_forgery_witness", "TT.Properties.C92_many", "TT.Properties.C92_many_i2c", "TT.Properties.C92_many_length", "TT.Properties.C92_any_time"], "note": ""},
{"property": "C93", "status": "proved", "theorems": ["TT.Properties.C93_between", "TT.Properties.C93_complete", "TT.Properties.C93_delivers", "TT.Properties.C93_undisturbed", "TT.Properties.C93_noise_witness", "TT.Properties.C93_iterator_witness", "TT.Properties.C93_pop_between", "TT.Properties.C93_size", "TT.Properties.C93_get", "TT.Properties.C93_increment"], "note": ""},
{"property": "C94", "status": "proved", "theorems": ["TT.Properties.C94_local", "TT.Properties.C94_lost", "TT.Properties.C94_count", "TT.Properties.C94_message", "TT.Properties.C94_two_witness"], "note": ""},
{"property": "C95", "status": "proved", "theorems": ["TT.Properties.C95_once", "TT.Properties.C95_all", "TT.Properties.C95_same", "TT.Properties.C95_sent", "TT.Properties.C95_attempts", "TT.Properties.C95_stuck"], "note": ""},
{"property": "C96", "status": "proved", "theorems": ["TT.Properties.C96_safe", "TT.Properties.C96_each", "TT.Properties.C96_all", "TT.Properties.C96_others", "TT.Properties.C96_alone", "TT.Properties.C96_count", "TT.Properties.C96_model", "TT.Properties.C96_cycle_witness"], "note": ""},
{"property": "C97", "status": "proved", "theorems": ["TT.Properties.C97_receiver", "TT.Properties.C97_one_assertion", "TT.Properties.C97_buffer", "TT.Properties.C97_all_on", "TT.Properties.C97_all_off", "TT.Properties.C97_macros", "TT.Properties.C97_macros_build", "TT.Properties.C97_contract_witness", "TT.Properties.C97_buffer_witness"], "note": ""},
{"property": "C98", "status": "proved", "theorems": ["TT.Properties.C98_burst_same_length", "TT.Properties.C98_burst_not_start", "TT.Properties.C98_burst_not_delivered", "TT.Properties.C98_burst_next_delivered", "TT.Properties.C98_two_bits", "TT.Properties.C98_nine_bits_witness", "TT.Properties.C98_three_bits_witness"], "note": ""},
{"property": "C99", "status": "proved", "theorems": ["TT.Properties.C99_safe", "TT.Properties.C99_at_any_time", "TT.Properties.C99_all", "TT.Properties.C99_count", "TT.Properties.C99_model", "TT.Properties.C99_settled_witness"], "note": ""},
{"property": "C100", "status": "proved", "theorems": ["TT.Properties.C100_program", "TT.Properties.C100_list", "TT.Properties.C100_read", "TT.Properties.C100_reserve", "TT.Properties.C100_assign", "TT.Properties.C100_retained", "TT.Properties.C100_push_back_witness", "TT.Properties.C100_range_witness", "TT.Properties.C100_model"], "note": ""},
{"property": "C101", "status": "proved", "theorems": ["TT.Properties.C101_bytes", "TT.Properties.C101_values", "TT.Properties.C101_calls", "TT.Properties.C101_same", "TT.Properties.C101_prefix"], "note": ""},
{"property": "C102", "status": "proved", "theorems": ["TT.Properties.C102_flushes", "TT.Properties.C102_after", "TT.Properties.C102_messages", "TT.Properties.C102_exact", "TT.Properties.C102_start_code"], "note": ""},
{"property": "C103", "status": "proved", "theorems": ["TT.Properties.C103_unused", "TT.Properties.C103_returns", "TT.Properties.C103_defined", "TT.Properties.C103_throws", "TT.Properties.C103_gone", "TT.Properties.C103_nested", "TT.Properties.C103_after"], "note": ""},
{"property": "C104", "status": "proved", "theorems": ["TT.Properties.C104_defined", "TT.Properties.C104_check", "TT.Properties.C104_complete", "TT.Properties.C104_receiver", "TT.Properties.C104_pop_debug", "TT.Properties.C104_pop_release", "TT.Properties.C104_pop_incomplete"], "note": ""},
{"property": "C105", "status": "proved", "theorems": ["TT.Properties.C105_same", "TT.Properties.C105_call", "TT.Properties.C105_shipped", "TT.Properties.C105_end_to_end", "TT.Properties.C105_in_clear", "TT.Properties.C105_no_escaping", "TT.Properties.C105_forgery"], "note": ""},
{"property": "C106", "status": "proved", "theorems": ["TT.Properties.C106_safe", "TT.Properties.C106_process", "TT.Properties.C106_stream", "TT.Properties.C106_end_to_end", "TT.Properties.C106_plain", "TT.Properties.C106_any", "TT.Properties.C106_escaping", "TT.Properties.C106_escaped_transmission", "TT.Properties.C106_join", "TT.Properties.C106_progress", "TT.Properties.C106_repeatable_witness", "TT.Properties.C106_throw_witness"], "note": ""},
{"property": "C107", "status": "proved", "theorems": ["TT.Properties.C107_safe", "TT.Properties.C107_at_any_time", "TT.Properties.C107_all", "TT.Properties.C107_count", "TT.Properties.C107_plain", "TT.Properties.C107_any", "TT.Properties.C107_steady_witness"], "note": ""},
{"property": "C108", "status": "proved", "theorems": ["TT.Properties.C108_rule", "TT.Properties.C108_exact", "TT.Properties.C108_any_input", "TT.Properties.C108_sent", "TT.Properties.C108_checksum", "TT.Properties.C108_flip_witness", "TT.Properties.C108_join_witness"], "note": ""},
{"property": "C109", "status": "proved", "theorems": ["TT.Properties.C109_alone", "TT.Properties.C109_composed", "TT.Properties.C109_left", "TT.Properties.C109_gentle", "TT.Properties.C109_model", "TT.Properties.C109_order_witness"], "note": ""},
{"property": "C110", "status": "proved", "theorems": ["TT.Properties.C110_unique", "TT.Properties.C110_program", "TT.Properties.C110_char", "TT.Properties.C110_minus_one", "TT.Properties.C110_undefined"], "note": ""},
{"property": "C111", "status": "proved", "theorems": ["TT.Properties.C111_restart", "TT.Properties.C111_each", "TT.Properties.C111_local", "TT.Properties.C111_datagrams", "TT.Properties.C111_intact", "TT.Properties.C111_without_restart"], "note": ""},
{"property": "C112", "status": "proved", "theorems": ["TT.Properties.C112_success", "TT.Properties.C112_again", "TT.Properties.C112_failure", "TT.Properties.C112_shipped", "TT.Properties.C112_heading", "TT.Properties.C112_cmake_all", "TT.Properties.C112_cmake_some", "TT.Properties.C112_cmake_shipped", "TT.Properties.C112_missing_setting", "TT.Properties.C112_nil", "TT.Properties.C112_settings"], "note": ""},
{"property": "C113", "status": "proved", "theorems": ["TT.Properties.C113_sent", "TT.Properties.C113_determined", "TT.Properties.C113_seen", "TT.Properties.C113_blind", "TT.Properties.C113_round_trip", "TT.Properties.C113_compare_witness", "TT.Properties.C113_look_witness"], "note": ""},
{"property": "C114", "status": "proved", "theorems": ["TT.Properties.C114_sound", "TT.Properties.C114_complete", "TT.Properties.C114_deterministic", "TT.Properties.C114_total", "TT.Properties.C114_exclusive"], "note": ""},
{"property": "C115", "status": "proved", "theorems": ["TT.Properties.C115_sent", "TT.Properties.C115_destroyed", "TT.Properties.C115_copy", "TT.Properties.C115_program", "TT.Properties.C115_round_trip", "TT.Properties.C115_twice_witness", "TT.Properties.C115_forged_witness"], "note": ""},
{"property": "C116", "status": "proved", "theorems": ["TT.Properties.C116_reduces", "TT.Properties.C116_safe", "TT.Properties.C116_returns", "TT.Properties.C116_same", "TT.Properties.C116_decodes", "TT.Properties.C116_leaves_off_witness", "TT.Properties.C116_early_witness"], "note": ""},
{"property": "C117", "status": "proved", "theorems": ["TT.Properties.C117_fits", "TT.Properties.C117_reserved", "TT.Properties.C117_requests", "TT.Properties.C117_refused", "TT.Properties.C117_granted", "TT.Properties.C117_few", "TT.Properties.C117_copy", "TT.Properties.C117_copy_witness", "TT.Properties.C117_restore"], "note": ""},
{"property": "C118", "status": "proved", "theorems": ["TT.Properties.C118_is_appending", "TT.Properties.C118_arrives", "TT.Properties.C118_two", "TT.Properties.C118_three_witness", "TT.Properties.C118_at_once", "TT.Properties.C118_safe", "TT.Properties.C118_all_arrive", "TT.Properties.C118_handlers", "TT.Properties.C118_nested_witness"], "note": ""},
{"property": "C119", "status": "proved", "theorems": ["TT.Properties.C119_any_index", "TT.Properties.C119_in_range", "TT.Properties.C119_out_of_range", "TT.Properties.C119_reduced_witness", "TT.Properties.C119_comparisons", "TT.Properties.C119_start", "TT.Properties.C119_find_index", "TT.Properties.C119_library"], "note": ""},
{"property": "C120", "status": "proved", "theorems": ["TT.Properties.C120_any_time", "TT.Properties.C120_all", "TT.Properties.C120_goes_on"], "note": ""},
{"property": "C121", "status": "proved", "theorems": ["TT.Properties.C121_not_failed", "TT.Properties.C121_kept", "TT.Properties.C121_exact", "TT.Properties.C121_never_silent"], "note": ""},
{"property": "C122", "status": "proved", "theorems": ["TT.Properties.C122_forged", "TT.Properties.C122_held", "TT.Properties.C122_lost", "TT.Properties.C122_mixed"], "note": ""},
{"property": "C123", "status": "proved", "theorems": ["TT.Properties.C123_safe", "TT.Properties.C123_live", "TT.Properties.C123_messages", "TT.Properties.C123_loop", "TT.Properties.C123_loop_messages"], "note": ""},
{"property": "C124", "status": "proved", "theorems": ["TT.Properties.C124_same", "TT.Properties.C124_new", "TT.Properties.C124_told_apart", "TT.Properties.C124_doomed"], "note": ""},
{"property": "C125", "status": "proved", "theorems": ["TT.Properties.C125_count", "TT.Properties.C125_arrives", "TT.Properties.C125_tight"], "note": ""},
{"property": "C126", "status": "proved", "theorems": ["TT.Properties.C126_lacking", "TT.Properties.C126_basic", "TT.Properties.C126_checksum", "TT.Properties.C126_seven_bits"], "note": ""},
{"property": "C127", "status": "proved", "theorems": ["TT.Properties.C127_each", "TT.Properties.C127_text_without", "TT.Properties.C127_text_one", "TT.Properties.C127_text_forged_witness", "TT.Properties.C127_text"], "note": ""},
{"property": "C128", "status": "proved", "theorems": ["TT.Properties.C128_delivered", "TT.Properties.C128_flow_control", "TT.Properties.C128_tight"], "note": ""},
{"property": "C129", "status": "proved", "theorems": ["TT.Properties.C129_tree", "TT.Properties.C129_empty", "TT.Properties.C129_any_time"], "note": ""},
{"property": "C130", "status": "proved", "theorems": ["TT.Properties.C130_sent", "TT.Properties.C130_same", "TT.Properties.C130_fits", "TT.Properties.C130_forged", "TT.Properties.C130_lost", "TT.Properties.C130_held"], "note": ""},
{"property": "C131", "status": "proved", "theorems": ["TT.Properties.C131_tree", "TT.Properties.C131_message"], "note": ""},
{"property": "C132", "status": "proved", "theorems": ["TT.Properties.C132_receiver", "TT.Properties.C132_both", "TT.Properties.C132_any_time", "TT.Properties.C132_sender", "TT.Properties.C132_end_to_end", "TT.Properties.C132_exactly_once", "TT.Properties.C132_codes_witness", "TT.Properties.C132_second_witness", "TT.Properties.C132_twice_witness", "TT.Properties.C132_four_witness", "TT.Properties.C132_start_witness"], "note": ""},
{"property": "C133", "status": "proved", "theorems": ["TT.Properties.C133_insists", "TT.Properties.C133_far_end", "TT.Properties.C133_exactly_once", "TT.Properties.C133_route", "TT.Properties.C133_end_to_end"], "note": ""},
{"property": "C134", "status": "proved", "theorems": ["TT.Properties.C134_receiver", "TT.Properties.C134_any_time", "TT.Properties.C134_gateway", "TT.Properties.C134_route", "TT.Properties.C134_end_to_end", "TT.Properties.C134_finished_witness"], "note": ""},
{"property": "C135", "status": "proved", "theorems": ["TT.Properties.C135_harmless", "TT.Properties.C135_both", "TT.Properties.C135_harmful"], "note": ""},
{"property": "C136", "status": "proved", "theorems": ["TT.Properties.C136_unharmed", "TT.Properties.C136_any_time", "TT.Properties.C136_sublist", "TT.Properties.C136_burst", "TT.Properties.C136_code", "TT.Properties.C136_unnoticed", "TT.Properties.C136_end_code_witness", "TT.Properties.C136_inside_witness"], "note": ""},
{"property": "C137", "status": "proved", "theorems": ["TT.Properties.C137_exactly", "TT.Properties.C137_any_time", "TT.Properties.C137_bounds"], "note": ""},
{"property": "C138", "status": "proved", "theorems": ["TT.Properties.C138_once", "TT.Properties.C138_progress", "TT.Properties.C138_handled", "TT.Properties.C138_eventually", "TT.Properties.C138_possible", "TT.Properties.C138_numbers_needed"], "note": ""},
{"property": "C139", "status": "proved", "theorems": ["TT.Properties.C139_safe", "TT.Properties.C139_dichotomy", "TT.Properties.C139_live", "TT.Properties.C139_patient", "TT.Properties.C139_messages", "TT.Properties.C139_forever_witness"], "note": ""},
{"property": "C140", "status": "proved", "theorems": ["TT.Properties.C140_composition", "TT.Properties.C140_any_time", "TT.Properties.C140_exactly", "TT.Properties.C140_order", "TT.Properties.C140_agree"], "note": ""},
{"property": "C141", "status": "proved", "theorems": ["TT.Properties.C141_once", "TT.Properties.C141_settled", "TT.Properties.C141_progress", "TT.Properties.C141_eventually", "TT.Properties.C141_possible", "TT.Properties.C141_numbers_needed"], "note": ""},
{"property": "C142", "status": "proved", "theorems": ["TT.Properties.C142_once", "TT.Properties.C142_settled", "TT.Properties.C142_progress", "TT.Properties.C142_eventually", "TT.Properties.C142_possible"], "note": ""},
{"property": "C143", "status": "proved", "theorems": ["TT.Properties.C143_exactly_once", "TT.Properties.C143_any_time"], "note": ""},
{"property": "C144", "status": "proved", "theorems": ["TT.Properties.C144_any_time", "TT.Properties.C144_exactly_once"], "note": ""},
{"property": "C145", "status": "proved", "theorems": ["TT.Properties.C145_forever", "TT.Properties.C145_patient", "TT.Properties.C145_route"], "note": ""}
]}
