# Axioms of the manifest theorems

Generated by tools/axioms.py with `#print axioms`; no other axioms occur.

## (none)

`c13_history_exists`, `c24_zero`, `c40_refuted_late_panic`, `c41_eq_is_identity`, `c92_defaults`, `c124_example_pure`

## propext

`c07_complete_twice`, `c13_prepend_then_poll`, `c13_second_prepend_fails`, `c13_slot_free_after_poll`, `c13_prepend_iff`, `c17_too_long`, `c23_custom`, `c23_refused`, `c26_refuted`, `c38_unique`, `c41_indices`, `c63_condition_is_needed`, `c82_prependable_pending`, `c90_example`, `c92_roots`, `c92_example`, `c94_example`, `c96_line_exact`, `c96_line_no_limit`, `c98_example_first`, `c99_reading`, `c103_example_keeps`, `c112_example_willing`, `c113_woken`, `c113_example_live`, `c113_example_flushing`, `c113_example_dropped_send`, `c120_example_amounts`, `c122_any_moment`, `c123_any_polling`, `c123_run`, `c127_goes_on`, `c127_example`, `c127_example_longest`

## propext Quot.sound

`c01_marker_iff`, `c03_no_marker_iff`, `c09_marker_only_at_end`, `c13_prepend_then_read`, `c13_fresh`, `c13_poll`, `c13_history`, `c14_next_line`, `c14_no_overread`, `c15_no_line`, `c16_read_lines`, `c19_byte_len`, `c24_usize_zero`, `c24_usize_checked`, `c32_case_insensitive`, `c34_exact`, `c40_refuted`, `c40_partial`, `c40_in_range`, `c40_from`, `c40_root`, `c41_of_bytes`, `c41_operations`, `c41_only_visible`, `c41_eq_sound`, `c41_tag`, `c41_one_of`, `c41_is_a`, `c41_eat_separator`, `c41_take`, `c41_take_until`, `c41_take_until_and_consume`, `c41_recognize`, `c42_reference_unique`, `c55_texts`, `c55_sendable`, `c59_queued_again`, `c59_never_blocked`, `c61_listed_is_attempted`, `c62_listing_first`, `c64_failed_get_mail_refuted`, `c68_found_waits`, `c68_queued_again`, `c70_unique`, `c79_example`, `c80_example`, `c83_returns`, `c83_from_sendable`, `c84_condition_is_needed`, `c87_not_final`, `c88_end_unsafe`, `c88_end_early_unsafe`, `c91_next_line`, `c91_exclusive`, `c92_not_reply`, `c92_resolution`, `c92_okay`, `c92_bad_sequence`, `c92_banner`, `c92_speakable`, `c93_witness`, `c93_example`, `c93_characters`, `c94_defaults`, `c95_v4`, `c95_unique`, `c95_example`, `c96_line_goes_on`, `c97_line_upper`, `c97_line_quadratic`, `c105_example`, `c107_example`, `c108_wavers`, `c108_example`, `c110_replies`, `c110_example`, `c117_numbers`, `c117_distinct`, `c117_trailing`, `c117_example`, `c119_message_tight`, `c120_delayed`, `c122_harms_nobody`, `c123_delivery`, `c123_recovery`, `c123_no_lost_wakeup`, `c123_never_again`, `c123_one_by_one`, `c123_retries`, `c123_run_refines`, `c124_example_keeps`, `c125_example`, `c125_example_ends`, `c125_example_broken`, `c125_example_hasty`, `c126_poll`, `c126_example`, `c126_example_ends`, `c126_example_fails`, `c126_example_early`, `c126_example_bursts`, `c127_covers`, `c127_run`, `c127_crash`, `c127_example_ends`

## propext Classical.choice Quot.sound

`c01_decoding`, `c02_leftover`, `c03_early_end`, `c03_ok_iff_marker`, `c04_packet_independence`, `c05_chunks_nonempty`, `c05_end_sticky`, `c06_no_overread`, `c07_complete_no_panic`, `c07_complete_too_early`, `c07_complete_exact`, `c08_sink_output`, `c08_sink_succeeds`, `c09_sink_output`, `c09_sink_failure`, `c10_roundtrip`, `c11_failure_prefix`, `c12_refuted`, `c12_partial`, `c17_build_ok`, `c17_bad_byte`, `c18_wire_form`, `c20_roundtrip`, `c21_refuted`, `c21_partial`, `c21_exact_partial`, `c22_whole_input`, `c23_digits`, `c24_chunks`, `c24_usize`, `c24_usize_wrapping`, `c24_usize_wrapping_edge`, `c24_usize_max`, `c24_usize_reply`, `c25_lines`, `c25_panics_iff`, `c25_sent`, `c25_server_panics`, `c26_partial`, `c27_roundtrip`, `c27_any_order`, `c28_wellformed`, `c28_stable`, `c29_bare`, `c29_hello`, `c29_text`, `c29_opttext`, `c30_mail`, `c30_mail_null`, `c30_rcpt`, `c30_language`, `c31_one_line`, `c33_unambiguous`, `c33_order_irrelevant`, `c34_refuted`, `c34_partial`, `c35_last_wins`, `c35_get`, `c35_order_irrelevant`, `c36_rcpt`, `c36_mail`, `c37_exact`, `c37_roundtrip`, `c37_stable`, `c38_parsed`, `c38_command`, `c38_quote`, `c39_exact`, `c39_roundtrip`, `c39_stable`, `c42_reference`, `c42_packets`, `c42_total`, `c42_example`, `c43_sequence`, `c43_recipient`, `c44_replay`, `c44_envelope`, `c45_mail_again`, `c45_rcpt_before_mail`, `c45_data_before_mail`, `c45_data_before_rcpt`, `c46_blocks`, `c46_output`, `c46_output_error`, `c46_wire`, `c47_unrecognized`, `c47_unimplemented`, `c48_closed_after_message`, `c48_data_refused`, `c48_rcpt_refused`, `c48_closed_only_by_message`, `c49_error_is_last`, `c49_no_write_after`, `c49_no_read_after`, `c50_no_panic`, `c51_partial`, `c51_session_partial`, `c51_any_handler`, `c51_not_completed`, `c51_early_complete`, `c51_refuted`, `c52_complete_lines`, `c52_tail_ignored`, `c53_terminates`, `c53_all_lines`, `c53_ok_iff`, `c54_refuted`, `c54_partial`, `c55_wire`, `c56_before_filter_from`, `c56_new_mail_then_filter`, `c57_never_lost`, `c57_nothing_new`, `c58_done_after_accepted`, `c58_right_message`, `c58_accepted_is_done`, `c59_refused_is_cancelled`, `c59_cancelled_is_retried`, `c60_one_attempt`, `c60_one_attempt_timely`, `c60_worker_owns`, `c60_example`, `c60_example_working`, `c61_startup`, `c62_not_before_an_hour`, `c63_not_sent_again`, `c64_no_failure_partial`, `c64_accounted_partial`, `c64_late_mail_refuted`, `c64_example`, `c65_fuzz_oracle`, `c66_protocol`, `c67_sent_again_only_after_failure`, `c68_waited_is_recovered`, `c68_recovered_is_attempted`, `c69_not_taken_away_partial`, `c69_slow_listing_refuted`, `c70_v4`, `c70_v6`, `c70_literals`, `c70_print`, `c70_laws`, `c71_neighbours`, `c72_command`, `c72_reply`, `c72_domain`, `c72_email`, `c72_slices`, `c72_fuzz_targets`, `c72_only_visible`, `c73_sender`, `c73_recipient`, `c73_wellformed`, `c74_ends`, `c74_localpart`, `c74_mailbox`, `c74_mailbox_any_moment`, `c74_mailbox_any_end`, `c75_mail`, `c75_refused_text`, `c75_help`, `c75_refused_sender`, `c75_no_recipient`, `c75_cut_line`, `c75_interrupted`, `c76_compatible`, `c76_dots_refuted`, `c76_dots_partial`, `c76_dots_test_partial`, `c77_delivered`, `c78_restart`, `c78_example`, `c79_end_to_end`, `c79_test_config`, `c80_decodable`, `c80_session`, `c80_after_write_error`, `c81_lockstep`, `c81_data_prompt`, `c81_example`, `c82_pending_from_source`, `c82_prompt`, `c82_sink_prompt`, `c83_command`, `c83_reply`, `c83_email`, `c83_domain`, `c83_server_buffer`, `c83_server_model`, `c84_duplicates`, `c84_duplicates_timely`, `c84_one_transport_per_attempt`, `c84_exactly_once`, `c84_example_duplicate`, `c84_example`, `c85_prefix`, `c85_two_connections`, `c85_example`, `c86_line`, `c86_session`, `c86_spelling`, `c86_example`, `c87_leftover`, `c87_terminated`, `c87_line`, `c87_unterminated`, `c87_reply_leftover`, `c87_reply_incomplete`, `c87_reply_error`, `c88_failed_send`, `c88_abandon`, `c88_retry_unsafe`, `c88_go_on`, `c89_into_utf8`, `c90_attempts`, `c90_attempts_exact`, `c90_no_pause`, `c90_example_exact`, `c91_message`, `c91_count`, `c91_once`, `c91_again`, `c91_not_ended`, `c91_witness`, `c91_example`, `c92_inert`, `c92_callbacks`, `c92_implementations`, `c92_needs_sendable`, `c93_accepted`, `c93_domain`, `c93_mailbox`, `c93_other_literals`, `c93_ipv6`, `c94_reply`, `c94_session`, `c94_greeting`, `c94_client`, `c94_bare`, `c94_codes`, `c94_greeting_form`, `c95_v6`, `c95_normalised`, `c96_decoder`, `c96_line_leftover`, `c96_session`, `c96_long_line`, `c96_example`, `c97_counters`, `c97_decoder_linear`, `c97_example`, `c98_forwardable`, `c98_relay`, `c98_progress`, `c98_from_any_client`, `c98_example`, `c99_accepted_clean`, `c99_sent_clean`, `c99_free_text`, `c99_only_crlf_ends`, `c99_bare_never_ends`, `c99_outbound`, `c99_example`, `c100_no_limit`, `c100_test_config`, `c101_same`, `c101_cut`, `c101_wire`, `c101_no_early_answer`, `c101_reads_when_settled`, `c102_ends`, `c102_localpart`, `c102_record`, `c103_every_await`, `c103_mailbox`, `c103_kept`, `c103_example`, `c104_never_lost`, `c104_acknowledged`, `c104_names`, `c104_kept`, `c104_nothing_new`, `c104_goes_on`, `c104_projects`, `c104_delivered`, `c104_example`, `c104_example_delivered`, `c105_domain_leftover`, `c105_domain_incomplete`, `c105_domain_error`, `c105_email_leftover`, `c105_email_incomplete`, `c105_email_error`, `c106_command`, `c106_domain`, `c106_email`, `c106_reply`, `c106_reply_short`, `c106_example`, `c107_counters`, `c107_command`, `c107_domain`, `c107_email`, `c107_reply`, `c107_at_least`, `c107_connection`, `c108_incomplete`, `c108_error`, `c108_apart`, `c109_writer_unnoticed`, `c109_only_cuts`, `c109_any_packets`, `c109_example`, `c110_standard`, `c110_lines`, `c110_sessions`, `c111_left`, `c111_kept`, `c111_example`, `c112_contract`, `c112_flushed`, `c112_nothing_held_back`, `c112_same`, `c112_ends_alike`, `c112_live`, `c112_woken`, `c112_example`, `c112_example_waits`, `c113_contract`, `c113_prefix`, `c113_one_unflushed`, `c113_ok`, `c113_err`, `c113_live`, `c113_roundtrip`, `c113_go_on`, `c114_woken`, `c114_one_to_one`, `c114_bounded`, `c114_ends`, `c114_never_yields`, `c114_example`, `c115_stream`, `c115_sink`, `c115_session`, `c115_fits`, `c115_no_panic`, `c115_example`, `c115_example_memory`, `c116_session`, `c116_lines`, `c116_parsed`, `c116_quadratic`, `c116_example`, `c117_build`, `c117_sendable`, `c118_packets`, `c118_held`, `c118_empty`, `c118_example`, `c119_message`, `c119_writes`, `c119_replies`, `c119_output`, `c119_amplification`, `c119_replies_tight`, `c119_example`, `c120_any_point`, `c120_result`, `c120_returns`, `c120_every_point`, `c120_unwound`, `c120_stuck`, `c120_mailbox`, `c120_exists`, `c120_example`, `c120_example_stuck`, `c121_open`, `c121_ended`, `c121_list`, `c121_past`, `c121_polls`, `c121_end`, `c121_again`, `c121_ok`, `c121_starved`, `c121_example_endless`, `c121_example_silence`, `c121_example_starved`, `c121_example_revenant`, `c122_silent`, `c122_kept`, `c122_example`, `c122_others_delivered`, `c122_example_others`, `c123_refines`, `c123_recovery_refines`, `c124_same`, `c124_transfer`, `c124_envelope`, `c124_ends`, `c124_wire`, `c124_unwound`, `c124_keeps`, `c124_pure`, `c124_mailbox`, `c124_example`, `c124_example_mailbox`, `c124_example_returns`, `c125_same`, `c125_transfer`, `c125_envelope`, `c125_wire`, `c125_polls`, `c125_over`, `c125_panics`, `c125_ends`, `c125_answered`, `c126_same`, `c126_session`, `c126_transfer`, `c126_envelope`, `c126_contract`, `c126_flushed`, `c126_nothing_held_back`, `c126_one_call`, `c126_panics`, `c126_ends`, `c126_over`, `c126_sink_panics`, `c126_sink_panics_kept`, `c127_task`, `c127_calls`, `c127_verdict`, `c127_handles`, `c127_once`, `c127_paid`, `c127_finite`, `c127_ends`, `c127_comes_to_rest`, `c127_example_rest`
