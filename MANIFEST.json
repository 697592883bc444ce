{
 "claims": [
  {
   "property": "C01",
   "status": "proved",
   "theorems": [
    "Verif.c01_marker_iff",
    "Verif.c01_decoding"
   ],
   "note": ""
  },
  {
   "property": "C02",
   "status": "proved",
   "theorems": [
    "Verif.c02_leftover"
   ],
   "note": ""
  },
  {
   "property": "C03",
   "status": "proved",
   "theorems": [
    "Verif.c03_no_marker_iff",
    "Verif.c03_early_end",
    "Verif.c03_ok_iff_marker"
   ],
   "note": ""
  },
  {
   "property": "C04",
   "status": "proved",
   "theorems": [
    "Verif.c04_packet_independence"
   ],
   "note": ""
  },
  {
   "property": "C05",
   "status": "proved",
   "theorems": [
    "Verif.c05_chunks_nonempty",
    "Verif.c05_end_sticky"
   ],
   "note": ""
  },
  {
   "property": "C06",
   "status": "proved",
   "theorems": [
    "Verif.c06_no_overread"
   ],
   "note": ""
  },
  {
   "property": "C07",
   "status": "proved",
   "theorems": [
    "Verif.c07_complete_no_panic",
    "Verif.c07_complete_too_early",
    "Verif.c07_complete_twice",
    "Verif.c07_complete_exact"
   ],
   "note": ""
  },
  {
   "property": "C08",
   "status": "proved",
   "theorems": [
    "Verif.c08_sink_output",
    "Verif.c08_sink_succeeds"
   ],
   "note": ""
  },
  {
   "property": "C09",
   "status": "proved",
   "theorems": [
    "Verif.c09_marker_only_at_end",
    "Verif.c09_sink_output",
    "Verif.c09_sink_failure"
   ],
   "note": ""
  },
  {
   "property": "C10",
   "status": "proved",
   "theorems": [
    "Verif.c10_roundtrip"
   ],
   "note": ""
  },
  {
   "property": "C11",
   "status": "proved",
   "theorems": [
    "Verif.c11_failure_prefix"
   ],
   "note": ""
  },
  {
   "property": "C12",
   "status": "partial",
   "theorems": [
    "Verif.c12_refuted",
    "Verif.c12_partial"
   ],
   "note": "False of the code as stated (c12_refuted): the wire line '..' decodes to a lone-dot line, as it must. c12_partial gives the exact condition."
  },
  {
   "property": "C13",
   "status": "proved",
   "theorems": [
    "Verif.c13_prepend_then_poll",
    "Verif.c13_prepend_then_read",
    "Verif.c13_second_prepend_fails",
    "Verif.c13_fresh",
    "Verif.c13_slot_free_after_poll",
    "Verif.c13_prepend_iff",
    "Verif.c13_poll",
    "Verif.c13_history",
    "Verif.c13_history_exists"
   ],
   "note": ""
  },
  {
   "property": "C14",
   "status": "proved",
   "theorems": [
    "Verif.c14_next_line",
    "Verif.c14_no_overread"
   ],
   "note": ""
  },
  {
   "property": "C15",
   "status": "proved",
   "theorems": [
    "Verif.c15_no_line"
   ],
   "note": ""
  },
  {
   "property": "C16",
   "status": "proved",
   "theorems": [
    "Verif.c16_read_lines"
   ],
   "note": ""
  },
  {
   "property": "C17",
   "status": "proved",
   "theorems": [
    "Verif.c17_build_ok",
    "Verif.c17_too_long",
    "Verif.c17_bad_byte"
   ],
   "note": ""
  },
  {
   "property": "C18",
   "status": "proved",
   "theorems": [
    "Verif.c18_wire_form"
   ],
   "note": ""
  },
  {
   "property": "C19",
   "status": "proved",
   "theorems": [
    "Verif.c19_byte_len"
   ],
   "note": ""
  },
  {
   "property": "C20",
   "status": "proved",
   "theorems": [
    "Verif.c20_roundtrip"
   ],
   "note": ""
  },
  {
   "property": "C21",
   "status": "partial",
   "theorems": [
    "Verif.c21_refuted",
    "Verif.c21_partial",
    "Verif.c21_exact_partial"
   ],
   "note": "False of the code as stated (c21_refuted): a '+' sign and two digits is accepted as a code. c21_partial / c21_exact_partial give the exact accepted language."
  },
  {
   "property": "C22",
   "status": "proved",
   "theorems": [
    "Verif.c22_whole_input"
   ],
   "note": ""
  },
  {
   "property": "C23",
   "status": "proved",
   "theorems": [
    "Verif.c23_custom",
    "Verif.c23_refused",
    "Verif.c23_digits"
   ],
   "note": ""
  },
  {
   "property": "C24",
   "status": "proved",
   "theorems": [
    "Verif.c24_chunks",
    "Verif.c24_zero",
    "Verif.c24_usize",
    "Verif.c24_usize_zero",
    "Verif.c24_usize_checked",
    "Verif.c24_usize_wrapping",
    "Verif.c24_usize_wrapping_edge",
    "Verif.c24_usize_max",
    "Verif.c24_usize_reply"
   ],
   "note": "Proved with the machine arithmetic of usize. Finding: byte_chunks(usize::MAX) on two or more bytes panics in debug builds and returns no chunks in release builds (c24_usize_max); the statement says so."
  },
  {
   "property": "C25",
   "status": "proved",
   "theorems": [
    "Verif.c25_lines",
    "Verif.c25_panics_iff",
    "Verif.c25_sent",
    "Verif.c25_server_panics"
   ],
   "note": ""
  },
  {
   "property": "C26",
   "status": "partial",
   "theorems": [
    "Verif.c26_refuted",
    "Verif.c26_partial"
   ],
   "note": "False of the code as stated (c26_refuted): an empty reply text writes no line. c26_partial covers every non-empty text."
  },
  {
   "property": "C27",
   "status": "proved",
   "theorems": [
    "Verif.c27_roundtrip",
    "Verif.c27_any_order"
   ],
   "note": ""
  },
  {
   "property": "C28",
   "status": "proved",
   "theorems": [
    "Verif.c28_wellformed",
    "Verif.c28_stable"
   ],
   "note": ""
  },
  {
   "property": "C29",
   "status": "proved",
   "theorems": [
    "Verif.c29_bare",
    "Verif.c29_hello",
    "Verif.c29_text",
    "Verif.c29_opttext"
   ],
   "note": ""
  },
  {
   "property": "C30",
   "status": "proved",
   "theorems": [
    "Verif.c30_mail",
    "Verif.c30_mail_null",
    "Verif.c30_rcpt",
    "Verif.c30_language"
   ],
   "note": ""
  },
  {
   "property": "C31",
   "status": "proved",
   "theorems": [
    "Verif.c31_one_line"
   ],
   "note": ""
  },
  {
   "property": "C32",
   "status": "proved",
   "theorems": [
    "Verif.c32_case_insensitive"
   ],
   "note": ""
  },
  {
   "property": "C33",
   "status": "proved",
   "theorems": [
    "Verif.c33_unambiguous",
    "Verif.c33_order_irrelevant"
   ],
   "note": ""
  },
  {
   "property": "C34",
   "status": "partial",
   "theorems": [
    "Verif.c34_refuted",
    "Verif.c34_partial",
    "Verif.c34_exact"
   ],
   "note": "False of the code as stated (c34_refuted): EXPN, HELP, NOOP and VRFY built by hand write their argument unchecked, so it can inject a second command. c34_partial covers every well-formed (in particular every parsed) command; c34_exact gives the exact condition for the four free-text commands."
  },
  {
   "property": "C35",
   "status": "proved",
   "theorems": [
    "Verif.c35_last_wins",
    "Verif.c35_get",
    "Verif.c35_order_irrelevant"
   ],
   "note": ""
  },
  {
   "property": "C36",
   "status": "proved",
   "theorems": [
    "Verif.c36_rcpt",
    "Verif.c36_mail"
   ],
   "note": ""
  },
  {
   "property": "C37",
   "status": "proved",
   "theorems": [
    "Verif.c37_exact",
    "Verif.c37_roundtrip",
    "Verif.c37_stable"
   ],
   "note": ""
  },
  {
   "property": "C38",
   "status": "proved",
   "theorems": [
    "Verif.c38_parsed",
    "Verif.c38_command",
    "Verif.c38_unique",
    "Verif.c38_quote"
   ],
   "note": ""
  },
  {
   "property": "C39",
   "status": "proved",
   "theorems": [
    "Verif.c39_exact",
    "Verif.c39_roundtrip",
    "Verif.c39_stable"
   ],
   "note": ""
  },
  {
   "property": "C40",
   "status": "partial",
   "theorems": [
    "Verif.c40_refuted",
    "Verif.c40_refuted_late_panic",
    "Verif.c40_partial",
    "Verif.c40_in_range",
    "Verif.c40_from",
    "Verif.c40_root"
   ],
   "note": "False of the code as stated (c40_refuted): the assertion in ByteSlice::slice compares range.end with the end offset instead of the length. c40_partial gives the exact condition; slice(a..), ranges up to len and slices starting at offset 0 are proved exact. The primitive nom parsers only use in-range slices (C41)."
  },
  {
   "property": "C41",
   "status": "proved",
   "theorems": [
    "Verif.c41_of_bytes",
    "Verif.c41_operations",
    "Verif.c41_indices",
    "Verif.c41_only_visible",
    "Verif.c41_eq_sound",
    "Verif.c41_eq_is_identity",
    "Verif.c41_tag",
    "Verif.c41_one_of",
    "Verif.c41_is_a",
    "Verif.c41_eat_separator",
    "Verif.c41_take",
    "Verif.c41_take_until",
    "Verif.c41_take_until_and_consume",
    "Verif.c41_recognize"
   ],
   "note": ""
  },
  {
   "property": "C42",
   "status": "proved",
   "theorems": [
    "Verif.c42_reference",
    "Verif.c42_reference_unique",
    "Verif.c42_packets",
    "Verif.c42_total",
    "Verif.c42_example"
   ],
   "note": ""
  },
  {
   "property": "C43",
   "status": "proved",
   "theorems": [
    "Verif.c43_sequence",
    "Verif.c43_recipient"
   ],
   "note": ""
  },
  {
   "property": "C44",
   "status": "proved",
   "theorems": [
    "Verif.c44_replay",
    "Verif.c44_envelope"
   ],
   "note": ""
  },
  {
   "property": "C45",
   "status": "proved",
   "theorems": [
    "Verif.c45_mail_again",
    "Verif.c45_rcpt_before_mail",
    "Verif.c45_data_before_mail",
    "Verif.c45_data_before_rcpt"
   ],
   "note": ""
  },
  {
   "property": "C46",
   "status": "proved",
   "theorems": [
    "Verif.c46_blocks",
    "Verif.c46_output",
    "Verif.c46_output_error",
    "Verif.c46_wire"
   ],
   "note": ""
  },
  {
   "property": "C47",
   "status": "proved",
   "theorems": [
    "Verif.c47_unrecognized",
    "Verif.c47_unimplemented"
   ],
   "note": ""
  },
  {
   "property": "C48",
   "status": "proved",
   "theorems": [
    "Verif.c48_closed_after_message",
    "Verif.c48_data_refused",
    "Verif.c48_rcpt_refused",
    "Verif.c48_closed_only_by_message"
   ],
   "note": ""
  },
  {
   "property": "C49",
   "status": "proved",
   "theorems": [
    "Verif.c49_error_is_last",
    "Verif.c49_no_write_after",
    "Verif.c49_no_read_after"
   ],
   "note": ""
  },
  {
   "property": "C50",
   "status": "proved",
   "theorems": [
    "Verif.c50_no_panic"
   ],
   "note": ""
  },
  {
   "property": "C51",
   "status": "partial",
   "theorems": [
    "Verif.c51_partial",
    "Verif.c51_session_partial",
    "Verif.c51_any_handler",
    "Verif.c51_not_completed",
    "Verif.c51_early_complete",
    "Verif.c51_refuted"
   ],
   "note": "False of handlers in general (c51_refuted): a handler that polls its stream again after complete() swallows the next commands, and completing a second time passes the assertion. c51_partial / c51_session_partial hold for every handler that does not poll after complete(); c51_any_handler says where an arbitrary handler can leave the connection (after some lone-dot line, or at the end)."
  },
  {
   "property": "C52",
   "status": "proved",
   "theorems": [
    "Verif.c52_complete_lines",
    "Verif.c52_tail_ignored"
   ],
   "note": ""
  },
  {
   "property": "C53",
   "status": "proved",
   "theorems": [
    "Verif.c53_terminates",
    "Verif.c53_all_lines",
    "Verif.c53_ok_iff"
   ],
   "note": ""
  },
  {
   "property": "C54",
   "status": "partial",
   "theorems": [
    "Verif.c54_refuted",
    "Verif.c54_partial"
   ],
   "note": "False of the code (c54_refuted): QUIT, RSET, EHLO and HELO are answered 502; RSET keeps the transaction and commands after QUIT are executed. c54_partial states exactly what happens instead, in every state."
  },
  {
   "property": "C55",
   "status": "proved",
   "theorems": [
    "Verif.c55_texts",
    "Verif.c55_sendable",
    "Verif.c55_wire"
   ],
   "note": ""
  },
  {
   "property": "C56",
   "status": "proved",
   "theorems": [
    "Verif.c56_before_filter_from",
    "Verif.c56_new_mail_then_filter"
   ],
   "note": ""
  },
  {
   "property": "C57",
   "status": "proved",
   "theorems": [
    "Verif.c57_never_lost",
    "Verif.c57_nothing_new"
   ],
   "note": ""
  },
  {
   "property": "C58",
   "status": "proved",
   "theorems": [
    "Verif.c58_done_after_accepted",
    "Verif.c58_right_message",
    "Verif.c58_accepted_is_done"
   ],
   "note": ""
  },
  {
   "property": "C59",
   "status": "proved",
   "theorems": [
    "Verif.c59_refused_is_cancelled",
    "Verif.c59_queued_again",
    "Verif.c59_cancelled_is_retried",
    "Verif.c59_never_blocked"
   ],
   "note": ""
  },
  {
   "property": "C60",
   "status": "proved",
   "theorems": [
    "Verif.c60_one_attempt",
    "Verif.c60_one_attempt_timely",
    "Verif.c60_worker_owns",
    "Verif.c60_example",
    "Verif.c60_example_working"
   ],
   "note": ""
  },
  {
   "property": "C61",
   "status": "proved",
   "theorems": [
    "Verif.c61_listed_is_attempted",
    "Verif.c61_startup"
   ],
   "note": ""
  },
  {
   "property": "C62",
   "status": "proved",
   "theorems": [
    "Verif.c62_not_before_an_hour",
    "Verif.c62_listing_first"
   ],
   "note": ""
  },
  {
   "property": "C63",
   "status": "proved",
   "theorems": [
    "Verif.c63_not_sent_again",
    "Verif.c63_condition_is_needed"
   ],
   "note": ""
  },
  {
   "property": "C64",
   "status": "partial",
   "theorems": [
    "Verif.c64_no_failure_partial",
    "Verif.c64_accounted_partial",
    "Verif.c64_late_mail_refuted",
    "Verif.c64_failed_get_mail_refuted",
    "Verif.c64_example"
   ],
   "note": "False as stated: c64_late_mail_refuted (a mail enqueued after the listing is never picked up by that run) and c64_failed_get_mail_refuted (a failing get_mail ends the task and leaves the mail in flight) exhibit reachable states that stay stranded for ever unless run is called again. Proved part: without storage failures and crashes every listed or found mail is gone (accepted) or has a task. c64_accounted_partial: with failures and crashes allowed, a mail that was picked up and is neither gone nor has a task is explained by a recorded crash or failed operation."
  },
  {
   "property": "C65",
   "status": "proved",
   "theorems": [
    "Verif.c65_fuzz_oracle"
   ],
   "note": ""
  },
  {
   "property": "C66",
   "status": "proved",
   "theorems": [
    "Verif.c66_protocol"
   ],
   "note": ""
  },
  {
   "property": "C67",
   "status": "proved",
   "theorems": [
    "Verif.c67_sent_again_only_after_failure"
   ],
   "note": ""
  },
  {
   "property": "C68",
   "status": "proved",
   "theorems": [
    "Verif.c68_found_waits",
    "Verif.c68_waited_is_recovered",
    "Verif.c68_queued_again",
    "Verif.c68_recovered_is_attempted"
   ],
   "note": ""
  },
  {
   "property": "C69",
   "status": "partial",
   "theorems": [
    "Verif.c69_not_taken_away_partial",
    "Verif.c69_slow_listing_refuted"
   ],
   "note": "False as stated: the delay counts from startup, so a listing that takes an hour lets find_inflight yield a mail this run is sending, which is then recovered at once and sent twice concurrently (c69_slow_listing_refuted). Proved under the extra condition that find_inflight yields its mails within F seconds after startup and attempts take less than A seconds, A + F <= 3600; the bound is tight."
  },
  {
   "property": "C70",
   "status": "proved",
   "theorems": [
    "Verif.c70_v4",
    "Verif.c70_v6",
    "Verif.c70_literals",
    "Verif.c70_print",
    "Verif.c70_unique",
    "Verif.c70_laws"
   ],
   "note": ""
  },
  {
   "property": "C71",
   "status": "proved",
   "theorems": [
    "Verif.c71_neighbours"
   ],
   "note": ""
  },
  {
   "property": "C72",
   "status": "proved",
   "theorems": [
    "Verif.c72_command",
    "Verif.c72_reply",
    "Verif.c72_domain",
    "Verif.c72_email",
    "Verif.c72_slices",
    "Verif.c72_fuzz_targets",
    "Verif.c72_only_visible"
   ],
   "note": ""
  },
  {
   "property": "C73",
   "status": "proved",
   "theorems": [
    "Verif.c73_sender",
    "Verif.c73_recipient",
    "Verif.c73_wellformed"
   ],
   "note": ""
  },
  {
   "property": "C74",
   "status": "proved",
   "theorems": [
    "Verif.c74_ends",
    "Verif.c74_localpart",
    "Verif.c74_mailbox",
    "Verif.c74_mailbox_any_moment",
    "Verif.c74_mailbox_any_end"
   ],
   "note": ""
  },
  {
   "property": "C75",
   "status": "proved",
   "theorems": [
    "Verif.c75_mail",
    "Verif.c75_refused_text",
    "Verif.c75_help",
    "Verif.c75_refused_sender",
    "Verif.c75_no_recipient",
    "Verif.c75_cut_line",
    "Verif.c75_interrupted"
   ],
   "note": ""
  },
  {
   "property": "C76",
   "status": "partial",
   "theorems": [
    "Verif.c76_compatible",
    "Verif.c76_dots_refuted",
    "Verif.c76_dots_partial",
    "Verif.c76_dots_test_partial"
   ],
   "note": "data_stream_and_sink_are_compatible is proved for all inputs (c76_compatible). all_leading_dots_are_escaped is false (c76_dots_refuted: 'a CRLF .. CRLF b'); c76_dots_partial is the exact condition, c76_dots_test_partial the test without such lines."
  },
  {
   "property": "C77",
   "status": "proved",
   "theorems": [
    "Verif.c77_delivered"
   ],
   "note": ""
  },
  {
   "property": "C78",
   "status": "proved",
   "theorems": [
    "Verif.c78_restart",
    "Verif.c78_example"
   ],
   "note": ""
  },
  {
   "property": "C79",
   "status": "proved",
   "theorems": [
    "Verif.c79_end_to_end",
    "Verif.c79_test_config",
    "Verif.c79_example"
   ],
   "note": ""
  },
  {
   "property": "C80",
   "status": "proved",
   "theorems": [
    "Verif.c80_decodable",
    "Verif.c80_session",
    "Verif.c80_after_write_error",
    "Verif.c80_example"
   ],
   "note": ""
  },
  {
   "property": "C81",
   "status": "proved",
   "theorems": [
    "Verif.c81_lockstep",
    "Verif.c81_data_prompt",
    "Verif.c81_example"
   ],
   "note": ""
  },
  {
   "property": "C82",
   "status": "proved",
   "theorems": [
    "Verif.c82_pending_from_source",
    "Verif.c82_prependable_pending",
    "Verif.c82_prompt",
    "Verif.c82_sink_prompt"
   ],
   "note": ""
  },
  {
   "property": "C83",
   "status": "proved",
   "theorems": [
    "Verif.c83_command",
    "Verif.c83_reply",
    "Verif.c83_email",
    "Verif.c83_domain",
    "Verif.c83_returns",
    "Verif.c83_from_sendable",
    "Verif.c83_server_buffer",
    "Verif.c83_server_model"
   ],
   "note": ""
  },
  {
   "property": "C84",
   "status": "proved",
   "theorems": [
    "Verif.c84_duplicates",
    "Verif.c84_duplicates_timely",
    "Verif.c84_one_transport_per_attempt",
    "Verif.c84_exactly_once",
    "Verif.c84_example_duplicate",
    "Verif.c84_condition_is_needed",
    "Verif.c84_example"
   ],
   "note": "Acceptances and mishaps are counted in the record of the execution. The condition on recovery is needed (c84_condition_is_needed) and follows from timing (c84_duplicates_timely)."
  },
  {
   "property": "C85",
   "status": "proved",
   "theorems": [
    "Verif.c85_prefix",
    "Verif.c85_two_connections",
    "Verif.c85_example"
   ],
   "note": "c85_prefix, c85_two_connections; c85_example shows a transaction with two recipients and a message meeting the hypotheses."
  },
  {
   "property": "C86",
   "status": "proved",
   "theorems": [
    "Verif.c86_line",
    "Verif.c86_session",
    "Verif.c86_spelling",
    "Verif.c86_example"
   ],
   "note": "c86_line (one line, any handler), c86_session (in the middle of a session), c86_spelling (lines of the grammar with the same meaning); c86_example replaces a plain RCPT by one with odd case, source route, blanks and parameters."
  },
  {
   "property": "C87",
   "status": "proved",
   "theorems": [
    "Verif.c87_leftover",
    "Verif.c87_terminated",
    "Verif.c87_line",
    "Verif.c87_unterminated",
    "Verif.c87_not_final",
    "Verif.c87_reply_leftover",
    "Verif.c87_reply_incomplete",
    "Verif.c87_reply_error"
   ],
   "note": "c87_leftover, c87_terminated, c87_line, c87_unterminated; c87_reply_leftover, c87_reply_incomplete, c87_reply_error classify every reply input. c87_not_final shows by example that ParseError is not final on unterminated input (IncompleteString would have been the right answer), so a client of the crate must not feed partial lines."
  },
  {
   "property": "C88",
   "status": "proved",
   "theorems": [
    "Verif.c88_failed_send",
    "Verif.c88_abandon",
    "Verif.c88_retry_unsafe",
    "Verif.c88_end_unsafe",
    "Verif.c88_end_early_unsafe",
    "Verif.c88_go_on"
   ],
   "note": "Finding: the state is advanced before the bytes are sent (data/sink.rs:32-42), so retrying a chunk after a cancelled or failed send loses the dot-stuffing: c88_retry_unsafe gives an end-of-data marker inside the text followed by arbitrary text read as commands."
  },
  {
   "property": "C89",
   "status": "proved",
   "theorems": [
    "Verif.c89_into_utf8"
   ],
   "note": "The table is the standard library's from_utf8, modelled from RFC 3629; the theorem checks that table against the bit-level definition of UTF-8."
  },
  {
   "property": "C90",
   "status": "proved",
   "theorems": [
    "Verif.c90_attempts",
    "Verif.c90_attempts_exact",
    "Verif.c90_no_pause",
    "Verif.c90_example",
    "Verif.c90_example_exact"
   ],
   "note": "c90_attempts (at most one attempt per hand-over, every execution), c90_attempts_exact (exactly one, without crashes, at rest), c90_no_pause (any number of refusals at one moment, from every state with a spawned attempt). Examples c90_example, c90_example_exact."
  },
  {
   "property": "C91",
   "status": "proved",
   "theorems": [
    "Verif.c91_next_line",
    "Verif.c91_message",
    "Verif.c91_exclusive",
    "Verif.c91_count",
    "Verif.c91_once",
    "Verif.c91_again",
    "Verif.c91_not_ended",
    "Verif.c91_witness",
    "Verif.c91_example"
   ],
   "note": "c91_count / c91_once / c91_again give the exact number, c91_not_ended bounds it for other outcomes; c91_witness: the second poll really happens, whatever the packetisation. The polls are counted by a ghost field of the model's reader."
  },
  {
   "property": "C92",
   "status": "proved",
   "theorems": [
    "Verif.c92_inert",
    "Verif.c92_callbacks",
    "Verif.c92_not_reply",
    "Verif.c92_resolution",
    "Verif.c92_roots",
    "Verif.c92_okay",
    "Verif.c92_bad_sequence",
    "Verif.c92_banner",
    "Verif.c92_speakable",
    "Verif.c92_implementations",
    "Verif.c92_defaults",
    "Verif.c92_needs_sendable",
    "Verif.c92_example"
   ],
   "note": "c92_inert and c92_callbacks relate the sessions of two configurations, c92_implementations those of two implementations; c92_resolution, c92_roots, c92_okay, c92_bad_sequence and c92_banner say what the provided methods resolve to; c92_needs_sendable shows that the condition on the texts is needed."
  },
  {
   "property": "C93",
   "status": "proved",
   "theorems": [
    "Verif.c93_accepted",
    "Verif.c93_domain",
    "Verif.c93_mailbox",
    "Verif.c93_other_literals",
    "Verif.c93_witness",
    "Verif.c93_example",
    "Verif.c93_ipv6",
    "Verif.c93_characters"
   ],
   "note": "exact: acceptance for the stated lines, refusal of every other literal; finding: general literals and `[ipv6:...]` are refused; c93_ipv6: the RFC's IPv6 literals are exactly the accepted ones in which :: stands for at least two groups"
  },
  {
   "property": "C94",
   "status": "proved",
   "theorems": [
    "Verif.c94_reply",
    "Verif.c94_session",
    "Verif.c94_defaults",
    "Verif.c94_greeting",
    "Verif.c94_client",
    "Verif.c94_bare",
    "Verif.c94_example",
    "Verif.c94_codes",
    "Verif.c94_greeting_form"
   ],
   "note": "exact, with the bare code line as the stated exception (c94_bare)"
  },
  {
   "property": "C95",
   "status": "proved",
   "theorems": [
    "Verif.c95_v4",
    "Verif.c95_v6",
    "Verif.c95_unique",
    "Verif.c95_normalised",
    "Verif.c95_example"
   ],
   "note": "the texts are std::net's Display of the pinned nightly, modelled in Model/Ip.lean"
  },
  {
   "property": "C96",
   "status": "proved",
   "theorems": [
    "Verif.c96_decoder",
    "Verif.c96_line_exact",
    "Verif.c96_line_goes_on",
    "Verif.c96_line_no_limit",
    "Verif.c96_line_leftover",
    "Verif.c96_session",
    "Verif.c96_long_line",
    "Verif.c96_example"
   ],
   "note": "Counts the bytes that are still referenced (contents of the buffer), not allocator capacity."
  },
  {
   "property": "C97",
   "status": "proved",
   "theorems": [
    "Verif.c97_counters",
    "Verif.c97_decoder_linear",
    "Verif.c97_line_upper",
    "Verif.c97_line_quadratic",
    "Verif.c97_example"
   ],
   "note": "Counts the windows looked at by the two search loops (Model/Work.lean); c97_counters shows that erasing the counters gives the functions of the other properties."
  },
  {
   "property": "C98",
   "status": "proved",
   "theorems": [
    "Verif.c98_forwardable",
    "Verif.c98_relay",
    "Verif.c98_progress",
    "Verif.c98_from_any_client",
    "Verif.c98_example_first",
    "Verif.c98_example"
   ],
   "note": "Filters of the first server may rewrite addresses, into well-formed ones. MAIL and RCPT parameters are not part of what interact hands over, hence not of what is relayed."
  },
  {
   "property": "C99",
   "status": "proved",
   "theorems": [
    "Verif.c99_accepted_clean",
    "Verif.c99_sent_clean",
    "Verif.c99_free_text",
    "Verif.c99_only_crlf_ends",
    "Verif.c99_bare_never_ends",
    "Verif.c99_outbound",
    "Verif.c99_reading",
    "Verif.c99_example"
   ],
   "note": "The outbound half is a finding: DataSink does not protect tolerant receivers (it need not by RFC 5321)."
  },
  {
   "property": "C100",
   "status": "proved",
   "theorems": [
    "Verif.c100_no_limit",
    "Verif.c100_test_config"
   ],
   "note": "A statement of what is not there: refusing oversized input is left to the filters. Reply lines, on the other hand, are limited to 512 bytes (C18)."
  },
  {
   "property": "C101",
   "status": "proved",
   "theorems": [
    "Verif.c101_same",
    "Verif.c101_cut",
    "Verif.c101_wire",
    "Verif.c101_no_early_answer",
    "Verif.c101_reads_when_settled"
   ],
   "note": "A callback other than handle_mail is one await point and acts at once; handle_mail can be dropped between any two operations on its stream, and its changes of configuration and connection data count when it returns."
  },
  {
   "property": "C102",
   "status": "proved",
   "theorems": [
    "Verif.c102_ends",
    "Verif.c102_localpart",
    "Verif.c102_record"
   ],
   "note": "The target is written for an older trait and does not compile at the pinned commit; Model/FuzzConfig.lean is its port (complete() in place of concat_and_recover / into_inner)."
  },
  {
   "property": "C103",
   "status": "proved",
   "theorems": [
    "Verif.c103_every_await",
    "Verif.c103_mailbox",
    "Verif.c103_kept",
    "Verif.c103_example_keeps",
    "Verif.c103_example"
   ],
   "note": "On the state machine of C101. The mailbox is whatever part of the configuration's state the hypothesis singles out; that it survives the process is the configuration's business."
  },
  {
   "property": "C104",
   "status": "proved",
   "theorems": [
    "Verif.c104_never_lost",
    "Verif.c104_acknowledged",
    "Verif.c104_names",
    "Verif.c104_kept",
    "Verif.c104_nothing_new",
    "Verif.c104_goes_on",
    "Verif.c104_projects",
    "Verif.c104_delivered",
    "Verif.c104_example",
    "Verif.c104_example_delivered"
   ],
   "note": "c104_never_lost, c104_acknowledged (each acknowledged mail, by its position), c104_names, c104_kept, c104_nothing_new (converse), c104_goes_on (the composed system never blocks a session, so the invariants are not vacuous), c104_projects and c104_delivered (long run), c104_example, c104_example_delivered. A handler that enqueues and then does not accept (crash, error) is covered by the step other."
  },
  {
   "property": "C105",
   "status": "proved",
   "theorems": [
    "Verif.c105_domain_leftover",
    "Verif.c105_domain_incomplete",
    "Verif.c105_domain_error",
    "Verif.c105_email_leftover",
    "Verif.c105_email_incomplete",
    "Verif.c105_email_error",
    "Verif.c105_example"
   ],
   "note": ""
  },
  {
   "property": "C106",
   "status": "proved",
   "theorems": [
    "Verif.c106_command",
    "Verif.c106_domain",
    "Verif.c106_email",
    "Verif.c106_reply",
    "Verif.c106_reply_short",
    "Verif.c106_example"
   ],
   "note": "For address libraries satisfying the assumed laws of Ipv4Addr/Ipv6Addr parsing (proved for the modelled std parser)."
  },
  {
   "property": "C107",
   "status": "proved",
   "theorems": [
    "Verif.c107_counters",
    "Verif.c107_command",
    "Verif.c107_domain",
    "Verif.c107_email",
    "Verif.c107_reply",
    "Verif.c107_at_least",
    "Verif.c107_connection",
    "Verif.c107_example"
   ],
   "note": "The cost model is stated in Model/ParseWork.lean: slicing a ByteSlice is free, filling the parameter table costs the bytes of the keys, and std's IP address parsers are assumed to look at each byte once (plus one pass for UTF-8)."
  },
  {
   "property": "C108",
   "status": "proved",
   "theorems": [
    "Verif.c108_incomplete",
    "Verif.c108_error",
    "Verif.c108_apart",
    "Verif.c108_wavers",
    "Verif.c108_example"
   ],
   "note": "Rests on the modelled outcome of each nom macro at the end of its input (Model/Nom.lean), in particular that is_a! accepts an empty run there."
  },
  {
   "property": "C109",
   "status": "proved",
   "theorems": [
    "Verif.c109_writer_unnoticed",
    "Verif.c109_only_cuts",
    "Verif.c109_any_packets",
    "Verif.c109_example"
   ],
   "note": "On the state machine of C101, answer by answer; for handlers that decide by the whole text the two sessions may also be packetized differently."
  },
  {
   "property": "C110",
   "status": "proved",
   "theorems": [
    "Verif.c110_standard",
    "Verif.c110_lines",
    "Verif.c110_sessions",
    "Verif.c110_replies",
    "Verif.c110_example"
   ],
   "note": "c110_standard says that the model used by all other claims is one of the variants; c110_example that the variants differ off lines. What is reported for a line that is no command (error or incomplete) may differ; the server does not look at it."
  },
  {
   "property": "C111",
   "status": "proved",
   "theorems": [
    "Verif.c111_left",
    "Verif.c111_kept",
    "Verif.c111_example"
   ],
   "note": "lifts, for the mailbox, the simplification that a callback's effects happen when it returns"
  },
  {
   "property": "C112",
   "status": "proved",
   "theorems": [
    "Verif.c112_contract",
    "Verif.c112_flushed",
    "Verif.c112_nothing_held_back",
    "Verif.c112_same",
    "Verif.c112_ends_alike",
    "Verif.c112_live",
    "Verif.c112_woken",
    "Verif.c112_example_willing",
    "Verif.c112_example",
    "Verif.c112_example_waits"
   ],
   "note": "lifts the simplification that a write is one operation; futures-util's With and SendAll are modelled concretely"
  },
  {
   "property": "C113",
   "status": "proved",
   "theorems": [
    "Verif.c113_contract",
    "Verif.c113_prefix",
    "Verif.c113_one_unflushed",
    "Verif.c113_woken",
    "Verif.c113_ok",
    "Verif.c113_err",
    "Verif.c113_live",
    "Verif.c113_roundtrip",
    "Verif.c113_go_on",
    "Verif.c113_example_live",
    "Verif.c113_example_flushing",
    "Verif.c113_example_dropped_send"
   ],
   "note": "lifts the simplification that a send on the underlying sink is one operation; the finding on dropped sends is c113_example_dropped_send"
  },
  {
   "property": "C114",
   "status": "proved",
   "theorems": [
    "Verif.c114_woken",
    "Verif.c114_one_to_one",
    "Verif.c114_bounded",
    "Verif.c114_ends",
    "Verif.c114_never_yields",
    "Verif.c114_example"
   ],
   "note": "callbacks other than handle_mail do not answer Pending in the model; (4) is what the code does, not something a user would wish for"
  },
  {
   "property": "C115",
   "status": "proved",
   "theorems": [
    "Verif.c115_stream",
    "Verif.c115_sink",
    "Verif.c115_session",
    "Verif.c115_fits",
    "Verif.c115_no_panic",
    "Verif.c115_example",
    "Verif.c115_example_memory"
   ],
   "note": "while a reply is sent, ReplyLine::build and the writing into a buffer of byte_len() bytes have their panics in Model/Task.lean (C50)"
  },
  {
   "property": "C116",
   "status": "proved",
   "theorems": [
    "Verif.c116_session",
    "Verif.c116_lines",
    "Verif.c116_parsed",
    "Verif.c116_quadratic",
    "Verif.c116_example"
   ],
   "note": "units are those of C97 and C107: places of received bytes looked at; what callbacks do and the writing of replies is not counted"
  },
  {
   "property": "C117",
   "status": "proved",
   "theorems": [
    "Verif.c117_numbers",
    "Verif.c117_build",
    "Verif.c117_distinct",
    "Verif.c117_sendable",
    "Verif.c117_trailing",
    "Verif.c117_example"
   ],
   "note": "ContainsNewLine is never constructed; texts of nom's errors and of incomplete input are not modelled"
  },
  {
   "property": "C118",
   "status": "proved",
   "theorems": [
    "Verif.c118_packets",
    "Verif.c118_held",
    "Verif.c118_empty",
    "Verif.c118_example"
   ],
   "note": "an empty packet does not occur on a TCP connection, but a Stream may deliver one; then the poll is unbounded (c118_empty)"
  },
  {
   "property": "C119",
   "status": "proved",
   "theorems": [
    "Verif.c119_message",
    "Verif.c119_writes",
    "Verif.c119_replies",
    "Verif.c119_output",
    "Verif.c119_amplification",
    "Verif.c119_message_tight",
    "Verif.c119_replies_tight",
    "Verif.c119_example"
   ],
   "note": "the bound on replies takes the laws of the IP parsers (only through C29, discharged in C70)"
  },
  {
   "property": "C120",
   "status": "proved",
   "theorems": [
    "Verif.c120_any_point",
    "Verif.c120_result",
    "Verif.c120_returns",
    "Verif.c120_every_point",
    "Verif.c120_unwound",
    "Verif.c120_stuck",
    "Verif.c120_mailbox",
    "Verif.c120_exists",
    "Verif.c120_delayed",
    "Verif.c120_example_amounts",
    "Verif.c120_example",
    "Verif.c120_example_stuck"
   ],
   "note": "a callback's future depends on nothing but what it was given (config and connection data are borrowed exclusively) and, in handle_mail, on its stream"
  },
  {
   "property": "C121",
   "status": "proved",
   "theorems": [
    "Verif.c121_open",
    "Verif.c121_ended",
    "Verif.c121_list",
    "Verif.c121_past",
    "Verif.c121_polls",
    "Verif.c121_end",
    "Verif.c121_again",
    "Verif.c121_ok",
    "Verif.c121_starved",
    "Verif.c121_example_endless",
    "Verif.c121_example_silence",
    "Verif.c121_example_starved",
    "Verif.c121_example_revenant"
   ],
   "note": "callbacks do their work in one go, as in Model/Task (C120 lifts this for lists)"
  },
  {
   "property": "C122",
   "status": "proved",
   "theorems": [
    "Verif.c122_harms_nobody",
    "Verif.c122_any_moment",
    "Verif.c122_silent",
    "Verif.c122_kept",
    "Verif.c122_example",
    "Verif.c122_others_delivered",
    "Verif.c122_example_others"
   ],
   "note": "an operation dropped before it has answered has no effect after the drop (the effect before the drop is an answer the task does not get to see)"
  },
  {
   "property": "C123",
   "status": "proved",
   "theorems": [
    "Verif.c123_delivery",
    "Verif.c123_recovery",
    "Verif.c123_no_lost_wakeup",
    "Verif.c123_never_again",
    "Verif.c123_one_by_one",
    "Verif.c123_retries",
    "Verif.c123_any_polling",
    "Verif.c123_refines",
    "Verif.c123_recovery_refines",
    "Verif.c123_run",
    "Verif.c123_run_refines"
   ],
   "note": "futures 0.1 combinators (and_then, then, map, for_each) are modelled by their published source (Chain, ForEach); tokio::spawn returns a future that is ready"
  },
  {
   "property": "C124",
   "status": "proved",
   "theorems": [
    "Verif.c124_same",
    "Verif.c124_transfer",
    "Verif.c124_envelope",
    "Verif.c124_ends",
    "Verif.c124_wire",
    "Verif.c124_unwound",
    "Verif.c124_keeps",
    "Verif.c124_pure",
    "Verif.c124_mailbox",
    "Verif.c124_example",
    "Verif.c124_example_keeps",
    "Verif.c124_example_mailbox",
    "Verif.c124_example_returns",
    "Verif.c124_example_pure"
   ],
   "note": "the callbacks other than the mail handler act in one go here (C120 lifts that for reply methods without effects)"
  },
  {
   "property": "C125",
   "status": "proved",
   "theorems": [
    "Verif.c125_same",
    "Verif.c125_transfer",
    "Verif.c125_envelope",
    "Verif.c125_wire",
    "Verif.c125_polls",
    "Verif.c125_over",
    "Verif.c125_panics",
    "Verif.c125_ends",
    "Verif.c125_answered",
    "Verif.c125_example",
    "Verif.c125_example_ends",
    "Verif.c125_example_broken",
    "Verif.c125_example_hasty"
   ],
   "note": "the connection data and the state of the configuration are part of the environment; c125_same and c125_transfer take a connection that stays at its end (C121 is about others)"
  },
  {
   "property": "C126",
   "status": "proved",
   "theorems": [
    "Verif.c126_same",
    "Verif.c126_session",
    "Verif.c126_transfer",
    "Verif.c126_envelope",
    "Verif.c126_contract",
    "Verif.c126_flushed",
    "Verif.c126_nothing_held_back",
    "Verif.c126_one_call",
    "Verif.c126_panics",
    "Verif.c126_ends",
    "Verif.c126_poll",
    "Verif.c126_over",
    "Verif.c126_sink_panics",
    "Verif.c126_sink_panics_kept",
    "Verif.c126_example",
    "Verif.c126_example_ends",
    "Verif.c126_example_fails",
    "Verif.c126_example_early",
    "Verif.c126_example_bursts"
   ],
   "note": "the calls within SendAll and With (futures 0.3 code outside the repository) are as in Model/SinkPoll.lean"
  },
  {
   "property": "C127",
   "status": "proved",
   "theorems": [
    "Verif.c127_covers",
    "Verif.c127_task",
    "Verif.c127_calls",
    "Verif.c127_verdict",
    "Verif.c127_handles",
    "Verif.c127_once",
    "Verif.c127_paid",
    "Verif.c127_run",
    "Verif.c127_crash",
    "Verif.c127_goes_on",
    "Verif.c127_finite",
    "Verif.c127_ends",
    "Verif.c127_comes_to_rest",
    "Verif.c127_example",
    "Verif.c127_example_longest",
    "Verif.c127_example_ends",
    "Verif.c127_example_rest"
   ],
   "note": "the safety half of C57-C69 that needs no contract; that mails are not lost or sent twice needs the contract and is proved there"
  }
 ]
}