{
 "C12": {
  "status": "partial",
  "note": "False of the code as stated (c12_refuted): the wire line '..' decodes to a lone-dot line, as it must. c12_partial gives the exact condition."
 },
 "C21": {
  "status": "partial",
  "note": "False of the code as stated (c21_refuted): a '+' sign and two digits is accepted as a code. c21_partial / c21_exact_partial give the exact accepted language."
 },
 "C26": {
  "status": "partial",
  "note": "False of the code as stated (c26_refuted): an empty reply text writes no line. c26_partial covers every non-empty text."
 },
 "C34": {
  "status": "partial",
  "note": "False of the code as stated (c34_refuted): EXPN, HELP, NOOP and VRFY built by hand write their argument unchecked, so it can inject a second command. c34_partial covers every well-formed (in particular every parsed) command; c34_exact gives the exact condition for the four free-text commands."
 },
 "C40": {
  "status": "partial",
  "note": "False of the code as stated (c40_refuted): the assertion in ByteSlice::slice compares range.end with the end offset instead of the length. c40_partial gives the exact condition; slice(a..), ranges up to len and slices starting at offset 0 are proved exact. The primitive nom parsers only use in-range slices (C41)."
 },
 "C51": {
  "status": "partial",
  "note": "False of handlers in general (c51_refuted): a handler that polls its stream again after complete() swallows the next commands, and completing a second time passes the assertion. c51_partial / c51_session_partial hold for every handler that does not poll after complete(); c51_any_handler says where an arbitrary handler can leave the connection (after some lone-dot line, or at the end)."
 },
 "C54": {
  "status": "partial",
  "note": "False of the code (c54_refuted): QUIT, RSET, EHLO and HELO are answered 502; RSET keeps the transaction and commands after QUIT are executed. c54_partial states exactly what happens instead, in every state."
 },
 "C64": {
  "status": "partial",
  "note": "False as stated: c64_late_mail_refuted (a mail enqueued after the listing is never picked up by that run) and c64_failed_get_mail_refuted (a failing get_mail ends the task and leaves the mail in flight) exhibit reachable states that stay stranded for ever unless run is called again. Proved part: without storage failures and crashes every listed or found mail is gone (accepted) or has a task. c64_accounted_partial: with failures and crashes allowed, a mail that was picked up and is neither gone nor has a task is explained by a recorded crash or failed operation."
 },
 "C69": {
  "status": "partial",
  "note": "False as stated: the delay counts from startup, so a listing that takes an hour lets find_inflight yield a mail this run is sending, which is then recovered at once and sent twice concurrently (c69_slow_listing_refuted). Proved under the extra condition that find_inflight yields its mails within F seconds after startup and attempts take less than A seconds, A + F <= 3600; the bound is tight."
 },
 "C76": {
  "status": "partial",
  "note": "data_stream_and_sink_are_compatible is proved for all inputs (c76_compatible). all_leading_dots_are_escaped is false (c76_dots_refuted: 'a CRLF .. CRLF b'); c76_dots_partial is the exact condition, c76_dots_test_partial the test without such lines."
 },
 "C84": {
  "note": "Acceptances and mishaps are counted in the record of the execution. The condition on recovery is needed (c84_condition_is_needed) and follows from timing (c84_duplicates_timely)."
 },
 "C85": {
  "note": "c85_prefix, c85_two_connections; c85_example shows a transaction with two recipients and a message meeting the hypotheses."
 },
 "C86": {
  "note": "c86_line (one line, any handler), c86_session (in the middle of a session), c86_spelling (lines of the grammar with the same meaning); c86_example replaces a plain RCPT by one with odd case, source route, blanks and parameters."
 },
 "C87": {
  "note": "c87_leftover, c87_terminated, c87_line, c87_unterminated; c87_reply_leftover, c87_reply_incomplete, c87_reply_error classify every reply input. c87_not_final shows by example that ParseError is not final on unterminated input (IncompleteString would have been the right answer), so a client of the crate must not feed partial lines."
 },
 "C24": {
  "status": "proved",
  "note": "Proved with the machine arithmetic of usize. Finding: byte_chunks(usize::MAX) on two or more bytes panics in debug builds and returns no chunks in release builds (c24_usize_max); the statement says so."
 },
 "C88": {
  "note": "Finding: the state is advanced before the bytes are sent (data/sink.rs:32-42), so retrying a chunk after a cancelled or failed send loses the dot-stuffing: c88_retry_unsafe gives an end-of-data marker inside the text followed by arbitrary text read as commands."
 },
 "C89": {
  "note": "The table is the standard library's from_utf8, modelled from RFC 3629; the theorem checks that table against the bit-level definition of UTF-8."
 },
 "C90": {
  "note": "c90_attempts (at most one attempt per hand-over, every execution), c90_attempts_exact (exactly one, without crashes, at rest), c90_no_pause (any number of refusals at one moment, from every state with a spawned attempt). Examples c90_example, c90_example_exact."
 },
 "C91": {
  "note": "c91_count / c91_once / c91_again give the exact number, c91_not_ended bounds it for other outcomes; c91_witness: the second poll really happens, whatever the packetisation. The polls are counted by a ghost field of the model's reader."
 },
 "C92": {
  "note": "c92_inert and c92_callbacks relate the sessions of two configurations, c92_implementations those of two implementations; c92_resolution, c92_roots, c92_okay, c92_bad_sequence and c92_banner say what the provided methods resolve to; c92_needs_sendable shows that the condition on the texts is needed."
 },
 "C93": {
  "note": "exact: acceptance for the stated lines, refusal of every other literal; finding: general literals and `[ipv6:...]` are refused; c93_ipv6: the RFC's IPv6 literals are exactly the accepted ones in which :: stands for at least two groups"
 },
 "C94": {
  "note": "exact, with the bare code line as the stated exception (c94_bare)"
 },
 "C95": {
  "note": "the texts are std::net's Display of the pinned nightly, modelled in Model/Ip.lean"
 },
 "C96": {
  "note": "Counts the bytes that are still referenced (contents of the buffer), not allocator capacity."
 },
 "C97": {
  "note": "Counts the windows looked at by the two search loops (Model/Work.lean); c97_counters shows that erasing the counters gives the functions of the other properties."
 },
 "C98": {
  "note": "Filters of the first server may rewrite addresses, into well-formed ones. MAIL and RCPT parameters are not part of what interact hands over, hence not of what is relayed."
 },
 "C99": {
  "note": "The outbound half is a finding: DataSink does not protect tolerant receivers (it need not by RFC 5321)."
 },
 "C100": {
  "note": "A statement of what is not there: refusing oversized input is left to the filters. Reply lines, on the other hand, are limited to 512 bytes (C18)."
 },
 "C101": {
  "note": "A callback other than handle_mail is one await point and acts at once; handle_mail can be dropped between any two operations on its stream, and its changes of configuration and connection data count when it returns."
 },
 "C102": {
  "note": "The target is written for an older trait and does not compile at the pinned commit; Model/FuzzConfig.lean is its port (complete() in place of concat_and_recover / into_inner)."
 },
 "C103": {
  "note": "On the state machine of C101. The mailbox is whatever part of the configuration's state the hypothesis singles out; that it survives the process is the configuration's business."
 },
 "C104": {
  "note": "c104_never_lost, c104_acknowledged (each acknowledged mail, by its position), c104_names, c104_kept, c104_nothing_new (converse), c104_goes_on (the composed system never blocks a session, so the invariants are not vacuous), c104_projects and c104_delivered (long run), c104_example, c104_example_delivered. A handler that enqueues and then does not accept (crash, error) is covered by the step other."
 },
 "C106": {
  "note": "For address libraries satisfying the assumed laws of Ipv4Addr/Ipv6Addr parsing (proved for the modelled std parser)."
 },
 "C107": {
  "note": "The cost model is stated in Model/ParseWork.lean: slicing a ByteSlice is free, filling the parameter table costs the bytes of the keys, and std's IP address parsers are assumed to look at each byte once (plus one pass for UTF-8)."
 },
 "C108": {
  "note": "Rests on the modelled outcome of each nom macro at the end of its input (Model/Nom.lean), in particular that is_a! accepts an empty run there."
 },
 "C109": {
  "note": "On the state machine of C101, answer by answer; for handlers that decide by the whole text the two sessions may also be packetized differently."
 },
 "C110": {
  "note": "c110_standard says that the model used by all other claims is one of the variants; c110_example that the variants differ off lines. What is reported for a line that is no command (error or incomplete) may differ; the server does not look at it."
 },
 "C111": {
  "note": "lifts, for the mailbox, the simplification that a callback's effects happen when it returns"
 },
 "C112": {
  "note": "lifts the simplification that a write is one operation; futures-util's With and SendAll are modelled concretely"
 },
 "C113": {
  "note": "lifts the simplification that a send on the underlying sink is one operation; the finding on dropped sends is c113_example_dropped_send"
 },
 "C114": {
  "note": "callbacks other than handle_mail do not answer Pending in the model; (4) is what the code does, not something a user would wish for"
 },
 "C115": {
  "note": "while a reply is sent, ReplyLine::build and the writing into a buffer of byte_len() bytes have their panics in Model/Task.lean (C50)"
 },
 "C116": {
  "note": "units are those of C97 and C107: places of received bytes looked at; what callbacks do and the writing of replies is not counted"
 },
 "C117": {
  "note": "ContainsNewLine is never constructed; texts of nom's errors and of incomplete input are not modelled"
 },
 "C118": {
  "note": "an empty packet does not occur on a TCP connection, but a Stream may deliver one; then the poll is unbounded (c118_empty)"
 },
 "C119": {
  "note": "the bound on replies takes the laws of the IP parsers (only through C29, discharged in C70)"
 },
 "C120": {
  "note": "a callback's future depends on nothing but what it was given (config and connection data are borrowed exclusively) and, in handle_mail, on its stream"
 },
 "C121": {
  "note": "callbacks do their work in one go, as in Model/Task (C120 lifts this for lists)"
 },
 "C122": {
  "note": "an operation dropped before it has answered has no effect after the drop (the effect before the drop is an answer the task does not get to see)"
 },
 "C123": {
  "note": "futures 0.1 combinators (and_then, then, map, for_each) are modelled by their published source (Chain, ForEach); tokio::spawn returns a future that is ready"
 },
 "C124": {
  "note": "the callbacks other than the mail handler act in one go here (C120 lifts that for reply methods without effects)"
 },
 "C125": {
  "note": "the connection data and the state of the configuration are part of the environment; c125_same and c125_transfer take a connection that stays at its end (C121 is about others)"
 },
 "C126": {
  "note": "the calls within SendAll and With (futures 0.3 code outside the repository) are as in Model/SinkPoll.lean"
 },
 "C127": {
  "note": "the safety half of C57-C69 that needs no contract; that mails are not lost or sent twice needs the contract and is proved there"
 }
}