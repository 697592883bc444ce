{"id": "C01", "title": "DATA decoding equals the reference decoding for every packetisation", "statement": "Whenever the bytes following DATA contain the end-of-data marker (a leading \".\\r\\n\", or \"\\r\\n.\\r\\n\"), reading a DataStream until it ends yields chunks whose concatenation is exactly the text before the marker's dot with one leading dot removed from every line that starts with a dot, and complete() then returns Ok.", "quantifier": "every byte string containing a marker, every way of cutting it into packets (empty packets included), every placement of not-ready (Pending) polls between packets, every previously pushed-back packet", "why_tests_cant": "the number of packetisations is exponential in the length; the look-ahead bugs live exactly at packet boundaries inside CRLF . CRLF", "anchors": ["smtp-message/src/data/stream.rs::DataStream::poll_next", "smtp-message/src/data/stream.rs::DataStream::complete", "smtp-message/fuzz/fuzz_targets/fuzz_data_parser.rs"]}
{"id": "C02", "title": "Bytes after the end-of-data marker are handed back exactly", "statement": "After the DataStream has ended and complete() returned Ok, reading the underlying stream yields exactly the bytes that followed the marker: none lost, duplicated, reordered or altered.", "quantifier": "every input containing a marker, every packetisation and Pending placement", "why_tests_cant": "pipelined bytes can share a packet with any part of the marker", "anchors": ["smtp-message/src/data/stream.rs::DataStream::complete", "smtp-message/src/streamext/prependable.rs::Prependable::prepend"]}
{"id": "C03", "title": "A connection closed before the marker is never reported as a complete message", "statement": "If the bytes contain no end-of-data marker, the DataStream ends, complete() returns Err, and what it yielded is the unescaped text received so far, except for a trailing \".\" or \".\\r\" that begins a line.", "quantifier": "every byte string without marker, every packetisation and Pending placement", "why_tests_cant": "needs every truncation point of every message", "anchors": ["smtp-message/src/data/stream.rs::DataStream::poll_next", "smtp-message/src/data/stream.rs::DataStream::complete"]}
{"id": "C04", "title": "DATA decoding does not depend on packet boundaries", "statement": "Two connections delivering the same bytes in different packets give the same decoded text, the same complete() result and the same leftover bytes.", "quantifier": "every pair of packetisations with the same concatenation", "why_tests_cant": "relational property over unbounded pairs of packetisations", "anchors": ["smtp-message/src/data/stream.rs::DataStream"]}
{"id": "C05", "title": "Decoded chunks are never empty, and the end is sticky", "statement": "Every chunk a DataStream yields is non-empty; once it has ended because of the marker, every further poll reports the end again without consuming anything from the connection.", "quantifier": "every reachable DataStream state and every source", "why_tests_cant": "needs all interleavings of polls and packets", "anchors": ["smtp-message/src/data/stream.rs::DataStream::poll_next"]}
{"id": "C06", "title": "The DATA decoder never reads past the packet that holds the end of the marker", "statement": "When the DataStream has ended on the marker, the packets that come after the one containing the marker's last byte have not been taken from the connection.", "quantifier": "every packetisation, every suffix of further packets", "why_tests_cant": "over-reading only shows with particular packet shapes", "anchors": ["smtp-message/src/data/stream.rs::DataStream::poll_next"]}
{"id": "C07", "title": "complete() never panics on an exhausted stream, and pushing back the leftover always succeeds", "statement": "Once a DataStream has returned end-of-stream, calling complete() does not panic, whatever the state of the source it was built on (including one with a pushed-back packet). Before that, it does not panic exactly when the marker has been received and all text before it has been yielded (and is then Ok); a second call panics.", "quantifier": "every source, every sequence of polls", "why_tests_cant": "the unwrap() depends on a global invariant between buffer and pushed-back slot", "anchors": ["smtp-message/src/data/stream.rs::DataStream::complete", "smtp-message/src/streamext/prependable.rs::Prependable::prepend"]}
{"id": "C08", "title": "DataSink writes the dot-stuffed message and the marker, independent of chunking", "statement": "Sending a message in any chunks through a DataSink and calling end() writes the message with a dot inserted before every dot that starts a line, then \"\\r\\n.\\r\\n\" (or \".\\r\\n\" if the message is empty or already ends in CRLF).", "quantifier": "every message, every chunking", "why_tests_cant": "state is carried across chunk boundaries inside CR LF .", "anchors": ["smtp-message/src/data/sink.rs::DataSink::send", "smtp-message/src/data/sink.rs::DataSink::end"]}
{"id": "C09", "title": "The wire form of a message contains the end-of-data marker exactly once, at its end", "statement": "No message content can make the receiving side see the end of data early: in what DataSink writes, the first end-of-data marker ends at the last byte.", "quantifier": "every message content and chunking", "why_tests_cant": "message smuggling needs a specific content among infinitely many", "anchors": ["smtp-message/src/data/sink.rs::DataSink::send", "smtp-message/src/data/sink.rs::DataSink::end"]}
{"id": "C10", "title": "DataSink and DataStream are inverse", "statement": "Whatever is written by DataSink is decoded by DataStream to the original message (plus a final CRLF if the message is non-empty and does not end in CRLF), and bytes sent after the message are left untouched, for every chunking on both sides.", "quantifier": "every message, every chunking on the sender side, every packetisation on the receiver side, every trailing bytes", "why_tests_cant": "the quickcheck only samples; both chunkings are unbounded", "anchors": ["smtp-message/src/data/sink.rs", "smtp-message/src/data/stream.rs", "smtp-message/src/data/mod.rs::data_stream_and_sink_are_compatible"]}
{"id": "C11", "title": "A failing sink never receives wrong bytes", "statement": "If the underlying sink fails at any point, what it has accepted until then is a prefix of the correct wire form of the message.", "quantifier": "every message, every chunking, every failure point", "why_tests_cant": "every failure point of every chunking", "anchors": ["smtp-message/src/data/sink.rs::DataSink::send"]}
{"id": "C12", "title": "Decoded text never contains an end-of-data marker", "statement": "The property the project's own quickcheck all_leading_dots_are_escaped asserts: the decoded text contains no CRLF . CRLF.", "quantifier": "every input and packetisation", "why_tests_cant": "random tests practically never generate \"\\r\\n..\\r\\n\", for which the claim is false", "anchors": ["smtp-message/src/data/stream.rs::tests::all_leading_dots_are_escaped"]}
{"id": "C13", "title": "A pushed-back item is returned first, exactly once, and nothing is lost", "statement": "After prepend succeeds the next item read is the pushed-back one, followed by the stream unchanged; a second prepend before a read fails and leaves the first in place.", "quantifier": "every stream, every item, every sequence of prepend and read", "why_tests_cant": "stateful law over all operation sequences", "anchors": ["smtp-message/src/streamext/prependable.rs::Prependable"]}
{"id": "C14", "title": "The command-line reader returns the shortest CRLF-terminated prefix for every packetisation", "statement": "next_crlf_line returns exactly the bytes up to and including the first CRLF of the remaining input, whatever the packets, and leaves exactly the rest to be read.", "quantifier": "every input, every packetisation (CR and LF may be in different packets), every Pending placement", "why_tests_cant": "boundary placement is unbounded", "anchors": ["smtp-server/src/crlflines.rs::next_crlf_line"]}
{"id": "C15", "title": "The command-line reader returns nothing when no CRLF arrives and loses no byte", "statement": "If the remaining input contains no CRLF, next_crlf_line returns None, and the bytes received stay readable.", "quantifier": "every input without CRLF, every packetisation", "why_tests_cant": "needs all truncation points", "anchors": ["smtp-server/src/crlflines.rs::next_crlf_line"]}
{"id": "C16", "title": "Reading all lines recovers the input", "statement": "Repeated next_crlf_line calls return lines, each with exactly one CRLF, at its end; their concatenation followed by the unread bytes is the input, and no call panics.", "quantifier": "every input and packetisation", "why_tests_cant": "history property over any number of calls", "anchors": ["smtp-server/src/crlflines.rs::next_crlf_line"]}
{"id": "C17", "title": "Reply lines are validated exactly", "statement": "ReplyLine::build succeeds iff the text has at most 506 bytes and every byte is TAB or printable ASCII; otherwise the error says which limit or which first byte and position is wrong.", "quantifier": "every byte string, code and last-line flag", "why_tests_cant": "all byte strings", "anchors": ["smtp-message/src/reply.rs::ReplyLine::build"]}
{"id": "C18", "title": "A built reply line is one well-formed SMTP line of at most 512 bytes", "statement": "What send_to writes for a built line with a code below 1000 is three digits giving the code, a space (last line) or a dash, the text, and CRLF; it is at most 512 bytes long and holds exactly one CRLF, at its end.", "quantifier": "every built reply line", "why_tests_cant": "all codes times all texts", "anchors": ["smtp-message/src/reply.rs::ReplyLine::send_to", "smtp-message/src/reply.rs::ReplyCode"]}
{"id": "C19", "title": "byte_len is exactly the number of bytes written", "statement": "ReplyLine::byte_len equals the length of what send_to writes, so the fixed-capacity buffer of the server can never overflow.", "quantifier": "every reply line", "why_tests_cant": "all texts", "anchors": ["smtp-message/src/reply.rs::ReplyLine::byte_len", "smtp-server/src/interact.rs::interact"]}
{"id": "C20", "title": "Reply lines survive being sent and parsed", "statement": "Parsing what send_to wrote for a built line returns the same code, last-line flag and text.", "quantifier": "every built reply line with code below 1000", "why_tests_cant": "all codes times all texts", "anchors": ["smtp-message/src/reply.rs::ReplyLine::parse", "smtp-message/src/reply.rs::ReplyLine::send_to"]}
{"id": "C21", "title": "The reply parser accepts exactly three-digit replies", "statement": "ReplyLine::parse accepts a line iff it is three decimal digits, a dash or space, text without CRLF, and CRLF; and returns those parts.", "quantifier": "every byte string", "why_tests_cant": "language equality over all byte strings", "anchors": ["smtp-message/src/reply.rs::reply"]}
{"id": "C22", "title": "A parsed reply line is the whole input and nothing more", "statement": "If ReplyLine::parse accepts an input, the input holds exactly one CRLF, at its end, and the returned text is everything between the fourth byte and that CRLF.", "quantifier": "every byte string", "why_tests_cant": "all byte strings", "anchors": ["smtp-message/src/reply.rs::reply", "smtp-message/src/parseresult.rs::nom_to_result"]}
{"id": "C23", "title": "Reply codes at or above 1000 are refused", "statement": "ReplyCode::custom accepts exactly codes below 1000, and the wire digits of an accepted code read back as that code.", "quantifier": "every 16-bit code", "why_tests_cant": "exhaustive domain plus formatting", "anchors": ["smtp-message/src/reply.rs::ReplyCode::custom", "smtp-message/src/reply.rs::ReplyLine::send_to"]}
{"id": "C24", "title": "Splitting a string into chunks loses nothing and respects the limit", "statement": "byte_chunks(n), n > 0 and len + n <= usize::MAX, gives non-empty chunks of at most n bytes, all but the last of exactly n, whose concatenation is the string; n = 0 panics. For larger n a build with overflow checks panics; one without gives no chunks at all, i.e. loses the text (except when len + n is exactly usize::MAX + 1).", "quantifier": "every string, every chunk size, every width of usize, builds with and without overflow checks", "why_tests_cant": "all sizes", "anchors": ["smtp-message/src/smtpstring.rs::SmtpString::byte_chunks"]}
{"id": "C25", "title": "Long replies are split into a well-formed multi-line reply", "statement": "send_reply writes lines that all carry the reply code, all but the last marked as continued and only the last as final, whose texts concatenate to the reply text; it panics iff the text holds a byte other than TAB or printable ASCII.", "quantifier": "every reply text of any length and every code", "why_tests_cant": "all text lengths and contents", "anchors": ["smtp-server/src/sendreply.rs::send_reply"]}
{"id": "C26", "title": "Every reply puts at least one line on the wire", "statement": "send_reply always writes at least one line, so a client waiting for an answer gets one.", "quantifier": "every reply text", "why_tests_cant": "the failing case is one specific text", "anchors": ["smtp-server/src/sendreply.rs::send_reply"]}
{"id": "C27", "title": "Commands survive being sent and parsed", "statement": "For every well-formed command value of each of the eleven kinds, parsing what send_to wrote yields the same command (parameters compared as a map).", "quantifier": "every well-formed command value, every iteration order of the parameter map", "why_tests_cant": "infinitely many values; map order is random at run time", "anchors": ["smtp-message/src/command.rs::Command::parse", "smtp-message/src/command.rs::Command::send_to"]}
{"id": "C28", "title": "Every parsed command is well-formed", "statement": "Whatever Command::parse accepts is a well-formed command value: free text holds no CRLF, addresses, domains and parameters obey their grammar; hence parse, send, parse is stable.", "quantifier": "every byte string", "why_tests_cant": "all byte strings", "anchors": ["smtp-message/src/command.rs::Command::parse"]}
{"id": "C29", "title": "The simple commands are recognised exactly", "statement": "Command::parse returns DATA, QUIT, RSET, HELP, NOOP, EXPN, VRFY, EHLO or HELO exactly on the lines of that command's grammar (verb in any case, documented blanks, argument, CRLF), with exactly that argument.", "quantifier": "every byte string", "why_tests_cant": "language equality over all byte strings", "anchors": ["smtp-message/src/command.rs::command", "smtp-message/src/{data,quit,rset,help,noop,expn,vrfy,ehlo,helo}/mod.rs"]}
{"id": "C30", "title": "MAIL and RCPT are recognised exactly", "statement": "Command::parse returns MAIL or RCPT exactly on the lines of the grammar: verb, blanks, path (null path only for MAIL; optional brackets; optional source route), parameters, blanks, CRLF; with exactly that address and those parameters.", "quantifier": "every byte string", "why_tests_cant": "language equality over all byte strings", "anchors": ["smtp-message/src/mail/mod.rs", "smtp-message/src/rcpt/mod.rs", "smtp-message/src/email.rs", "smtp-message/src/parameters.rs"]}
{"id": "C31", "title": "An accepted command is exactly one line", "statement": "If Command::parse accepts an input, the input ends with CRLF and contains no other CRLF.", "quantifier": "every byte string", "why_tests_cant": "all byte strings", "anchors": ["smtp-message/src/command.rs::Command::parse", "smtp-message/src/parseresult.rs"]}
{"id": "C32", "title": "Command verbs are case-insensitive", "statement": "Changing the case of letters in the verb (including FROM: and TO:) changes neither whether a line is accepted nor the command returned.", "quantifier": "every line, every case pattern of the verb", "why_tests_cant": "2^n case patterns times all lines", "anchors": ["smtp-message/src/command.rs::command"]}
{"id": "C33", "title": "A line is at most one command", "statement": "A line accepted as one kind of command fits no other command's grammar, so the order in which alternatives are tried is irrelevant.", "quantifier": "every byte string, every pair of kinds", "why_tests_cant": "all byte strings", "anchors": ["smtp-message/src/command.rs::command"]}
{"id": "C34", "title": "Sending a command writes exactly one line", "statement": "What send_to writes for a command holds exactly one CRLF, at its end, so no argument can inject another command.", "quantifier": "every command value that can be built", "why_tests_cant": "injection needs a specific argument", "anchors": ["smtp-message/src/command.rs::Command::send_to", "smtp-message/src/{expn,help,noop,vrfy}/mod.rs"]}
{"id": "C35", "title": "Parameters form a map where the last duplicate wins, independent of order when sent", "statement": "parse_parameters maps each key to the value of its last occurrence; sending the map in any iteration order and parsing it back gives the same map.", "quantifier": "every parameter list, every iteration order", "why_tests_cant": "HashMap order is random at run time", "anchors": ["smtp-message/src/parameters.rs::parse_parameters", "smtp-message/src/parameters.rs::Parameters::send_to"]}
{"id": "C36", "title": "Source routes and brackets do not change the address", "statement": "A path with a source route and/or angle brackets yields the same address as the bare address.", "quantifier": "every address, every source route", "why_tests_cant": "all routes", "anchors": ["smtp-message/src/email.rs::address_in_path", "smtp-message/src/email.rs::address_in_maybe_bracketed_path"]}
{"id": "C37", "title": "Email addresses are parsed exactly and survive printing", "statement": "Email::parse accepts exactly dot-string or quoted-string local parts with an optional @domain; every accepted or well-formed address prints to a string that parses back to it.", "quantifier": "every byte string; every well-formed address", "why_tests_cant": "all byte strings", "anchors": ["smtp-message/src/email.rs::Email::parse", "smtp-message/src/email.rs::email", "smtp-message/src/email.rs::Email::send_to"]}
{"id": "C38", "title": "localpart() is the exact unquoting and never panics on parsed addresses", "statement": "For an address obtained by parsing, localpart() returns the local part with quoting removed (every backslash pair replaced by its second byte), never panicking; quoting any printable string and parsing it gives that string back.", "quantifier": "every parsed address; every printable string", "why_tests_cant": "all escape patterns", "anchors": ["smtp-message/src/email.rs::Email::localpart"]}
{"id": "C39", "title": "Domains are parsed exactly and survive printing", "statement": "Domain::parse accepts exactly dot-separated labels that start with a letter or digit, or a bracketed IPv4 / IPv6 literal; printing and parsing again gives the same domain.", "quantifier": "every byte string; every domain", "why_tests_cant": "all byte strings", "anchors": ["smtp-message/src/domain.rs::hostname", "smtp-message/src/domain.rs::Domain::send_to"]}
{"id": "C40", "title": "A sub-slice never leaves its parent", "statement": "Taking a range of a ByteSlice yields a view of bytes of that slice only, or panics.", "quantifier": "every buffer, slice and range", "why_tests_cant": "needs a sub-slice with a non-zero start and a particular range", "anchors": ["smtp-message/src/byteslice.rs::ByteSlice::slice"]}
{"id": "C41", "title": "Slice operations depend only on the visible bytes", "statement": "len, slice, position, take-index, comparison and substring search on a ByteSlice give what the same operation gives on a copy of its visible bytes.", "quantifier": "every buffer, slice, in-range argument", "why_tests_cant": "all offsets", "anchors": ["smtp-message/src/byteslice.rs"]}
{"id": "C42", "title": "A session depends only on the bytes received", "statement": "For configurations whose mail handler looks at the message as a whole, the replies sent and the callbacks made by interact are those of a reference that works on the concatenated input: packet boundaries and Pending polls are irrelevant, message bytes are never taken as commands and commands never as message bytes.", "quantifier": "every input, packetisation and Pending placement, every configuration", "why_tests_cant": "unbounded sessions and packetisations", "anchors": ["smtp-server/src/interact.rs::interact", "smtp-server/src/interact.rs::handle_line", "smtp-server/src/crlflines.rs"]}
{"id": "C43", "title": "A message is handled only after the full accepted sequence", "statement": "handle_mail is called only right after filter_data accepted the transaction and the data_okay reply was sent, in a transaction opened by a MAIL that filter_from accepted and with at least one recipient that filter_to accepted (or, where a filter_to that refuses also edits the envelope it is shown, one that it put there), and that was not used for an earlier message.", "quantifier": "every session, configuration, packetisation, write failure point", "why_tests_cant": "history property over unbounded sessions", "anchors": ["smtp-server/src/interact.rs::handle_line"]}
{"id": "C44", "title": "The envelope handed over is exactly the accepted envelope", "statement": "With filters that do not rewrite the envelope, the sender and recipients given to handle_mail are the sender accepted by the current transaction's MAIL and exactly the recipients accepted since then, in order; refused recipients never appear.", "quantifier": "every session and configuration", "why_tests_cant": "history property over unbounded sessions", "anchors": ["smtp-server/src/interact.rs::handle_line"]}
{"id": "C45", "title": "Commands out of sequence are refused without side effects", "statement": "MAIL inside a transaction, RCPT or DATA outside one and DATA without recipients get the corresponding bad-sequence reply, call no filter or handler and leave the transaction as it was.", "quantifier": "every session state and line", "why_tests_cant": "all states", "anchors": ["smtp-server/src/interact.rs::handle_line"]}
{"id": "C46", "title": "Every command gets exactly one final reply, in order, after the banner", "statement": "The session starts with the welcome banner; then each line read gets exactly one final reply, in input order, DATA that is accepted getting the data_okay intermediate reply first and its final reply after the message.", "quantifier": "every session with sendable reply texts", "why_tests_cant": "unbounded pipelined sessions", "anchors": ["smtp-server/src/interact.rs::interact", "smtp-server/src/interact.rs::handle_line", "smtp-server/src/sendreply.rs"]}
{"id": "C47", "title": "Unknown and unimplemented commands have no effect", "statement": "A line that is not a command gets the command_unrecognized reply, a command other than MAIL, RCPT, DATA the command_unimplemented reply; neither changes the transaction or calls a filter or handler.", "quantifier": "every session state and line", "why_tests_cant": "all lines and states", "anchors": ["smtp-server/src/interact.rs::handle_line"]}
{"id": "C48", "title": "Transactions end exactly when they should", "statement": "After a message was handled, accepted or refused, the transaction is closed; after filter_data refuses, or filter_to refuses a recipient, it stays open with the envelope as the filter left it (the filters get it by &mut); after DATA without recipient it stays open unchanged.", "quantifier": "every session state", "why_tests_cant": "all states", "anchors": ["smtp-server/src/interact.rs::handle_line"]}
{"id": "C49", "title": "A write failure stops the session at once", "statement": "If the writer fails, interact returns the error without any further callback, read or write.", "quantifier": "every session, every failure point", "why_tests_cant": "every failure point of unbounded sessions", "anchors": ["smtp-server/src/interact.rs::interact", "smtp-server/src/sendreply.rs"]}
{"id": "C50", "title": "A conforming configuration never makes the server panic", "statement": "If reply texts are TAB/printable and the handler reads the message to its end and then calls complete() once, interact never panics, on any input.", "quantifier": "every input, packetisation and conforming configuration", "why_tests_cant": "all inputs", "anchors": ["smtp-server/src/interact.rs", "smtp-server/src/crlflines.rs", "smtp-server/src/sendreply.rs", "smtp-message/src/data/stream.rs"]}
{"id": "C51", "title": "A handler that does not consume the message cannot desynchronise the session", "statement": "If the session goes on after handle_mail returned, the connection is positioned exactly after the end-of-data marker, or at end of input if it never came; any other handler behaviour ends in a panic.", "quantifier": "every handler behaviour (any interleaving of polls and complete calls), every input", "why_tests_cant": "all handler programs", "anchors": ["smtp-server/src/interact.rs::handle_line", "smtp-message/src/data/stream.rs::DataStream::was_completed"]}
{"id": "C52", "title": "An unterminated last line is never executed", "statement": "Bytes after the last CRLF at end of input cause no callback and no reply.", "quantifier": "every input", "why_tests_cant": "all truncation points", "anchors": ["smtp-server/src/interact.rs::interact", "smtp-server/src/crlflines.rs"]}
{"id": "C53", "title": "A session ends when the input ends", "statement": "For every finite input interact returns (provided callbacks do); it returns Ok iff no write failed, and never before all complete lines were processed.", "quantifier": "every finite input", "why_tests_cant": "termination is not testable", "anchors": ["smtp-server/src/interact.rs::interact"]}
{"id": "C54", "title": "QUIT ends the session, RSET resets the transaction, EHLO and HELO are accepted", "statement": "RFC 5321 behaviour a user would expect of an SMTP server for these commands.", "quantifier": "every session", "why_tests_cant": "counterexample exists in the code: they are answered 502 and otherwise ignored", "anchors": ["smtp-server/src/interact.rs::handle_line"]}
{"id": "C55", "title": "The default replies carry the RFC codes and can always be sent", "statement": "With the default methods, the replies are 220 '<hostname> Service ready', 250 Okay, 354, 503, 502 and 500 with the documented texts, and sending them never panics for a printable hostname.", "quantifier": "every hostname", "why_tests_cant": "all hostnames (long ones are split)", "anchors": ["smtp-server/src/config.rs::Config"]}
{"id": "C56", "title": "new_mail precedes every sender check", "statement": "Each filter_from call is immediately preceded by its own new_mail call, and new_mail is called at no other time.", "quantifier": "every session", "why_tests_cant": "history property", "anchors": ["smtp-server/src/interact.rs::handle_line"]}
{"id": "C57", "title": "The queue never loses a mail", "statement": "At every point of every execution, including after any crash and restart, and after any task panicked or was dropped alone, each mail in storage is queued, in flight, or was reported as sent by the transport.", "quantifier": "every interleaving of tasks, every storage or transport failure, every crash point, every death of a task", "why_tests_cant": "schedules and crash points are unbounded", "anchors": ["smtp-queue/src/run.rs::run", "smtp-queue/src/send_queued_mail.rs::send_queued_mail", "smtp-queue/src/storage.rs::Storage"]}
{"id": "C58", "title": "A mail is marked done only after the transport accepted that very mail", "statement": "send_done is called for a mail only after transport.send returned Ok for that mail in the same attempt.", "quantifier": "every interleaving and failure pattern", "why_tests_cant": "schedules", "anchors": ["smtp-queue/src/send_queued_mail.rs::send_queued_mail"]}
{"id": "C59", "title": "A refused mail is put back and retried", "statement": "When the transport refuses a mail and the storage can cancel the attempt, the mail is queued again and a new attempt is scheduled at once.", "quantifier": "every state", "why_tests_cant": "unbounded retry histories", "anchors": ["smtp-queue/src/send_queued_mail.rs::send_queued_mail"]}
{"id": "C60", "title": "No two attempts for one mail are in progress at the same time", "statement": "As long as recovery only takes place for in-flight mails no longer being worked on, at most one task works on a mail, over all instances of run on the storage; this condition holds when every attempt takes less than A seconds and find_inflight yields its mails at most F seconds after startup, with A + F at most 3600.", "quantifier": "every interleaving and failure pattern", "why_tests_cant": "schedules", "anchors": ["smtp-queue/src/run.rs::run", "smtp-queue/src/send_queued_mail.rs::send_queued_mail"]}
{"id": "C61", "title": "Every mail queued at startup gets an attempt", "statement": "When listing has finished, each mail the storage listed has had a task scheduled for it.", "quantifier": "every listing length and interleaving", "why_tests_cant": "schedules", "anchors": ["smtp-queue/src/run.rs::run"]}
{"id": "C62", "title": "In-flight mails are recovered only after the delay and only once listing of the queue is over", "statement": "cancel_found_inflight is never called earlier than 3600 s after startup, and find_inflight is not consulted before list_queue has ended without error.", "quantifier": "every interleaving and clock", "why_tests_cant": "timing", "anchors": ["smtp-queue/src/run.rs::run"]}
{"id": "C63", "title": "A delivered mail is not sent again", "statement": "As long as recovery only takes place for in-flight mails nobody works on: once send_done succeeded for a mail, that mail is never given to the transport again, by any task of any instance, whatever crashes, panics and restarts happen.", "quantifier": "every interleaving and failure pattern", "why_tests_cant": "schedules", "anchors": ["smtp-queue/src/run.rs::run", "smtp-queue/src/send_queued_mail.rs::send_queued_mail"]}
{"id": "C64", "title": "No mail is stranded while the queue runs", "statement": "While run is active every queued or in-flight mail has a task that will work on it.", "quantifier": "every interleaving and failure pattern", "why_tests_cant": "counterexamples are specific failure patterns: a failing storage call ends the task and leaves the mail without one", "anchors": ["smtp-queue/src/run.rs::run", "smtp-queue/src/send_queued_mail.rs::send_queued_mail"]}
{"id": "C65", "title": "The DATA decoder agrees with the project's fuzz oracle on every input", "statement": "For every sequence of packets, what DataStream yields, whether complete() is Ok, and the bytes left on the connection are exactly what the naive algorithm of fuzz_data_parser.rs computes from the concatenated bytes.", "quantifier": "all byte strings, all packetisations, all Pending schedules", "why_tests_cant": "the fuzz target samples inputs; the theorem covers all of them", "anchors": ["smtp-message/fuzz/fuzz_targets/fuzz_data_parser.rs", "smtp-message/src/data/stream.rs: DataStream"]}
{"id": "C66", "title": "Every call of the queue follows the protocol of storage and transport", "statement": "An attempt starts only with a mail that list_queue yielded, that send_cancel gave back to the attempt that spawned it, or that this task has recovered; every later operation of the attempt uses the in-flight mail send_start answered to this very task, and is called only after the operation before it gave the right answer: get_mail after send_start, transport.send of the message get_mail answered, send_done after Ok, send_cancel after a refusal, cancel_found_inflight after the delay for a mail find_inflight yielded.", "quantifier": "every interleaving, failure pattern, crash, death of a task and restart, any number of instances", "why_tests_cant": "schedules and failure patterns are unbounded", "anchors": ["smtp-queue/src/run.rs::run", "smtp-queue/src/send_queued_mail.rs::send_queued_mail"]}
{"id": "C67", "title": "A mail the transport accepted is sent again only after a crash, the death of its task or a failed send_done", "statement": "As long as recovery only takes place for mails nobody works on: if the transport is given a mail it has accepted before, then the run of that earlier attempt has crashed, or the task of that attempt panicked or was dropped before send_done had answered, or its send_done has answered an error.", "quantifier": "every interleaving, failure pattern, crash, death of a task and restart, any number of instances", "why_tests_cant": "schedules and crash points are unbounded", "anchors": ["smtp-queue/src/send_queued_mail.rs::send_queued_mail", "smtp-queue/src/run.rs::run"]}
{"id": "C68", "title": "A mail found in flight is recovered and attempted again", "statement": "For each mail find_inflight yields, a task is spawned at once that waits until 3600 s after startup; when the delay has elapsed it calls cancel_found_inflight for that mail, and when this succeeds the mail is queued and send_start is called for it, unless the process crashes, or this task panics or is dropped, in between.", "quantifier": "every interleaving, failure pattern, crash point and death of a task", "why_tests_cant": "schedules and timing", "anchors": ["smtp-queue/src/run.rs::run"]}
{"id": "C69", "title": "The hour's delay protects mails that are being sent", "statement": "When every attempt takes less than an hour, cancel_found_inflight never takes a mail away from a task that is working on it, as the comment in run() intends.", "quantifier": "every interleaving, every duration of the two listings", "why_tests_cant": "the counterexample needs a listing of the queue that takes an hour: the delay counts from startup, not from when the mail was found", "anchors": ["smtp-queue/src/run.rs::run"]}
{"id": "C70", "title": "Address literals denote the IP addresses they spell", "statement": "A bracketed domain is accepted exactly if it is [a.b.c.d] with four decimal octets of at most three digits, or [IPv6:...] with eight hexadecimal groups or fewer around one ::, the last 32 bits possibly dotted; the address in the parsed domain is the one the text spells, every address that is sent is read back unchanged, and no text spells two addresses.", "quantifier": "all byte strings, all IPv4 and IPv6 addresses", "why_tests_cant": "2^128 addresses and unboundedly many texts; zero-run compression, IPv4 tails and leading zeros interact", "anchors": ["smtp-message/src/domain.rs: hostname, Domain::send_to", "std::net::Ipv4Addr, Ipv6Addr (FromStr, Display)"]}
{"id": "C71", "title": "Each line and each decision gets exactly the answer it calls for", "statement": "In the record of a session every event is immediately followed by what it calls for: a command line by its own callback or its own error reply, an accepting callback by the reply configured for that acceptance, a refusing callback by the code and text of that very refusal, the start-mail-input reply by handle_mail, its verdict by the matching reply, any other reply by the next line; the only alternative is that writing this reply fails, which ends the session.", "quantifier": "every configuration, every input, every packetization, every write-failure pattern, every pair of neighbouring events", "why_tests_cant": "every combination of command, state and decision in every position of an unbounded session", "anchors": ["smtp-server/src/interact.rs::interact, handle_line", "smtp-server/src/sendreply.rs::send_reply"]}
{"id": "C72", "title": "Parsing never panics, whatever the bytes", "statement": "Command::parse, ReplyLine::parse, Domain::parse(_slice) and Email::parse(_slice) return, without panic or endless loop, for every byte string and for every slice of a larger buffer; no bounds assertion, index, arithmetic, UTF-8 conversion or reply-code assertion on the way can fail, and the result depends only on the bytes of the slice, not on where it lies or what surrounds it.", "quantifier": "all byte strings, all slices of all buffers", "why_tests_cant": "the project fuzzes this; no amount of fuzzing covers all inputs, and the slice type has a bounds assertion that is wrong in general (C40)", "anchors": ["smtp-message/src/command.rs::Command::parse", "smtp-message/src/reply.rs::ReplyLine::parse", "smtp-message/src/domain.rs::Domain::parse, parse_slice", "smtp-message/src/email.rs::Email::parse, parse_slice", "smtp-message/src/byteslice.rs", "smtp-message/fuzz/fuzz_targets/fuzz_command_parser.rs, fuzz_reply_parser.rs"]}
{"id": "C73", "title": "Filters see exactly the addresses the client sent, and they are well-formed", "statement": "filter_from is called right after new_mail for a MAIL line, with the sender of that very line; filter_to right after an RCPT line with the recipient of that line. Every address a filter sees is well-formed (dot-string or closed quoted local part, valid domain or address literal), so calling localpart() on it never panics.", "quantifier": "every configuration, every input, every packetization, every moment of a session", "why_tests_cant": "all addresses and all positions in an unbounded session; the panic in localpart() is an assertion over all parsed addresses", "anchors": ["smtp-server/src/interact.rs::handle_line", "smtp-message/src/email.rs::Email::localpart, parse", "smtp-server/src/config.rs::Config::filter_from, filter_to"]}
{"id": "C74", "title": "The test suite's server configuration is safe on every input", "statement": "Sessions with the configuration of the project's tests (filters by sender and local part, handler that concatenates the text, completes the stream and stores the message) never panic, always end, and end with Ok if the writer accepts every reply; afterwards, and at every await, whether a write has failed or not, the mailbox holds its old contents followed by exactly one message per accepted one, each with a sender and a non-empty recipient list the filters let pass, and with the decoded text of a complete message that follows a DATA line of the input and does not contain the forbidden word.", "quantifier": "every byte stream, every packetization and delay, every pattern of write failures, every previous mailbox", "why_tests_cant": "the project's tests run this configuration on eight inputs and the (stale) fuzz target on random ones", "anchors": ["smtp-server/src/interact.rs::tests::TestConfig", "smtp-server/src/interact.rs::interact"]}
{"id": "C75", "title": "The project's session tests pass for every packetization", "statement": "For each input of the tests interacts_ok and interrupted_data, however it is cut into packets and delayed, the session ends with Ok, the bytes sent are exactly those the test expects, and the stored mails are exactly those it expects.", "quantifier": "every division of the test inputs into packets, every delay", "why_tests_cant": "each test uses one division out of exponentially many", "anchors": ["smtp-server/src/interact.rs::tests::interacts_ok, interrupted_data"]}
{"id": "C76", "title": "The project's quickcheck properties hold for every input", "statement": "Whatever is sent through the DATA encoder, in any pieces, and received through the DATA decoder, in any packets, comes out as the message completed to whole lines (data_stream_and_sink_are_compatible); and the decoded text of any input followed by CRLF dot CRLF never contains CRLF dot CRLF (all_leading_dots_are_escaped). The second is false of the code and of RFC 5321: the text contains CRLF dot CRLF exactly when the raw message has a line of two dots after its first line.", "quantifier": "all messages, divisions into pieces, divisions into packets, delays", "why_tests_cant": "quickcheck samples random byte strings, which practically never contain the CRLF dot dot CRLF that refutes the second property", "anchors": ["smtp-message/src/data/mod.rs::tests::data_stream_and_sink_are_compatible", "smtp-message/src/data/stream.rs::tests::all_leading_dots_are_escaped"]}
{"id": "C77", "title": "A mail the queue has picked up is delivered in the end", "statement": "If, from some moment on, nothing crashes, no task at a mail dies and the storage works for it, and `run` picks that mail up (it is listed while queued, or found while in flight), and from some moment on the transport no longer refuses it and it is not found in flight again, then some day the transport has accepted the mail and it has been removed from the storage - however often it was refused or recovered before, whatever fails and dies about other mails, and whichever other instances are working at the same time.", "quantifier": "all infinite fair executions of any number of `run` instances over a shared storage: all interleavings, all delays, all finite numbers of refusals and recoveries", "why_tests_cant": "It is a liveness property of infinite executions under fairness; a test observes a finite run on one schedule.", "anchors": ["smtp-queue/src/run.rs::run", "smtp-queue/src/send_queued_mail.rs::send_queued_mail"]}
{"id": "C78", "title": "Restarting the queue delivers everything that is left in the storage", "statement": "Whatever crashed, panicked and failed before: if `run` is called on a storage that works from then on for a mail that is in the queue or in flight, no process and no task at that mail dies from then on, `list_queue` yields it if it stays queued and `find_inflight` yields it if it stays in flight, and the transport refuses the mail and `find_inflight` yields it only finitely often, then some day the transport has accepted it and it has been removed from the storage.", "quantifier": "all infinite fair executions, all histories of crashes, deaths of tasks and failures before the restart", "why_tests_cant": "It ranges over all crash histories and is a liveness property of infinite executions.", "anchors": ["smtp-queue/src/run.rs::run", "smtp-queue/src/send_queued_mail.rs::send_queued_mail"]}
{"id": "C79", "title": "What a client built from this library sends is what the server's mailbox receives", "statement": "A client writes any number of mails - each command with `send_to`, the message in any chunks through `DataSink` - and any other commands that the server does not implement in between. The bytes reach `interact` in any packets, with any delays, and the configuration accepts these mails and stores what its `handle_mail` reads. Then the session ends with `Ok`, the mailbox holds, beyond what it held, exactly these mails in this order, each with its sender, its recipients in order and its text (completed to whole lines), the replies are those due for each item in order, and no transaction is left open.", "quantifier": "all scripts of well-formed mails and commands, all chunkings of the messages, all packetizations and delays, all accepting configurations, all initial states", "why_tests_cant": "It composes printer, encoder, line reader, parser, session and decoder over unboundedly many mails and packetizations; tests exchange a few fixed dialogues.", "anchors": ["smtp-server/src/interact.rs::interact", "smtp-message/src/command.rs::Command::send_to", "smtp-message/src/data/sink.rs::DataSink", "smtp-message/src/data/stream.rs::DataStream"]}
{"id": "C80", "title": "A client can decode every reply stream", "statement": "A client that reads the server's output with `next_crlf_line`, in any packets and with any delays, parses each line with `ReplyLine::parse`, and groups the lines up to the one marked last, recovers exactly the replies the server sent, each with its code and its whole text however long - all but replies with empty text, for which nothing is written. After a write error it recovers all replies that were sent completely and at most the one that was being sent.", "quantifier": "all sequences of replies with sendable texts of any length, all sessions with any configuration and input, all packetizations", "why_tests_cant": "It ranges over all reply texts (any number of 506-byte pieces), all sessions and all ways to cut the bytes into packets.", "anchors": ["smtp-server/src/sendreply.rs::send_reply", "smtp-message/src/reply.rs::ReplyLine::parse", "smtp-message/src/reply.rs::ReplyLine::send_to", "smtp-server/src/crlflines.rs::next_crlf_line", "smtp-server/src/interact.rs::interact"]}
{"id": "C81", "title": "The server answers before it waits for more input", "statement": "When a client has sent whole command lines and whole messages, the server gets to the point where it next reads from the connection with all replies due for them written and all their effects done, whatever comes later, and has taken nothing of what comes later from the connection. Likewise the intermediate reply to DATA is written before anything after the DATA line is taken. So a client that waits for each reply before going on is never left waiting.", "quantifier": "all inputs of whole lines and messages, all packetizations and delays, everything that may be sent later, all configurations whose handlers read the whole message and whose texts can be sent", "why_tests_cant": "It is about every prefix of every dialogue and every packetization; the tests feed the whole input at once.", "anchors": ["smtp-server/src/interact.rs::interact", "smtp-server/src/crlflines.rs::next_crlf_line", "smtp-message/src/data/stream.rs::DataStream::poll_next"]}
{"id": "C82", "title": "Encoder and decoder hold nothing back, and a Pending always comes from the connection", "statement": "When a DataStream returns Pending, the connection has been polled in this very call and has returned Pending (so the task will be woken), and the chunks yielded so far are exactly the decoded text of the bytes the connection has delivered so far, except a lone '.' or '.CR' beginning a line; at most these two bytes are kept. Prependable returns Pending only when its stream does. After each successful send of a DataSink the underlying sink has accepted the stuffed form of everything sent so far.", "quantifier": "all packetizations, delays and polling histories; all chunkings and sinks", "why_tests_cant": "Tests read to the end; that no poll in the middle of any history withholds data or loses a wake-up is a statement about every prefix of every schedule.", "anchors": ["smtp-message/src/data/stream.rs::DataStream::poll_next", "smtp-message/src/streamext/prependable.rs::Prependable::poll_next", "smtp-message/src/data/sink.rs::DataSink::send"]}
{"id": "C83", "title": "Writing leaves exactly a prefix of the wire form, and Ok means all of it", "statement": "send_to of commands, reply lines, addresses and domains, on any io::Write - one that takes a few bytes at a time, is interrupted, or fails at any point - has given the writer exactly a prefix of the wire form, nothing twice and nothing else, and returns Ok exactly when the whole wire form was taken; it returns unless interrupted for ever. from_sendable never fails and gives the wire form. The buffer interact allocates for a reply line is exactly large enough, so its unwrap never panics.", "quantifier": "all values, all writers obeying the contract of io::Write, all schedules of short writes, interruptions and errors", "why_tests_cant": "Tests write to a Vec, which never fails or writes short.", "anchors": ["smtp-message/src/command.rs::Command::send_to", "smtp-message/src/reply.rs::ReplyLine::send_to", "smtp-message/src/email.rs::Email::send_to", "smtp-message/src/domain.rs::Domain::send_to", "smtp-message/src/parameters.rs::Parameters::send_to", "smtp-message/src/smtpstring.rs::SmtpString::from_sendable", "smtp-server/src/interact.rs::interact"]}
{"id": "C84", "title": "Duplicate deliveries are bounded by mishaps; without mishaps, exactly once", "statement": "As long as recovery takes place only for mails nobody works on, the transport accepts a mail at most once more than there are process crashes, failed send_done calls for that mail, and tasks that panicked or were dropped while sending that mail or reporting it done. Within one attempt (one successful send_start) the transport is called at most once, whatever happens. In a fair execution without crashes, without deaths of tasks at the mail, and with a storage reliable for it, a mail that is listed, and refused only finitely often, is accepted exactly once and then removed.", "quantifier": "every execution: every interleaving of any number of instances and tasks, every answer of storage and transport, every timing, any number of mails, refusals, recoveries", "why_tests_cant": "counts over unbounded histories and all interleavings; the bound has to hold however crashes, errors and recoveries are arranged", "anchors": ["smtp-queue/src/send_queued_mail.rs: send_queued_mail", "smtp-queue/src/run.rs: run"]}
{"id": "C85", "title": "Sessions compose: what the server did never depends on what comes later", "statement": "When the bytes received so far are complete lines and complete messages (followed by the beginning of a line), everything the server did on them - every callback with its arguments, every reply, in order - is the beginning of what it does on any longer input, and exactly the unfinished line is left over. And if a first connection ends between transactions, then a second connection served with the configuration and connection state the first one left behind, together with the first, does exactly what one connection carrying both inputs does: the same callbacks, the same replies (apart from the second greeting), the same final states, the same unread bytes.", "quantifier": "every configuration whose mail handler decides by the whole text, every input, every continuation, every split of either into reads, every output schedule without failure", "why_tests_cant": "quantifies over all inputs, all continuations and all fragmentations of both; a test fixes one cut", "anchors": ["smtp-server/src/lib.rs: interact, handle_line"]}
{"id": "C86", "title": "The wording of a command line has no effect", "statement": "Two lines that carry the same command with the same address - however they differ in letter case, blanks, angle brackets, source route or parameters - or that are both unimplemented commands, or that are both no commands, have the same effect: handling either in the same state gives the same result, and replacing one by the other anywhere in a session changes neither the callbacks, nor the bytes sent, nor the final states, nor what is left unread.", "quantifier": "every pair of lines with the same meaning, every state, every session around them, every configuration whose mail handler decides by the whole text, every fragmentation", "why_tests_cant": "all pairs of spellings in all sessions", "anchors": ["smtp-server/src/lib.rs: handle_line", "smtp-message/src/parse_helpers.rs", "smtp-message/src/command.rs: Command::parse"]}
{"id": "C87", "title": "The parse errors mean what they say on complete lines", "statement": "Command::parse reports DidNotConsumeEverything(n) exactly when the input is a command line followed by n more bytes. Once the input holds a complete line the first line alone decides and the parser never asks for more: accepted, DidNotConsumeEverything with the number of bytes behind the line, or ParseError; so on the lines next_crlf_line returns there are only commands and ParseErrors. Without a complete line there is no command and nothing is left over. ReplyLine::parse: the same for leftovers, and the exact inputs for which it asks for more. An input without CRLF refused with ParseError may still become a command or a reply when bytes are added.", "quantifier": "every byte string", "why_tests_cant": "all inputs, all cuts, all continuations", "anchors": ["smtp-message/src/parseresult.rs: nom_to_result, ParseError", "smtp-message/src/command.rs: Command::parse", "smtp-message/src/reply.rs: ReplyLine::parse"]}
{"id": "C88", "title": "A failed or dropped send does no harm if the caller stops, and going on is safe only in known cases", "statement": "When DataSink::send fails, or its future is dropped while it waits, the connection has received a prefix of the stuffed text without an end-of-data marker. Exactly one of three things is the case: the whole chunk was taken, and the sink may be used further; nothing of the chunk was taken, and further use is right if and only if the piece in flight would not have changed the place in the line; or the chunk was taken up to the first of two dots, and what was written is not the stuffed form of any text. In particular sending the same chunk again can put the end-of-data marker into the middle of a message (so that text becomes commands), and end() can fail to end the message or end it early.", "quantifier": "all texts, chunkings, sinks and points of failure or cancellation", "why_tests_cant": "The tests' sinks never fail and no test drops a future; the claim is about every await point of every chunk.", "anchors": ["smtp-message/src/data/sink.rs::DataSink::send", "smtp-message/src/data/sink.rs::DataSink::end"]}
{"id": "C89", "title": "into_utf8 accepts exactly UTF-8", "statement": "ByteSlice::into_utf8 on any part of a buffer does not panic, gives the visible bytes, and succeeds exactly when they are the UTF-8 form of a sequence of Unicode scalar values (no overlong forms, no surrogates, nothing above U+10FFFF).", "quantifier": "all buffers and all parts of them", "why_tests_cant": "all byte strings of every length", "anchors": ["smtp-message/src/byteslice.rs::ByteSlice::into_utf8"]}
{"id": "C90", "title": "Attempts are paid for one by one, and nothing paces them", "statement": "However often the queue runs, crashes and recovers, a mail is attempted (send_start called) at most once per time it was handed to the queue: yielded by list_queue, or put back by send_cancel or cancel_found_inflight. Without crashes, and without deaths of tasks at this mail, once every task waits for the outside world, exactly once per time. But nothing paces the attempts: a transport that keeps refusing a mail can get it again any number of times before the clock moves (no backoff, no limit).", "quantifier": "all executions of the queue with any number of instances, crashes and failures; all numbers of refusals", "why_tests_cant": "unbounded executions and all interleavings of tasks", "anchors": ["smtp-queue/src/send_queued_mail.rs::send_queued_mail", "smtp-queue/src/run.rs::run"]}
{"id": "C91", "title": "How often the ended connection is polled", "statement": "A Stream should not be polled again once it has returned its end. interact polls an ended connection exactly once if it ended where a command line is expected, even inside a line. If it ended inside a message (after DATA was accepted, before the end-of-data marker), it is polled exactly twice: the reader of the message sees the end, and interact then looks for the next command line (the TODO in crlflines.rs fears exactly this). A session that has not ended normally has done so at most once. next_crlf_line does so exactly once iff it returns no line, and reading a message exactly once iff it has no end marker.", "quantifier": "all inputs, packetisations and Pending placements, write failures, and all configurations whose handlers treat the message as a whole", "why_tests_cant": "the tests use stream::iter, which tolerates being polled after its end, and never count polls", "anchors": ["smtp-server/src/crlflines.rs::next_crlf_line", "smtp-server/src/interact.rs::interact", "smtp-message/src/data/stream.rs::DataStream"]}
{"id": "C92", "title": "The wording of the replies is inert", "statement": "What a configuration says never changes what the server does. Two implementations of Config with the same callbacks (new_mail, filter_from, filter_to, filter_data, handle_mail), all of whose reply texts can be sent, behave alike on the same input: the session ends the same way, with the same configuration and user data, the same open transaction and the same unread input, and the two records agree event by event: same lines, same callbacks with the same arguments and decisions, same refusals, and every other reply given by the same method in the same state. This holds on a writer that never fails, and on any writer if the replies of both have equally many lines. Overriding a provided method changes exactly the replies derived from it: okay() those to an accepted sender, recipient and message; bad_sequence() the four replies to a command out of order; banner() the text after the host name in the welcome; in each case only where the derived method is not overridden itself.", "quantifier": "all pairs of implementations with the same callbacks, all overrides, all packetisations of all inputs, all writer behaviours, every point of the execution", "why_tests_cant": "It relates two runs of two arbitrary implementations on every input; a test compares one pair of texts on one dialogue.", "anchors": ["smtp-server/src/config.rs: Config, okay, bad_sequence, banner, welcome_banner, mail_okay, rcpt_okay, data_okay, mail_accepted, already_in_mail, rcpt_before_mail, data_before_rcpt, data_before_mail, command_unimplemented, command_unrecognized", "smtp-server/src/interact.rs: interact, handle_line", "smtp-server/src/sendreply.rs: send_reply"]}
{"id": "C93", "title": "Every command line of RFC 5321 is understood, with two exceptions", "statement": "Every command line the grammar of RFC 5321 section 4.1 allows (EHLO, HELO, MAIL, RCPT, DATA, RSET, VRFY, EXPN, HELP, NOOP, QUIT, with source routes, quoted local parts, address literals and parameters, keywords in any case) is accepted by Command::parse and becomes the command, address, domain, text and parameters the RFC says, if its address literals are IPv4 addresses or IPv6 addresses tagged `IPv6:` in this spelling. Domain::parse and Email::parse accept every such domain and mailbox. The RFC's other literals (general address literals, and IPv6 tags in other case, although the RFC's strings are case-insensitive) are all refused.", "quantifier": "all byte strings the ABNF of RFC 5321 derives, of any length", "why_tests_cant": "the RFC's grammar derives infinitely many lines; a test has a handful", "anchors": ["smtp-message/src/command.rs::Command::parse", "smtp-message/src/email.rs::Email::parse", "smtp-message/src/domain.rs::Domain::parse", "smtp-message/src/commands/*.rs"]}
{"id": "C94", "title": "Replies follow RFC 5321 on both sides", "statement": "What the server writes is a sequence of replies as RFC 5321 section 4.2 defines them: whenever a session ended normally and every reply on its record has a code the RFC allows and a text that is not empty, the bytes written are one reply of the RFC per reply on record, in order, with its code and its text, however long. All default replies meet this. The default welcome of a server whose host name is a domain or an address literal of the RFC (at most 492 bytes) is a greeting of the RFC. Conversely a client that reads with this library any sequence of replies of the RFC, in any packets, understands exactly these replies, code and whole text, unless one has a last line that is a bare code without text: the RFC allows this, ReplyLine::parse refuses it.", "quantifier": "all replies of any length, all sessions, configurations, inputs, packetisations; all reply sequences of the RFC", "why_tests_cant": "infinitely many texts, sessions and packetisations", "anchors": ["smtp-message/src/reply.rs::Reply, ReplyLine::parse, build", "smtp-server/src/sendreply.rs::send_reply", "smtp-server/src/config.rs::Config::welcome_banner", "smtp-server/src/interact.rs::interact"]}
{"id": "C95", "title": "IP addresses are written in canonical form", "statement": "What is sent for an address literal is the canonical text of the address: IPv4 as four decimal numbers without leading zeros; IPv6 with lower-case hexadecimal numbers without leading zeros, the first of the longest runs of at least two zero groups and no other written ::, and the dotted form for IPv4-compatible (other than :: and ::1) and IPv4-mapped addresses and for no other (RFC 5952). This text is unique, so two spellings of one address in received commands are sent on alike.", "quantifier": "all IPv4 and IPv6 addresses, all spellings of them", "why_tests_cant": "2^128 addresses", "anchors": ["smtp-message/src/domain.rs::Domain::send_to", "smtp-message/src/domain.rs::Domain::parse"]}
{"id": "C96", "title": "What a connection makes the server hold", "statement": "If no packet is longer than n bytes, then whatever sequence of polls and complete() calls is made on a DataStream, and however long the message is, it never holds more than n+2 bytes, yields no chunk longer than n+2 bytes, and pushes back nothing longer than n bytes. next_crlf_line, while it waits, holds exactly the bytes of the unfinished line, and nothing limits their number: for every n there is a connection on which it holds n bytes and goes on waiting, and a complete line of any length is executed (RFC 5321's 512-byte limit is not enforced). When a line is complete no more than one packet's worth of bytes is pushed back. In a session under any configuration and any mail handler, as long as the input has not ended, nothing longer than the longest packet is pushed back.", "quantifier": "all packet sizes, packet sequences, sequences of polls and completions, line lengths, configurations, handlers and session lengths", "why_tests_cant": "a bound on what is held over an unbounded message or session is not visible in any finite set of inputs", "anchors": ["smtp-message/src/data/stream.rs: DataStream::poll_next, complete", "smtp-server/src/crlflines.rs: next_crlf_line", "smtp-message/src/streamext/prepend.rs: Prependable", "smtp-server/src/interact.rs: interact"]}
{"id": "C97", "title": "Work done to find the end of a message and of a line", "statement": "Decoding a message is linear however it is cut into packets: after any number k of polls of a DataStream, the number of places of the buffer looked at is at most the bytes received plus the packets received plus k. Finding the end of a command line is not: next_crlf_line searches the unfinished line from its beginning at every packet, so its cost is bounded by packets times bytes, and a line of n bytes in one-byte packets really costs n(n-1)/2 + n + 1 looks.", "quantifier": "all packet sequences, numbers of polls, line lengths", "why_tests_cant": "an asymptotic bound over all ways of cutting the input; tests use small inputs on which quadratic and linear cost are indistinguishable", "anchors": ["smtp-message/src/data/stream.rs: DataStream::poll_next", "smtp-server/src/crlflines.rs: next_crlf_line"]}
{"id": "C98", "title": "Relaying is transparent", "statement": "Whatever bytes a server that spools its mails receives, from whatever client, every complete mail it stored can be passed on: its addresses obey the grammar, it has a recipient, its text is whole lines. If such mails are then sent on by clients built from this library, through any number of servers that accept them - with any other commands and parameters, messages cut into any chunks, over any packets and delays - the last server's mailbox receives exactly these mails: none lost, none added, in the same order, each with the same sender, recipients and text. No server on the way gets stuck.", "quantifier": "every input of the first server, every chain of accepting servers and configurations of any length, every script, chunking and packetization at every hop", "why_tests_cant": "a chain of arbitrary length over arbitrary input; needs that the parser's output is in the sender's domain and that encode/decode is an identity on it", "anchors": ["smtp-server/src/interact.rs: interact", "smtp-message/src/command.rs: Command::parse, send_to", "smtp-message/src/data/sink.rs: DataSink", "smtp-message/src/data/stream.rs: DataStream"]}
{"id": "C99", "title": "Line ends other than CRLF (SMTP smuggling)", "statement": "Inbound, bare CRs and LFs never end a message, in whatever combination with dots, and a line accepted as a command other than EXPN, VRFY, HELP and NOOP holds nothing but TABs and printable ASCII before its CRLF. What a client sends for well-formed values of these commands is just as clean, so an address taken from an accepted envelope cannot break out of its line, however the next server ends lines; the four free-text commands let everything but CRLF pass. Outbound, DataSink passes bare CRs and LFs of a message on unchanged: for every sequence of lines not beginning with a dot there is a message that this library's server takes for one message and that its client sends so that a receiver taking LF for a line end reads one line of text and then these lines as commands.", "quantifier": "every line, every command value, every message, every chunking and packetization", "why_tests_cant": "absence of a class of bytes over all accepted inputs, and existence of an attack for every payload", "anchors": ["smtp-message/src/data/sink.rs: DataSink::send", "smtp-message/src/data/stream.rs: DataStream::poll_next", "smtp-message/src/command.rs: Command::parse, send_to", "smtp-message/src/email.rs", "smtp-message/src/parameters.rs"]}
{"id": "C100", "title": "The size limits of RFC 5321 are not enforced; every limit is the configuration's", "statement": "The server has no limit of its own on any of the sizes of RFC 5321 section 4.5.3.1 (local part, domain, label, command line, text line, number of recipients, message), nor on the number of parameters: for every N there is a mail exceeding N in all of them at once, which every server that is configured to accept it receives completely and unchanged, however it is packed; a deployment that needs limits must set them in its filters and its connection.", "quantifier": "every N, every configuration that accepts the mail, every packetization", "why_tests_cant": "a test can show one size is accepted, not that no limit exists anywhere", "anchors": ["smtp-server/src/interact.rs: interact, handle_line", "smtp-message/src/email.rs: email", "smtp-message/src/domain.rs: hostname", "smtp-message/src/parameters.rs: parameters", "smtp-server/src/crlflines.rs: next_crlf"]}
{"id": "C101", "title": "Dropping a session at any await leaves no false promise behind", "statement": "The future of a session can be dropped whenever it is suspended (shutdown, timeout, lost connection). At every such point: what has happened and what was written are beginnings of what the undisturbed session does and writes; the wire holds the complete lines of the replies already given and at most the first lines of the one reply that is due next; nothing was written about a message unless its handler has returned; and nothing is taken from the connection while a reply is unfinished. The future becomes ready exactly when, and as, the session ends.", "quantifier": "every configuration, incoming stream, outgoing sink, and every number of answers after which the future is dropped", "why_tests_cant": "the suspension points depend on packets, readiness and write results; tests run futures to completion and never drop them halfway", "anchors": ["smtp-server/src/interact.rs: interact, handle_line", "smtp-server/src/sendreply.rs: send_reply", "smtp-server/src/crlflines.rs: next_crlf_line"]}
{"id": "C102", "title": "The interact fuzz target finds nothing", "statement": "The target smtp-server/fuzz/fuzz_targets/fuzz_interact.rs (ported to the present trait) never panics and always comes to an end, whatever list of packets the fuzzer hands it, its own calls of localpart() included. In its record, exactly the senders and recipients whose local part has at least two bytes, the first greater than the second, pass the filters (and the empty sender); every message handed to the handler has such a sender or none and at least one recipient, all of them such; it is accepted if and only if it has at most three recipients.", "quantifier": "all lists of packets, of any number and any contents", "why_tests_cant": "A fuzz target explores a sample of packet lists for as long as it runs; that it would never find a failing one is a statement about all of them.", "anchors": ["smtp-server/fuzz/fuzz_targets/fuzz_interact.rs: FuzzConfig, fuzz_target", "smtp-server/src/interact.rs: interact"]}
{"id": "C103", "title": "What the client was told is accepted is in the mailbox, wherever the session is cut", "statement": "At every await of a session, wherever its future is dropped, its peer disappears or its writer fails: the session is at a point of the reference session over the bytes received (some lines treated as specified, at most one more under way, configuration and connection data as the callbacks left them). If the mail handler looks at the message as a whole, adds a mail to the mailbox exactly when it accepts it, and the other callbacks leave the mailbox alone, then the mailbox holds what it held plus exactly the mails accepted so far, in order, each with the envelope given to the handler and a text that was received behind a DATA line; every mail whose acceptance was told to the client is among them; at most one mail is stored of which the client was not told, and then its acceptance is the last thing that happened (but for the writer's error); and nothing is taken out again.", "quantifier": "all configurations whose mail handlers look at the message as a whole, all packetisations and delays of all inputs, all writers, failing or not, all awaits (any number of answers)", "why_tests_cant": "The tests run sessions to their end with a writer that never fails; where a session is cut is one of arbitrarily many awaits, for arbitrary input, packets and callbacks.", "anchors": ["smtp-server/src/interact.rs:interact", "smtp-server/src/interact.rs:handle_line", "smtp-server/src/sendreply.rs:send_reply", "smtp-server/src/crlflines.rs:next_crlf_line", "smtp-server/src/config.rs:Config"]}
{"id": "C104", "title": "A mail the server has acknowledged is never lost by the queue behind it", "statement": "Build a mail server from the two crates: any number of sessions of interact, in any interleaving, whose mail handler puts every mail it accepts into the storage that any number of instances of the queue's run work on, which fail and crash as they like, as do the sessions. In every state: each mail whose acceptance some client was told is in the queue, in flight, or was accepted by the transport; under its name the storage holds the envelope the session accepted and the text the client sent. No two mails share a name, and what is stored under a name never changes. Conversely, whatever the transport is given was accepted by a session under that name, or was enqueued by somebody else. And under the conditions of C78, with a queue started after the acknowledgement, the transport accepts the mail some day.", "quantifier": "every configuration whose handler stores what it accepts, every family of sessions (bytes, packets, errors, writers), every interleaving of their awaits with each other and with the actions of any number of queue instances, every crash of either", "why_tests_cant": "The claim is about all interleavings of unboundedly many sessions and queue tasks with crashes at every point; a test runs one schedule, and the repository has no test that combines the two crates.", "anchors": ["smtp-server/src/lib.rs: interact, handle_mail", "smtp-queue/src/run.rs: run", "smtp-queue/src/send_queued_mail.rs: send_queued_mail", "smtp-queue/src/storage.rs: Storage::enqueue"]}
{"id": "C105", "title": "The errors of Domain::parse and Email::parse are about the longest prefix that parses", "statement": "For every input that Domain::parse (Email::parse) refuses, the error is determined by the input's prefixes: DidNotConsumeEverything(n) is returned exactly when some prefix is a domain (address) and the longest such prefix leaves n > 0 bytes over; IncompleteString is returned exactly when the input is a beginning of '[IPv6:' (the empty input and the whole of it included), respectively the beginning of a quoted string whose closing quote is missing (the empty input included); ParseError is returned in all other cases.", "quantifier": "all byte strings", "why_tests_cant": "The claim quantifies over all inputs and all their prefixes (maximal munch); the repository's tests only check a few refused inputs and not which error they get.", "anchors": ["smtp-message/src/domain.rs: Domain::parse, hostname", "smtp-message/src/email.rs: Email::parse, email, localpart, quoted_string, dot_string", "smtp-message/src/parseresult.rs: nom_to_result"]}
{"id": "C106", "title": "IncompleteString is honest", "statement": "Whenever Command::parse, Domain::parse or Email::parse answers IncompleteString, there is a continuation of the input that it accepts: asking for more bytes never leads a caller to wait for input that cannot come right. ReplyLine::parse has this property from three bytes on; on shorter inputs it always answers IncompleteString, and a continuation is accepted exactly when the bytes can begin a reply code (so on \"x\" it asks for more in vain).", "quantifier": "every byte string the parsers are given", "why_tests_cant": "the claim is for-all-exists over unbounded inputs and continuations: a test can show that one truncated command can be completed, not that no truncation, nesting of source routes, parameters or quoted strings makes the parser wait for something it would refuse", "anchors": ["smtp-message/src/command.rs: Command::parse", "smtp-message/src/parseresult.rs: nom_to_result", "smtp-message/src/domain.rs: Domain::parse", "smtp-message/src/email.rs: Email::parse", "smtp-message/src/reply.rs: ReplyLine::parse"]}
{"id": "C107", "title": "Parsing takes time linear in the input", "statement": "No input makes parsing slow: counting every look at a byte of the input, every call of an elementary parser and every turn of a loop (nom backtracks: failed alternatives are counted too), Command::parse does at most 110 n + 322 units of work on n bytes, Domain::parse 7 n + 27, Email::parse 26 n + 67 and ReplyLine::parse 2 n + 20, whether the input is accepted, refused or incomplete. Hence all command lines read from one connection cost at most 271 units per byte received to parse, however the client cuts its bytes into lines. The count is real: accepted input costs at least one unit per byte.", "quantifier": "every byte string; for connections, every sequence of packets", "why_tests_cant": "a time bound over all inputs: backtracking parsers are linear on typical inputs and superlinear on crafted ones (nested alternatives, source routes, long parameter lists), which no sample of inputs rules out", "anchors": ["smtp-message/src/command.rs: Command::parse, command", "smtp-message/src/domain.rs: Domain::parse, hostname", "smtp-message/src/email.rs: Email::parse, address_in_path, address_in_maybe_bracketed_path, quoted_string", "smtp-message/src/parameters.rs: parse_parameters", "smtp-message/src/reply.rs: ReplyLine::parse", "smtp-message/src/stupidparsers.rs"]}
{"id": "C108", "title": "Exactly when Command::parse asks for more", "statement": "Command::parse answers IncompleteString exactly on the following inputs, and on no other: an unfinished verb (case ignored; blanks in front allowed for EHLO and HELO only; the empty input and, for the hellos, blanks alone included); DATA, QUIT, RSET and blanks without their line end or with its CR only; EXPN or VRFY alone, or with one blank and at most one byte; HELP or NOOP with an optional blank and at most one byte; EHLO or HELO with blanks and a beginning of '[IPv6:', or with a whole domain and blanks but without the line end or with its CR only; MAIL FROM: or RCPT TO: with a path that stops inside its source route (after a comma, after a whole hop, or in '@' and a beginning of '[IPv6:'), inside a quoted local part, at its beginning, or before the closing angle bracket; or with a whole path (for MAIL also '<>'), parameters, and the line end missing or begun, or the value missing after the '=' of the last parameter. It answers ParseError exactly when no beginning of the input is a command line and the input is none of these. So with C30 and C87 the outcome of Command::parse is characterised on every input. Asking for more is not monotone: 'MAIL FROM:<a' asks for more, 'MAIL FROM:<a@' is refused, 'MAIL FROM:<a@b' asks for more again, though all three begin the same valid line.", "quantifier": "every byte string", "why_tests_cant": "an equivalence between the parser's third answer and an infinite language; each side has infinitely many inputs, and the answer flips back and forth along the bytes of a single line", "anchors": ["smtp-message/src/command.rs: Command::parse, command", "smtp-message/src/data/mod.rs: command_data_args", "smtp-message/src/ehlo/mod.rs: command_ehlo_args", "smtp-message/src/mail/mod.rs: command_mail_args", "smtp-message/src/rcpt/mod.rs: command_rcpt_args", "smtp-message/src/email.rs: address_in_path, address_in_maybe_bracketed_path", "smtp-message/src/parameters.rs: parse_parameters", "smtp-message/src/parseresult.rs: nom_to_result"]}
{"id": "C109", "title": "A write failure only cuts a session short", "statement": "Compare a session whose writer fails at some point with the session over the same input whose writer never fails: everything that happened before the failure (callbacks with their arguments and decisions, replies) happens there too, in the same order; the next thing there is the reply that was being written (unless its text cannot be sent at all); the bytes written are a beginning of the bytes written there; and the configuration, the connection data and the unread input are left as they are there at the moment of that write. A session whose writer does not fail is the same as one whose writer cannot fail.", "quantifier": "every configuration, input, packetization, every point and kind of write failure", "why_tests_cant": "relates every failing run to its failure-free twin, for every failure point of unbounded sessions", "anchors": ["smtp-server/src/interact.rs::interact", "smtp-server/src/interact.rs::handle_line", "smtp-server/src/sendreply.rs::send_reply"]}
{"id": "C110", "title": "What the server makes of a line does not hang on corner cases of the parser library", "statement": "Vary what the parser library nom does in its corner cases: when its input ends inside a tag or a byte class, when what it searches for is missing or longer than the input, when a repetition meets the end of its input or an element that consumes nothing, what alternatives, options and repetitions make of an incomplete part, and whether blanks after the last part of EHLO and HELO are eaten. In every combination, a line (bytes that end in CRLF and hold no other CRLF) is the same command with the same contents or is no command, and the same line of a reply or none; and so every session of the server is the same: callbacks, replies, bytes, final state.", "quantifier": "every combination of the corner cases, every line, every configuration, input, packetization and sink", "why_tests_cant": "compares thousands of variants of a library, each on every line and every session; the project's tests run against one version and pin none of these cases down", "anchors": ["smtp-message/src/command.rs::Command::parse", "smtp-message/src/reply.rs::ReplyLine::parse", "smtp-message/src/domain.rs::hostname", "smtp-message/src/email.rs::email", "smtp-message/src/parameters.rs::parse_parameters", "smtp-server/src/interact.rs::interact"]}
{"id": "C111", "title": "No accepted mail is lost and none is invented when a session dies inside a callback", "statement": "A session is dropped at any of its awaits, in the middle of a callback of the configuration too, when that callback has done any part of its work, or the callback panics there. If the callbacks other than handle_mail never touch the mailbox, and handle_mail adds the mail it was given only once it has read the whole message, called complete(), and is going to accept it (before or when it returns), then the mailbox holds what it held and mails that were received behind DATA lines, in order and without overlap, each with its decoded text: every mail accepted so far, hence every mail whose acceptance was told to the client; at most one more, which is the one given to handle_mail last, with nothing having happened since but its acceptance and perhaps the writer's error. What was in the mailbox at an earlier await is still there.", "quantifier": "all configurations whose mail handlers look at the message as a whole, all packetisations and delays of all inputs, all writers, all awaits, all partial effects of the callback under way", "why_tests_cant": "quantifies over every suspension point of every session and over everything a callback may have done before it is cut off; a test would have to stop a future between two polls of a particular callback", "anchors": ["smtp-server/src/interact.rs::interact", "smtp-server/src/interact.rs::handle_line", "smtp-server/src/config.rs::Config::handle_mail", "smtp-message/src/data.rs::DataStream::complete"]}
{"id": "C112", "title": "The server uses its sink as the Sink contract demands and never waits with unflushed replies", "statement": "Give interact any sink, whose poll_ready, start_send and poll_flush answer Ok, Pending or an error in any way. At every suspension point of the session: start_send was only ever called when the call just before it was a poll_ready that answered Ready(Ok), and nothing was called after an error. What the sink had been given when it last reported a completed flush are exactly the lines of the replies of the session's history; whenever the session waits for its client, for a callback or for a mail handler, nothing given to the sink is unflushed and no line is held back by an adaptor. The session does on this sink what it does on some writer for which a line is one operation: same history, configuration, mail, rest of the input, same end and same lines (when a reply text cannot be built, so that the server panics, the line before it may not have reached the sink). When a poll leaves a reply unfinished, the last call to the sink was answered Pending, so that no wake-up is missed. If the sink never fails and never answers Pending for ever, the session ends as on a writer that never fails.", "quantifier": "all sinks as state machines, all configurations, all packetisations and delays of all inputs, all numbers of polls", "why_tests_cant": "the order of calls depends on where the sink answers Pending or fails, in every combination with the suspension points of the session; the tests write into a Vec, which is always ready", "anchors": ["smtp-server/src/interact.rs::interact", "smtp-server/src/sendreply.rs::send_reply"]}
{"id": "C113", "title": "DataSink over any sink: contract, order, flushes, cancellation", "statement": "Somebody sends the chunks of a message with DataSink::send and then calls end(), over any sink whose poll_ready, start_send and poll_flush answer Ok, Pending or an error in any way. At every suspension point: start_send was only called when the call just before it was a poll_ready that answered Ready(Ok), and nothing was called after an error; what the sink was given is a prefix of the message's wire form and contains the end marker only if it is the whole wire form, so that a sender that is dropped or fails never leaves what a receiver takes for a complete message; at most one piece is not flushed. When a poll leaves the sending unfinished, the last call to the sink was answered Pending, or it was a complete flush after which the next piece is begun at once. Err is returned exactly when the sink failed; Ok means the whole wire form is flushed, and reading it in any packets gives the message back. If the sink never fails and never answers Pending for ever, the sending ends with Ok. A send that is dropped when its chunk has been handed over may be followed by other chunks, which then make the message; a send dropped earlier may not: the example shows a dot line that is then sent unescaped and ends the message.", "quantifier": "all sinks as state machines, all messages and chunkings, all numbers of polls, all suspension points at which a send is dropped, all packetisations", "why_tests_cant": "the tests write into a Vec that is always ready; what matters are all combinations of Pending, errors and drops with the pieces DataSink makes", "anchors": ["smtp-message/src/data/sink.rs::DataSink::send", "smtp-message/src/data/sink.rs::DataSink::end"]}
{"id": "C114", "title": "How a session is polled: every Pending has a cause, no spinning, no yielding", "statement": "The future of a session, on any connection and over any sink with poll_ready, start_send and poll_flush: (1) when it answers Pending, its connection or its sink answered Pending in that very poll and was called last, so the session will be woken; (2) up to any point it has answered Pending exactly as often as connection and sink have together, as long as nothing panicked; (3) if handle_mail returns, there is a bound, the same for all sinks, on what a session does apart from waiting: every poll of it comes to an end, and the session is over once it has made that many steps and as many more as there were Pendings; (4) if neither connection nor sink answers Pending the whole session is one poll, however long it is: it never yields to other tasks of its thread.", "quantifier": "all connections, all sinks as state machines, all configurations, all numbers of steps", "why_tests_cant": "the tests use a connection and a Vec that are always ready; a lost wake-up or a busy loop shows only for some interleaving of Pending answers", "anchors": ["smtp-server/src/interact.rs::interact", "smtp-server/src/sendreply.rs::send_reply", "smtp-server/src/crlflines.rs::next_crlf_line", "smtp-message/src/data/stream.rs::poll_next"]}
{"id": "C115", "title": "No index, split, sum or difference in the code is out of range", "statement": "With every operation of the machine that can fail made explicit - indices, split_to, split_off, advance, slice_to, sums and differences of usize, the counters of enumerate and position, the growth of buffers up to isize::MAX bytes, the slices of the command parsers, the arithmetic of byte_chunks - DataStream (poll_next, complete), DataSink::send and whole sessions of interact do exactly what they do without these limits, at every step, in debug and release builds, on any machine of at least 16 bits, wherever lines are in memory. The only exception: a command line that is longer, as far as it has arrived, than a buffer can be; then, and only then, the server panics with a capacity overflow (and that happens on every machine). Hence with a conforming configuration (C50) a server never panics, for any reason at all, unless it is sent such a line.", "quantifier": "all machines, build modes, packets (with room for two bytes more), configurations with texts that exist, handlers, writers, numbers of steps", "why_tests_cant": "whether an index can be out of range depends on all buffers and all packetisations; the unbounded line needs gigabytes", "anchors": ["smtp-message/src/data/stream.rs::poll_next", "smtp-message/src/data/stream.rs::complete", "smtp-message/src/data/sink.rs::send", "smtp-server/src/crlflines.rs::next_crlf_line", "smtp-server/src/interact.rs::handle_line", "smtp-server/src/sendreply.rs::send_reply", "smtp-message/src/smtpstring.rs::byte_chunks"]}
{"id": "C116", "title": "A whole session is as much work as its bytes, except for lines that come in crumbs", "statement": "At any moment of a session with interact, whatever the configuration, the mail handlers, the client and the writer do: the work Command::parse has done is at most 271 units per byte the client has to send, and it is that of the lines that were read, each parsed once; the polls of all message streams have looked at no more places than the client has bytes and packets, plus one per poll; the searches for ends of lines cost at most all bytes twice per packet, and once more. If the client's packets end where its lines end, those searches cost no more than the bytes, so that the session is linear. And the square is real: whatever the configuration is, a client that sends n bytes one by one in a line makes the server look at n(n-1)/2 places.", "quantifier": "all configurations, handlers, incoming streams, writers, moments of a session", "why_tests_cant": "a benchmark measures some inputs; the bound is over all packetisations, handlers and interleavings of lines and messages", "anchors": ["smtp-server/src/interact.rs::interact", "smtp-server/src/crlflines.rs::next_crlf_line", "smtp-message/src/data/stream.rs::poll_next", "smtp-message/src/command.rs::Command::parse"]}
{"id": "C117", "title": "Error texts say what is wrong, tell errors apart and may be sent to the client", "statement": "When ReplyLine::build refuses a text, the error's Display text is 'Line is too long: N (max: 506)' with N the length of the text, or 'Disallowed byte found at position P: B' with P the number of allowed bytes before the first byte that is not allowed and B the value of that byte, all numbers in decimal without leading zeros; the Display text of a parse error for trailing input is 'Input contains N trailing characters' with the number of bytes that are left. Different errors have different texts. On a machine with 64-bit numbers every such text is accepted by ReplyLine::build as the text of one reply line, so it can be sent to a client without injecting anything.", "quantifier": "all texts, codes and errors; all 64-bit numbers", "why_tests_cant": "the texts contain unbounded numbers; distinctness and sendability are about all of them", "anchors": ["smtp-message/src/builderror.rs::fmt", "smtp-message/src/parseresult.rs::fmt", "smtp-message/src/reply.rs::build"]}
{"id": "C118", "title": "One poll of a message stream takes at most three non-empty packets from the connection", "statement": "Every call of poll_next on a DataStream takes a beginning of what its connection still delivers, and that beginning contains at most three packets that are not empty, so a client that sends without pause cannot keep one poll going for longer than that; it polls the connection at most once after it was not ready, returns Pending exactly when the connection was not ready, and has then taken at most two non-empty packets. A stream that holds k bytes takes at most 3 - k. The bound of three is reached (at the start of a line, packets '.', CR and 'x'). Empty packets are not bounded: any number of ready empty packets is taken within one poll, which answers as if they were not there.", "quantifier": "all states of a DataStream, all contents of its buffer, all sequences of packets and not-ready answers of the connection", "why_tests_cant": "the loop inside poll_next has no bound of its own; that it is left after three packets depends on every way packets can be cut", "anchors": ["smtp-message/src/data/stream.rs::poll_next"]}
{"id": "C119", "title": "How much is written: dot-stuffing adds at most a third, and a client gets at most one reply per two bytes", "statement": "Sending a message through a DataSink writes exactly its bytes, one more byte for each line that starts with a dot, and 3 or 5 bytes for the end; that is at most (n+2)/3 + 5 bytes more than the n bytes of the message, and it takes exactly one item per chunk, one more per line that starts with a dot, and one for the end. In a session, whatever the configuration, the mail handlers and the connection do, the number of replies after the banner is at most half the number of bytes received; a session that ends normally has written the texts of its replies and six bytes per reply line, so with texts of at most T bytes it writes at most (n+2)/2 times the size of such a reply for n bytes received. Both bounds are reached: by lines that are just a dot, and by empty lines, each of which costs two bytes and makes the default server send 28.", "quantifier": "all messages and chunkings, all sinks; all configurations, handlers, inputs, packetisations, write failures, session lengths", "why_tests_cant": "worst cases over unbounded messages and sessions", "anchors": ["smtp-message/src/data/sink.rs::send", "smtp-message/src/data/sink.rs::end", "smtp-server/src/interact.rs::interact", "smtp-server/src/sendreply.rs::send_reply"]}
{"id": "C120", "title": "Callbacks may take their time, work bit by bit, panic, or never return", "statement": "Let the callbacks of the configuration take as many polls as they like and change configuration, connection data and envelope at any of these polls. Wherever the session is then suspended, in or between callbacks, it is at the same place in the code, with the same record, the same output and the same input left, as a session whose callbacks do all their work in one go; between callbacks everything else is the same too, and if it ends it ends with the same result (so all other claims carry over). If all callbacks answer in the end, the session gets wherever the other one gets, and ends if the mail handlers return. If a callback panics, the session is over with it: nothing more is read, written or called, and its command gets no reply; if it never returns, nothing more happens either. If callbacks take nothing out of the mailbox, even in the middle of their work, then at every point, also after a panic, the mailbox holds all mails that were acknowledged.", "quantifier": "all callbacks (number of polls, what they do at each, panics, no answer ever), handlers, inputs, packetisations, write failures; every suspension point", "why_tests_cant": "the tests' callbacks are ready at once; here every interleaving of partial effects with every suspension and panic counts", "anchors": ["smtp-server/src/config.rs::Config", "smtp-server/src/interact.rs::handle_line", "smtp-server/src/interact.rs::interact"]}
{"id": "C121", "title": "Connections that never end, or do not stay at their end", "statement": "Let the connection answer its polls in any way at all: it may go on for ever, and after it has reported its end it may answer anything. What a session has done at any point depends on nothing but the answers it got so far. As long as the connection has not ended, the session is at a point (same place, record, output, state) of a session over a finite connection that begins with the answers so far, whatever comes after them; so all claims about every point of a session hold for endless connections. The same is true of a connection that has ended, until it is polled again. It is polled again after its end only if the end came while a message was being read; where a command line was awaited, the session is over at once, for good, and a session that is over without an error has heard of the end in its last poll. Over a connection that is a list, the session goes through exactly the points of the other model. A connection that sends nothing but empty packets for ever, inside a message, keeps its message stream polling for ever, without an answer to the handler.", "quantifier": "all sequences of answers of the connection (endless, not fused, empty packets), configurations, handlers, write failures; every point of the session", "why_tests_cant": "the tests' connections are finite lists that end once and stay so; the infinitely many later answers of a connection cannot be tested", "anchors": ["smtp-server/src/interact.rs::interact", "smtp-server/src/crlflines.rs::next_crlf_line", "smtp-message/src/data/stream.rs::DataStream", "smtp-message/src/streamext/prependable.rs::Prependable"]}
{"id": "C122", "title": "A task that panics or is dropped harms nobody else, and its mail is kept for recovery", "statement": "Any task of the queue may die alone at any moment: the transport or the storage panics in it, or the executor drops it. Nothing else changes then: every mail, every other task and every instance of run stays as it is; the dead task makes no further call. If it died in the middle of an attempt then its mail stays in flight, and no task works on that mail, until an instance of run to which find_inflight yielded it has called cancel_found_inflight, 3600 seconds or more after the start of that instance. And in a fair execution, whatever tasks of other mails die, however often, a mail that is listed, whose own tasks do not die, and whose storage operations do not fail, and that is refused and found only finitely often, is accepted by the transport and removed.", "quantifier": "every execution of any number of instances: every interleaving, every moment of death, every failure; all fair infinite executions", "why_tests_cant": "there is no test of the queue, and a test can make a task panic only at a few chosen points of a few schedules", "anchors": ["smtp-queue/src/run.rs::run", "smtp-queue/src/send_queued_mail.rs::send_queued_mail"]}
{"id": "C123", "title": "The futures of the queue, however they are polled, make the steps of a delivery one by one", "statement": "The futures that send_queued_mail and run build from and_then, then, map, for_each and tokio::spawn behave the same however an executor polls them, and whichever operations are not ready, and for how long: a delivery calls send_start when it is created, and after each answer calls the next operation of the protocol and polls it at once; it calls no operation twice, polls no operation that has answered, and calls one only when the ones before have answered; it returns NotReady only when the operation it waits for has just returned NotReady in this poll (so it will be woken); a retry is spawned exactly when send_cancel gives the mail back, as the last thing, for that mail. The recovery of a mail found in flight first waits until 3600 seconds after run was called. run spawns a delivery for each mail listed, in order, before it polls list_queue again; calls find_inflight only when list_queue has ended; spawns a recovery for each mail found; is Ok exactly when both streams have ended and an error at the first error of one; it never polls a stream that has ended or failed. What a task and run do depends on the answers and their order only, and is exactly what the transition system of the queue properties (C57 on) records of them, in every execution.", "quantifier": "all sequences of polls, all answers that the types of the operations allow, all moments at which an operation is not ready; all executions of the transition system, with any interleaving", "why_tests_cant": "there is no test of the queue, and a test polls its futures in the one order its executor happens to choose", "anchors": ["smtp-queue/src/send_queued_mail.rs::send_queued_mail", "smtp-queue/src/run.rs::run"]}
{"id": "C124", "title": "Reply methods with side effects, or that panic, do not change what the server does", "statement": "The methods of Config that word the replies borrow the configuration as &self, but may change it through interior mutability, say something different each time (a counter, a clock), and may panic. Whatever they do, each session is at every point where a session of some configuration without such effects is: the same place in the code, the same open transaction, connection data and input to come, the same lines read, callbacks called, arguments and decisions, each reply given on the same occasion; each callback does what it does with the configuration as it finds it. So everything that holds of what sessions do in general holds of these too; in particular the mail handler is called only with an envelope that filter_from, filter_to and filter_data have left in this transaction; and if these methods leave the mailbox alone and mail handlers read the whole message, every mail whose acceptance the client was told is in the mailbox, with the envelope and the text as received, in order. What is on the wire is the replies given and part of the one being sent. A method that panics ends the session: nothing of that reply is written, and nothing more is read, called or written. Sessions end if mail handlers do not poll for ever; what no method of the configuration destroys holds all along; and reply methods without effects give the very sessions of the other properties.", "quantifier": "all configurations with any side effects and panics of reply methods, all inputs and their chunking, all behaviours of the writer, all points of the session", "why_tests_cant": "the tests' configuration words fixed texts; effects depend on the history of the session", "anchors": ["smtp-server/src/config.rs::Config", "smtp-server/src/interact.rs::interact", "smtp-server/src/interact.rs::handle_line", "smtp-server/src/sendreply.rs::send_reply"]}
{"id": "C125", "title": "The server keeps its promises in any environment: nothing is assumed of the connection, the writer, or the configuration", "statement": "Let the connection, the writer, the callbacks and the reply methods of Config answer whatever they are asked in any way, at any time, differently each time, with any side effects, never, or by a panic. Then each session on a connection that stays at its end is at every point where a session of some configuration with fixed answers is: the same place in the code, open transaction, rest of the input, lines read, callbacks called, arguments and decisions, each reply given on the same occasion; so what holds of what sessions do in general holds in any environment. Whatever the connection does: the mail handler is called only with the envelope that filter_from, filter_to and filter_data have left in this transaction, after the reply to DATA; what is on the wire is the replies given and, while one is being sent or when the session has broken off in it, some of its lines; the connection is polled only while all replies given are written, and once at a time; the session unwinds only if the environment panics, writes nothing of what was due then, and does nothing any more once it is over; it panics of itself only when it is to send a reply that cannot be sent, or the mail handler calls complete() though the stream has not just reported its end, or returns though complete() was not the last thing it did. If the input is finite, handlers that poll their stream are answered, and the session ends if what it awaits is answered at some time and no mail handler works for ever.", "quantifier": "all environments: any answers of the connection, the writer, the callbacks and the reply methods, at any time; all points of the session", "why_tests_cant": "the tests know one configuration and one writer; the answers may depend on time and on everything outside the server", "anchors": ["smtp-server/src/interact.rs::interact", "smtp-server/src/interact.rs::handle_line", "smtp-server/src/sendreply.rs::send_reply", "smtp-server/src/crlflines.rs::next_crlf_line", "smtp-message/src/data/stream.rs::DataStream", "smtp-server/src/config.rs::Config"]}
{"id": "C126", "title": "The promises of C125 hold down to the single calls to the sink", "statement": "Let a sink answer each poll_ready, start_send and poll_flush in any way, at any time, and the connection, the callbacks and the reply methods do what they like as in C125. Step by step the session is one in the same environment with a writer that takes whole lines: the same place, reader, transaction, deeds and decisions, and that writer has been given what the sink has been given (only when a reply has a text that cannot be sent may the server panic one line earlier). Hence, while the connection stays at its end, it is at every point where a session of some configuration with fixed answers is, what holds of the deeds of those holds here, and the mail handler gets only the envelope the filters have left. The sink is always used as its trait demands: start_send only after poll_ready has said ready, nothing after an error. What the sink has flushed at any time are the lines of the replies given, and outside the sending of a reply nothing is held back and nothing waits for a flush. A step makes at most one call to the sink or one poll of the connection, and polls the connection only when all that the sink was given is flushed. The session panics of itself only in the three cases of C125, unwinds only if the environment panics, and when it is over nothing happens any more; it ends, if what it awaits is answered at some time, the input is finite and no mail handler works for ever. If the sink panics as well, all this holds up to the call in which it does; there the session unwinds, and nothing else changes. The calls are those SendAll and With make in one poll, on any sink.", "quantifier": "all sinks, connections, callbacks and reply methods, with any answers to each single call at any time; all points of the session", "why_tests_cant": "the tests write into a vector that is always ready; a sink may be full, fail or be pending at any single call", "anchors": ["smtp-server/src/interact.rs::interact", "smtp-server/src/sendreply.rs::send_reply", "smtp-server/src/crlflines.rs::next_crlf_line", "smtp-server/src/config.rs::Config"]}
{"id": "C127", "title": "The queue follows its protocol in any environment: nothing is assumed of storage, transport and timer but their types", "statement": "Let list_queue and find_inflight yield any handles, any number of times, let each operation of storage, mail and transport answer anything of its type, at any time or never, let the timer be early, processes crash and tasks be dropped or panic. Then what any task does is all or a first part of one delivery (send_start, get_mail of what it gave, transport.send of that message, send_done of the in-flight mail after Ok, send_cancel after a refusal and a retry of what that gives back; or the end after the first error), or of a recovery (a wait until 3600 seconds after run was called, cancel_found_inflight, a delivery of what that gives back); only a first part if the task is still there, was dropped or panicked, or its process has crashed. Each call is made for a handle yielded or given back just now, by a new task, or on the last answer of its own task. Each handle that is yielded, and each mail given back by send_cancel to a task that goes on, is used at once, by exactly one new task. A task calls each operation at most once, and not both send_done and send_cancel; send_done only right after the transport has accepted the message of that very in-flight mail. Messages are given to the transport at most as often as handles are yielded and messages are refused. No environment keeps a task going for ever: it is over after at most twelve events of its own, six answers and what the code does with each; so a task whose operations all answer, and which is polled whenever one has, comes to its end. If this goes for all tasks, and only finitely many handles are yielded and messages refused, there is a moment from which on no task is left. run spawns a delivery for each mail listed, looks for mails in flight only when the list has ended, and does nothing more after an error or the end. Nothing comes from a process that has crashed. Whatever is answered, the code can go on. What the queue does with a storage that keeps its contract (C57 on) is a case of this.", "quantifier": "all environments: any handles, any answers of the right types, at any time, with crashes and deaths of tasks; any number of instances; all points of all executions", "why_tests_cant": "there are no tests of the queue; a storage may be buggy, shared or changed by hand, in more ways than can be listed", "anchors": ["smtp-queue/src/run.rs::run", "smtp-queue/src/send_queued_mail.rs::send_queued_mail", "smtp-queue/src/storage.rs::Storage", "smtp-queue/src/mail.rs::InflightMail", "smtp-queue/src/transport.rs::Transport"]}
