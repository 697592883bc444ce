# Formal model of yuubind (smtp-message, smtp-server, smtp-queue) in Lean 4

## Layout

* `lean/Verif/Model/*`  - the model, function by function; each definition cites file and lines in /repo and names its
  simplifications.
* `lean/Verif/Spec/*`   - small, independent specifications: reference DATA decoding and dot stuffing, first CRLF line,
  reply lines, command/address grammars as inductive predicates, reference session on bytes, textual form of IP addresses,
  vocabulary for queue histories. They use none of the model's helpers.
* `lean/Verif/Proofs/*` - lemmas, invariants, refinements.
* `lean/Verif/Props/*`  - the theorems `cNN_*` of property `CNN`, with `example`s showing that concrete, non-trivial cases meet
  the hypotheses (session examples: `Props/SessionExamples.lean`).
* `lean/Verif/Props/Conformance.lean` - all unit tests of /repo replayed on the model by the kernel (validation of the model, not
  proofs of properties).
* `tools/manifest.py`, `tools/notes.json` - generate MANIFEST.json; `tools/axioms.py` - generates AXIOMS.md.
* `seeded/LOG.jsonl` - wrong programs the theorems were tested against.

## Plan per property

"false of the code" means: the negation is proved on a concrete witness (`_refuted`), and a `_partial` theorem states exactly
what holds instead.

| id | what is modelled | how it is proved |
|----|------------------|------------------|
| C01-C07 | `DataStream` at poll level: state, buffer, three-byte window scan, `Prependable` source with `Pending` | one-byte reference machine; invariant "what the machine makes of buffer ++ unread bytes is what is still to come" over every poll; then machine = line-based specification |
| C08-C11 | `DataSink` over a sink with arbitrary failure schedule | induction over chunks; encoder state is a function of the bytes so far |
| C12 | as C01 | false of the code; exact condition |
| C13 | `Prependable` for any item type | direct, for every source |
| C14-C16 | `next_crlf_line` (await skips `Pending`) | induction over source events |
| C17-C20, C22, C23 | `ReplyLine`, `ReplyCode`, reply parser on nom combinators | direct |
| C21 | same | false of the code (`+12` is accepted as a code); exact language |
| C24, C25 | `byte_chunks`, `send_reply` alone and as run by the server | strong induction on the length ; machine arithmetic of usize, both overflow modes, in Model/Usize |
| C26 | same | false of the code (empty text) |
| C27-C33, C35-C39 | nom 3.2 combinators, every parser and printer | each parser proved equivalent to a declarative grammar for all inputs (value, rest, error, incomplete); printers produce words of the grammar; grammar is unambiguous |
| C34 | printers | false of the code for hand-built free-text commands; exact condition |
| C40 | `ByteSlice` with offsets and the buffer's identity | false of the code (assertion compares with `end`); exact condition |
| C41 | nom's input traits for `ByteSlice`, nom's primitive parsers on slices | refinement to lists |
| C42-C56, C71, C73 | `interact`, `handle_line`, `send_reply`, every `Config` method, with arbitrary configuration (state, user data, filters, texts, handler strategy), arbitrary packets, write failures, panics | trace invariants by induction over the loop; refinement to a byte-level reference session; determinism of the reference |
| C51 | same | false for handlers that poll after `complete()`; proved for all others; place where an arbitrary handler can stop |
| C54 | same | false of the code (QUIT, RSET, EHLO, HELO are 502) |
| C57-C63, C66-C68 | `run`/`send_queued_mail` as labelled transition system over an abstract storage; arbitrary failures (with or without effect), time, crashes, tasks that die alone (panic, dropped future), several instances | inductive invariants over reachable states, and over logs |
| C64, C69 | same | false of the code; witnesses and conditional versions, bound of C69 tight |
| C65 | fuzz target `fuzz_data_parser.rs` (naive decoder) | equality with the decoder for all inputs |
| C70 | `std::net` parser/formatter of addresses | equality with a declarative grammar of literals; round trip |
| C72 | all parsers again, on `ByteSlice`s, with every assertion, index and slice as a possible panic | refinement to the list parsers; `some` everywhere |
| C74, C75 | configuration of the tests in interact.rs | instance of the session theorems; the test inputs for every packetization |
| C76 | quickcheck tests of data/ | first: from C10; second: false, exact condition |
| C77 | infinite fair executions of the queue model (`Spec/QueueFair`) | a task always cares for the mail (invariant), it advances (rank), only finitely many tasks can bring it back (count) |
| C78 | as C77, after arbitrary histories | as C77; if nobody cares for the mail it stays, so it is listed or found |
| C79 | client (`send_to`, `DataSink`) and server together, any accepting configuration | composition of C27, C08, C42 along the script |
| C80 | a reading client (`Spec/Client`): `next_crlf_line`, `ReplyLine::parse`, grouping by the last-line mark | lines of replies (C25), each parsed back (C20), grouping by induction; every recorded reply is sendable (invariant) |
| C81 | `interact` at the head of its loop / at the call of `handle_mail` | completeness: the reference dialogue determines the run; laziness relation between readers, closed under composition |
| C82 | polls of `DataStream` with the events taken, sends of `DataSink` | invariant over polling histories; at `Pending` the buffer decodes to nothing |
| C83 | every `send_to` as its sequence of `write_all` calls, `write_all` over an arbitrary `io::Write` machine, `Vec` and `BytesMut` writers | induction over calls; pieces concatenate to the wire form |
| C84 | the queue model with its record of events | invariant: acceptances exceed mishaps by at most one, and only while an accepted attempt is finishing or the mail is gone; per-attempt uniqueness by freshness of claims; liveness from C77 |
| C85 | the session loop (Model/Server) against the dialogue relation of Spec/Server restricted to complete messages (Spec/Compose: Whole, ExpectsCommand) | frame lemma: a dialogue over complete messages keeps its meaning when bytes are appended; determinism of the dialogue identifies it with what interact did |
| C86 | handle_line and interact (Model/Server), Command::parse (Model/Command); SameMeaning and unworded in Spec/Compose | case analysis on handle_line; frame lemma and determinism of the dialogue for the session; C30 for the spelling |
| C87 | Command::parse and ReplyLine::parse with nom's three outcomes (Model/Nom, Model/Command, Model/Reply) | soundness and completeness of every command parser with bytes left over; a compositional invariant 'does not ask for more and does not read over the CRLF' through all combinators |
| C88 | DataSink with a sink that can fail before or after taking an item; a dropped future has the same effects | classification of all failing runs of the send loop by induction; the state equals the place in the text |
| C89 | byte-level table of from_utf8 (Model/SliceParse) | proved equal to the encoding of code points, both directions |
| C90 | the transition system of Model/Queue; counting in the record (Spec/QueueCount) | invariant: attempts + tasks about to retry = hand-overs, by induction over executions; c90_no_pause by iterating an explicit eight-step loop from an arbitrary state |
| C91 | ghost counter of end-polls in `Prep`; nextCrlfLine, DStream, whole interact | induction over the loop, with a frame lemma for everything that does not read; determinism of the specification for the exact equivalences |
| C92 | Model/Hooks.lean: an implementation as required methods plus optional overrides, and the resolution of the provided methods; Spec/Hooks.lean: occasions, SameCallbacks, SameStory | a relation between the worlds of two runs that every statement of the server preserves (Proofs/Hooks.lean); case analysis for the resolution |
| C93 | the parsers (as in C30, C37, C39) with the modelled std::net IP parsers; the RFC's ABNF transcribed in Spec/Rfc5321.lean with meanings, independent of the parsers and of Spec/Grammar.lean | each RFC production is included in the language proved exact in C30/C37/C39/C70; refusal from c70_literals |
| C94 | send_reply, interact, ReplyLine::parse and the line reader as in C21, C25, C46, C47; the RFC's reply grammar in Spec/Rfc5321.lean | from c46_wire/c46_output (server) and c21/readLines (client), by induction on the lines of the reply |
| C95 | show4/show6 of Model/Ip.lean (std::net Display); Spec/IpCanon.lean: numerals, first longest run, canonical text | loop invariant of find_zero_slice (longest run so far, longest suffix run); uniqueness by induction on numerals |
| C96 | bytes held by the decoder, by next_crlf_line and by the reader between calls (Spec/Memory.lean) | invariant over arbitrary operation histories; induction on packets; session invariant over arbitrary handlers |
| C97 | the search loops with counters (Model/Work.lean), shown to erase to the model | amortised invariant: work + buffered bytes <= bytes + packets + polls; exact recurrence for the worst case |
| C98 | a chain of sessions, each the interact model, connected by the client model of C79 (Spec/Relay.lean) | invariant of a session: envelope well-formed, mailbox forwardable; induction on hops with C79 and determinism (C42) |
| C99 | existing models; a tolerant receiver as specification (Spec/Smuggle.lean) | byte classes through the grammar of C30 and round trip C27; wire form C08; c03 |
| C100 | existing models; the sizes as specification (Spec/Limits.lean) | an explicit family of mails, sent through C79 |
| C101 | Model/Task.lean: interact as the state machine an async fn compiles to, one state per await | the machine reaches the states of Model/Server.lean (induction on the code); growth, an invariant on what is written, and independence of the writer's future by induction on steps (Proofs/Task.lean) |
| C102 | fuzz target `fuzz_interact.rs`, ported to the present trait | instances of C50, C53, C73 for no panic and termination; induction over the reference dialogue of C42 for the record |
| C103 | the state machine of `interact` (Model/Task.lean), with the reference session of C42 | invariant over all steps: every state is a dialogue of the reference plus a described part of one exchange; mailbox by induction over dialogue and exchange |
| C104 | The product of the session machine of Model/Task and the queue machine of Model/Queue (Spec/System.lean), coupled by one rule: a session's mailbox grows exactly when a mail is enqueued | Invariant over all executions of the product, using C103 for the session and C57/C58 for the queue |
| C105 | Model/Command.lean: Domain.parse, Email.parse; Spec/Prefix.lean: longest prefix, unclosed quoted string | Maximal munch of the separated lists by induction on the labels; the IncompleteString cases by induction on many0 over quoted items. |
| C106 | the nom parsers of Model/Command and Model/Reply, as for C20/C87/C105 | for each parser: if it stops for lack of input, the consumed part is sound (existing soundness lemmas) and the part it waits for can be supplied explicitly; then the completeness theorem of the grammar |
| C107 | Model/ParseWork: the same parsers with a counter; erasing the counter is proved to give the parsers of Model/Nom, Model/Command, Model/Reply | amortized bounds per combinator: a success costs at most A per consumed byte plus B, a failure at most F per byte of the input plus G; loops pay their constant from the progress of each turn; the two literal alternatives stop at the same bracket; only one verb and only one of the two path forms can get past its first bytes |
| C108 | Spec/Waiting: the language of waiting inputs, by concatenation and prefixes, from the byte classes and texts of Spec/Grammar | an equivalence for each parser (tag, hop, route, path, bracketed path, parameters, tail, each verb); the alternatives are told apart by their first four letters, so one that accepts excludes one that waits |
| C109 | the futures of two sessions (Model/Task) with different plans for the sink | simulation: one answer of the failing future is one of the other, or it is the failing write; then induction on the number of answers |
| C110 | every combinator and parser of Model/Nom, Model/Command, Model/Reply and the server, with a structure of choices for the corner cases (Model/Readings) | compositional: on lines, each parser of one variant equals that of the model or wants more where the model refuses; no other alternative accepts such a line; then induction over the server's loop |
| C111 | the state machine of Model/Task; Spec/Dropped.lean: LeftBehind, what the configuration can be when the session is cut | the invariant of C103 also records how far the handler has read (Reaches in Proofs/Await); determinism of handler runs shows that a handler that has completed has seen the whole message (reaches_whole) |
| C112 | Model/SinkPoll.lean: the three methods of a sink with any answers, the adaptor With with the closure of interact, the future SendAll with its buffered item, the session of Model/Task over them; Spec/SinkPoll.lean: the contract, what was handed over, what was flushed | simulation: every poll is covered by a run of Model/Task with a plan read off the answers (Covers, Sound in Proofs/SinkPoll), from which the earlier theorems carry over; a variant for the liveness part |
| C113 | Model/DataSinkPoll.lean: the future Send of futures-util over the three methods of a sink; DataSink::send and end suspended in it; a dropped send followed by other chunks | an invariant (handed bytes, then what is left to hand over, is the wire form), one on flushes, one on the state of DataSink (Good, Tidy, Tracks in Proofs/DataSinkPoll); a variant for liveness |
| C114 | Model/SinkPoll.lean; Spec/Polls.lean counts how often a session, its connection and its sink answer Pending | induction over steps with one counting lemma per step (Proofs/Polls); the bound from C53 and the invariant of C112 |
| C115 | Model/Checked.lean: the code of data/, crlflines.rs, sendreply.rs and handle_line transcribed once more, statement by statement, with fallible machine operations; parsers of Model/SliceParse (C72), chunks of Model/Usize (C24) | refinement step by step to Model/Data and Model/Task, with invariants on the sizes of buffers and packets; C50 and C101 for the absence of panics |
| C116 | Model/TaskWork.lean: what each step of the state machine of C101 looks at, with the counters of C97 and C107 | a potential for each of the three kinds of work, paid down by every step; an invariant (only whole lines are held) for the linear case; the crumbs by induction on their number |
| C117 | Model/ErrorText.lean: the arms of Display, and decimal numbers; Spec/ErrorText.lean: what a numeral is | induction on the digits; texts are split at the first byte that is not a digit; C17 for what build accepts |
| C118 | Spec/Greedy.lean counts the packets taken | induction on the loop inside poll_next, with the number of bytes it can hold back (two at most) as the measure |
| C119 | Spec/Sizes.lean counts lines that start with a dot and the bytes of replies | induction on lines; the size of the output determines the number of writes; the record of a session (C46) with the size of what is left to read as the measure |
| C120 | Model/Callbacks.lean: the state machine of Model/Task with polled callbacks | simulation (Rel in Proofs/Callbacks): each step is one of the other machine or a poll that does not answer; a count of polls left for the other direction; C101, C53 and C103 for the consequences |
| C121 | Model/AnySource.lean: the state machine of Model/Task over a function from poll numbers to answers, each step polling at most once | simulation (Rel in Proofs/AnySource) with Model/Task over the list of answers heard; termination measure of poll_next for the converse; case analysis of the step that hears the end |
| C122 | Act.die and Ev.died in Model/Queue.lean; Later, Recovered and Ev.by in Spec/QueueDeath.lean | task numbers are never given away twice; a mail in flight on which nobody works can only change by cancel_found_inflight (Step.orphan); liveness from C77, whose reliability condition allows deaths at other mails |
| C123 | the combinators as in futures 0.1 (Fut, Fut.poll, ForEach.poll) and the two functions as the expressions of the source in Model/QueueFutures.lean; Life, RunLife, told, rtold in Spec/QueueFutures.lean | one poll by induction on the answers, sequences of polls by induction; poll_split shows that the cut of the answers into polls does not matter; refinement by induction on executions (exec_view, exec_rview) |
| C124 | the state machine of C101 with reply methods that return an optional reply and a new configuration (Model/Wording.lean); replay, SameMoment, isDeed, Effectless, Preserves in Spec/Wording.lean | the configuration at a callback is a function of the number of callbacks that have returned (cfg_same); lock-step simulation with the replay of these configurations, in which a reply is sent when it is flushed here (rel_step); invariants for the wire and the configuration; for the mailbox, the replay picks the configuration the callback found if it has the same mailbox as what the last callback left, so that C103 applies to the replay |
| C125 | the state machine of C101 alone, every answer from outside a function of the number of the step (Model/Env.lean); Script, played, SameTime, StaysEnded, Responsive in Spec/Env.lean | the answers of a callback happen once for each number of callbacks that have returned, so they can be listed (fits_exists); simulation step by step (rel_step), input as in C121; invariants for the envelope, the wire and the streams; a measure of what can still be read for the end |
| C126 | the environment of C125 with three more functions, for poll_ready, start_send and poll_flush; SendAll's buffered line and the line With holds are part of the state; one call a step (Model/Around.lean); withWriter, SameStand, callByCall, Answering in Spec/Around.lean | simulation by the line-wise machine of C125 (Rel, rel_step), which carries the theorems of C125 over; invariant Good for contract and flushing; callByCall agrees with SendAll.poll of Model/SinkPoll.lean by induction (loop_agrees); a sink that panics cuts the session short at its first call that does (afterOr, by induction) |
| C127 | the tasks and runs of Model/Queue.lean without the storage; answers need only fit the types (Model/FreeQueue.lean); Delivers, Life, Warranted, RunSoFar as explicit lists of events in Spec/FreeQueue.lean | invariant for each task: what is recorded of it is a chain of calls and answers (Known); predicates on all splittings of the record, step by step; simulation of Model/Queue.lean (step_covers); a rank of operation and answer that falls with every step of the task (rank_exec), and so endless executions in which the tasks are served come to rest (endless_ends) |

## Trusted base

* Lean 4.33's kernel. No axioms of our own; the theorems depend on at most `propext`, `Classical.choice`, `Quot.sound`
  (AXIOMS.md lists them per theorem). No `native_decide`, no `bv_decide`; `decide +kernel` only evaluates in the kernel.
* That `Model/` is a faithful reading of the Rust source. Support: citations, replay of all unit, session and fuzz-oracle tests
  (Conformance, TestSuite, C65, C75, C76).
* The reading of the libraries, since their sources are not in the sandbox:
  * nom 3.2 (`Model/Nom.lean`): `tag_no_case!` compares ASCII letters without case; `is_a!` on empty input is `Done` with the empty
    slice, on a first byte outside the set an error, otherwise the longest prefix; `one_of!` on empty input is `Incomplete`;
    `alt!` goes on only after `Error`; `opt!` keeps `Incomplete`, `complete!` turns it into `Error`; `many0!` stops at `Error`,
    passes `Incomplete`, errs if an item consumes nothing, is `Done` on empty input; `separated_*list!` likewise, with their two
    "consumed nothing" checks; `sep!`/`wsp` eats blanks before each sub-parser, none after the last; `u16::from_str` accepts a
    leading `+`. For the server and for lines most of this is not trusted: by C110 the behaviour at the end of the input, on a missing
    search text, on elements that consume nothing, after `Incomplete` and after the last part of `sep!` can be read either way with
    the same sessions.
  * bytes 0.4 (`split_to`, `split_off`, `unsplit`, `extend`, `advance`, `slice`, panics out of range), futures 0.3 (`next`, `send`,
    `send_all`, `flush`; concretely `With`, `SendAll` and `Send` of futures-util 0.3.4 in `Model/SinkPoll.lean` and `Model/DataSinkPoll.lean`), itertools 0.7 (`pad`/`intersperse`-like helper used by `send_reply`), tokio 0.1/futures 0.1 combinators
    (`and_then`, `then`, `map`, `for_each`, `spawn`; concretely `Chain` and `ForEach` in `Model/QueueFutures.lean`, where C123 shows that the
    transition system of `Model/Queue.lean` is what they do).
  * `std::net` of the pinned nightly (2020-03) in `Model/Ip.lean`. All command theorems take an abstract `IpLib` and, where needed,
    its laws (`IpLib.Laws`); C70 discharges them for the concrete model.
  * UTF-8 validity (`from_utf8`) is modelled concretely (RFC 3629 table) in `Model/SliceParse.lean`.
* Sources are finite and fused in all models but `Model/AnySource.lean`: after `Ready(None)` a stream keeps returning `Ready(None)` (`stream::iter`, TCP readers). C91 counts such polls exactly, and C121 removes both assumptions: a session over any connection, endless ones included, is at a point of a session over a list for as long as the connection has not been polled after its end, and that happens only after a message cut off by the end of the connection.

### Modelled

All of smtp-message/src (data/*, streamext/*, byteslice, smtpstring, reply, domain, email, parameters, the eleven commands, command,
parseresult, builderror as the two error kinds, sendable as the sequence of writes), all of smtp-server/src (crlflines, sendreply, config with any overrides and
its defaults, decision, metadata, interact), all of smtp-queue/src (run, send_queued_mail; storage, mail, transport as interfaces), the
three smtp-message fuzz targets, the smtp-server fuzz target (ported to the present trait), the test configuration of smtp-server, the quickcheck properties.

### Not modelled

* Allocator behaviour and time (C96 bounds the bytes held, C97 the bytes searched); executors (any runnable queue task may run next) and wakers as objects: a future that answers `Pending` is polled again when what answered it `Pending` makes progress. C82, C112-C114 and C123 prove the part that is up to this code: whenever `DataStream`, `DataSink`, a session or a task of the queue answers `Pending`, the stream or sink below it did so in the same poll. Thread-level
  interleaving inside one session does not exist: a session is one task.
* `Debug`; the `Display` texts of `ParseError` that contain nom's own texts and numbers (the others: C117).
* The old-trait plumbing of `smtp-server/fuzz/fuzz_interact.rs` (it does not compile against this commit; its port is modelled, C102).
* (Reply methods that panic or have side effects: Model/Wording.lean, C124. Asynchronous callbacks that take many polls, panic, or never return: Model/Callbacks.lean, C120; C111 covers what the mailbox can be when a callback is cut off. Model/Env.lean, C125, assumes nothing of any of them, nor of the writer and the connection. The other theorems assume reply methods without effects, and callbacks that do all they do in one go.)
* Poll-level behaviour of the writer in most theorems: the sink is told each line, and `flush`; an error may come from any of these
  operations. `Model/SinkPoll.lean` models the adaptor `With` and the future `SendAll` over `poll_ready`/`start_send`/`poll_flush`
  with `Pending`, and C112 proves that every such session is one of the simpler model. C113 does the same for `DataSink`.
  `Model/Around.lean` (C126) has these three calls answered by the arbitrary environment of C125, one call a step.
* The contents of queued mails: a mail is an identity, `get_mail` yields the body of that identity. The storage contract assumed for
  the queue is the one of the comments in lib.rs: claims (in-flight names) are fresh, an operation on a stale claim fails, an operation
  that fails may or may not have had its effect. `Delay` fires at or after its deadline. (`Model/FreeQueue.lean`, C127, assumes none of
  this: only the types.)

## Findings (false properties, each with a kernel-checked witness)

* C113: `DataSink::send` is not cancellation safe: its state runs ahead of what was sent, so a dropped `send` followed by another can
  put an unescaped dot line on the wire (early end of the message, the rest is read as commands).
* C12/C76: decoded text can contain CRLF dot CRLF (a line of two dots on the wire); the project's quickcheck property claims otherwise.
* C21: the reply parser accepts `+12 text`, i.e. a sign and two digits.
* C24: `byte_chunks` with a chunk size near `usize::MAX` overflows: panic in debug builds, silently no chunks in release builds.
* C26: a reply with an empty text sends nothing at all.
* C34: EXPN/HELP/NOOP/VRFY built from an argument with CRLF write several lines (command injection on the client side).
* C40: the bounds assertion of `ByteSlice::slice` compares with the wrong number; sub-slices can see bytes outside their parent.
* C51: a mail handler that polls after `complete()` eats the commands that follow.
* C54: QUIT, RSET, EHLO, HELO answered 502; a client cannot reset or quit.
* C88: `DataSink::send` advances its state before the bytes are taken; after a failed or cancelled send, sending the chunk again can
  write an end-of-data marker inside the message (smuggling), and `end()` may not end it.
* C91: a connection that ends inside a message is polled once more after its end, against the `Stream` contract.
* C90: no backoff and no limit: a permanently refusing transport gets the mail again immediately, for ever.
* C64/C69: mails stranded by late `enqueue` or a failing `get_mail`; a slow listing defeats the one-hour recovery delay and leads to two
  concurrent deliveries. `c63_condition_is_needed`: without freshness of claims a delivered mail can be sent again.
* C96: command lines have no length limit: a client that never sends CRLF makes the server hold everything it sends. C97: and, sent in small packets, makes it search quadratically often.
* C99: bare LFs in a message are passed on by `DataSink`; a receiver that takes LF for a line end can be made to read a second mail
  out of the first (outbound SMTP smuggling).
* C100: no limit of RFC 5321 section 4.5.3.1 is enforced by the server itself; a limit must come from the filters or the connection.
* C93: address literals other than IPv4 and `[IPv6:...]` in this spelling are refused, although RFC 5321 allows general literals and
  its tag is case-insensitive. C94: a reply line that is a bare code (`250` CRLF), which RFC 5321 allows, is refused by `ReplyLine::parse`.
