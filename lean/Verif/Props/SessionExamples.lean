import Verif.Props.SessionEnd
import Verif.Props.Neighbours
/-
Concrete cases for the session properties C42-C56 and C71: for every theorem of `Props/Sequence`, `Props/Session`,
`Props/SessionEnd` and `Props/Neighbours` with hypotheses, a non-trivial case that meets them.
-/
namespace Verif
open Spec Server Ex

/-- What the client of the example sends: a refused recipient, an accepted one, a message, QUIT. -/
abbrev exampleInput : Bytes :=
  b!"MAIL FROM:<a@b>\r\nRCPT TO:<m@bad>\r\nRCPT TO:<c@d>\r\nDATA\r\nhi\r\n.\r\nQUIT\r\n"

abbrev beforeFrom : List (Ev exampleIp) :=
  [.reply (⟨220⟩, b!"test Service ready"), .line b!"MAIL FROM:<a@b>\r\n"]
abbrev sinceFrom : List (Ev exampleIp) :=
  [okayR, .line b!"RCPT TO:<m@bad>\r\n", .filterTo mallory mallory ⟨some alice, []⟩ ⟨some alice, []⟩
      (.reject ⟨⟨550⟩, b!"No such host"⟩), .reply (⟨550⟩, b!"No such host"),
    .line b!"RCPT TO:<c@d>\r\n", .filterTo bob bob ⟨some alice, []⟩ ⟨some alice, []⟩ .accept, okayR,
    .line b!"DATA\r\n", .filterData ⟨some alice, [bob]⟩ ⟨some alice, [bob]⟩ .accept,
    .reply (⟨354⟩, b!"Start mail input; end with <CRLF>.<CRLF>")]
abbrev afterHandle : List (Ev exampleIp) :=
  [.handled .accept, okayR, .line b!"QUIT\r\n", .reply (⟨502⟩, b!"Command not implemented")]
abbrev exampleTrace : List (Ev exampleIp) :=
  beforeFrom ++ .newMail :: .filterFrom (some alice) (some alice) .accept ::
    (sinceFrom ++ .handleMail ⟨some alice, [bob]⟩ :: afterHandle)

/-- The example session, however the client's bytes arrive. -/
theorem example_session (incoming : List (SrcEv Bytes)) (hin : evBytes incoming = exampleInput) :
    ∃ n w, interact exampleConfig n incoming ⟨[], []⟩ () () = (.ok (), w) ∧ w.trace = exampleTrace := by
  obtain ⟨n, w, h1, _, h3⟩ := c42_example incoming hin [] (by simp)
  exact ⟨n, w, h1 n (Nat.le_refl n), h3⟩

theorem example_keeps : KeepsEnvelope exampleConfig := by
  constructor
  all_goals intros
  all_goals simp_all [exampleConfig, exampleRequired, Required.toConfig]

/-- C43, C44: a session with a message meets their hypotheses. -/
example : ∃ n w, interact exampleConfig n [.pkt exampleInput] ⟨[], []⟩ () () = (.ok (), w) ∧
    ∃ before sender since, beforeFrom ++ .newMail :: .filterFrom (some alice) (some alice) .accept :: sinceFrom =
      before ++ .filterFrom sender (some alice) .accept :: since ∧
      (∀ e ∈ since, InTransaction e) ∧ [bob] = acceptedRcpts since := by
  obtain ⟨n, w, h, ht⟩ := example_session [.pkt exampleInput] (by simp [evBytes])
  refine ⟨n, w, h, ?_⟩
  have := c44_envelope exampleConfig example_keeps n [.pkt exampleInput] ⟨[], []⟩ () ()
    (beforeFrom ++ .newMail :: .filterFrom (some alice) (some alice) .accept :: sinceFrom) afterHandle
    ⟨some alice, [bob]⟩ (by rw [h, ht]; rfl)
  exact this

/-- C42: whatever the packets, the example session goes the same way. -/
example : ∃ n1 n2 w1 w2,
    interact exampleConfig n1 [.pkt exampleInput] ⟨[], []⟩ () () = (.ok (), w1) ∧
    interact exampleConfig n2 (exampleInput.flatMap fun b => [.pending, .pkt [b]]) ⟨[], []⟩ () () = (.ok (), w2) ∧
    w1.trace = w2.trace := by
  obtain ⟨n1, w1, h1, _⟩ := example_session [.pkt exampleInput] (by simp [evBytes])
  obtain ⟨n2, w2, h2, _⟩ := example_session (exampleInput.flatMap fun b => [.pending, .pkt [b]]) (by decide +kernel)
  refine ⟨n1, n2, w1, w2, h1, h2, ?_⟩
  exact (c42_packets exampleConfig exampleVerdict example_whole n1 n2 _ _ _ () () (by decide +kernel) _ _ _ _ h1 h2
    (by simp) (by simp)).2.1

/-- C71: the refusal of a recipient is followed by its own reply. -/
example : ∃ n w, interact exampleConfig n [.pkt exampleInput] ⟨[], []⟩ () () = (.ok (), w) ∧
    Follows exampleConfig (.filterTo mallory mallory ⟨some alice, []⟩ ⟨some alice, []⟩
      (.reject ⟨⟨550⟩, b!"No such host"⟩)) (.reply (⟨550⟩, b!"No such host")) := by
  obtain ⟨n, w, h, ht⟩ := example_session [.pkt exampleInput] (by simp [evBytes])
  refine ⟨n, w, h, ?_⟩
  have := c71_neighbours exampleConfig n [.pkt exampleInput] ⟨[], []⟩ () ()
    (beforeFrom ++ [.newMail, .filterFrom (some alice) (some alice) .accept, okayR, .line b!"RCPT TO:<m@bad>\r\n"])
    (.line b!"RCPT TO:<c@d>\r\n" :: .filterTo bob bob ⟨some alice, []⟩ ⟨some alice, []⟩ .accept :: okayR ::
      .line b!"DATA\r\n" :: .filterData ⟨some alice, [bob]⟩ ⟨some alice, [bob]⟩ .accept ::
      .reply (⟨354⟩, b!"Start mail input; end with <CRLF>.<CRLF>") :: .handleMail ⟨some alice, [bob]⟩ :: afterHandle)
    _ _ (by rw [h, ht]; rfl)
  simpa using this

/-- C56: its hypotheses are met. -/
example : ∃ n pre post f f' d,
    (interact exampleConfig n [.pkt exampleInput] ⟨[], []⟩ () ()).2.trace = pre ++ .newMail :: post ∧
    (interact exampleConfig n [.pkt exampleInput] ⟨[], []⟩ () ()).2.trace = (pre ++ [.newMail]) ++ .filterFrom f f' d :: post.tail := by
  obtain ⟨n, w, h, ht⟩ := example_session [.pkt exampleInput] (by simp [evBytes])
  refine ⟨n, beforeFrom, .filterFrom (some alice) (some alice) .accept ::
    (sinceFrom ++ .handleMail ⟨some alice, [bob]⟩ :: afterHandle), some alice, some alice, .accept, ?_, ?_⟩ <;>
  · rw [h, ht]; try rfl

/-! ### C45, C47, C48, C54: single lines -/

theorem parse_of_commandOn {l : Bytes} {c : Command exampleIp} (h : commandOn l = some c) :
    Command.parse l = .ok c := by
  unfold commandOn at h
  generalize Command.parse l = x at h
  cases x with
  | error e => cases h
  | ok x => cases h; rfl

/-- A connection with an open transaction. -/
abbrev openWorld (to : List (Email exampleIp)) : World exampleIp Unit Unit :=
  ⟨Prep.new [.pkt b!"hi\r\n.\r\n"], ⟨[], []⟩, (), (), some ⟨some alice, to⟩, []⟩
abbrev closedWorld : World exampleIp Unit Unit := ⟨Prep.new [.pkt b!"hi\r\n.\r\n"], ⟨[], []⟩, (), (), none, []⟩

example : OnlyReply (openWorld [bob]) (⟨503⟩, b!"Bad sequence of commands")
    (handleLine exampleConfig 9 (b!"MAIL FROM:<a@b>" ++ crlf) (openWorld [bob])) :=
  c45_mail_again exampleConfig 9 _ _ _ _ _ (parse_of_commandOn p_mail) rfl
example : OnlyReply closedWorld (⟨503⟩, b!"Bad sequence of commands")
    (handleLine exampleConfig 9 (b!"RCPT TO:<c@d>" ++ crlf) closedWorld) :=
  c45_rcpt_before_mail exampleConfig 9 _ _ _ _ (parse_of_commandOn p_rcpt) rfl
example : OnlyReply closedWorld (⟨503⟩, b!"Bad sequence of commands")
    (handleLine exampleConfig 9 (b!"DATA" ++ crlf) closedWorld) :=
  c45_data_before_mail exampleConfig 9 _ _ (parse_of_commandOn p_data) rfl
example : OnlyReply (openWorld []) (⟨503⟩, b!"Bad sequence of commands")
    (handleLine exampleConfig 9 (b!"DATA" ++ crlf) (openWorld [])) :=
  c45_data_before_rcpt exampleConfig 9 _ _ _ (parse_of_commandOn p_data) rfl rfl
example : OnlyReply (openWorld [bob]) (⟨502⟩, b!"Command not implemented")
    (handleLine exampleConfig 9 (b!"RSET" ++ crlf) (openWorld [bob])) :=
  c47_unimplemented exampleConfig 9 _ _ _ (parse_of_commandOn p_rset) (by simp) (by simp) (by simp)
example : OnlyReply (openWorld [bob]) (⟨502⟩, b!"Command not implemented")
    (handleLine exampleConfig 9 (b!"QUIT" ++ crlf) (openWorld [bob])) :=
  c54_partial exampleConfig 9 _ _ _ (parse_of_commandOn p_quit) (.inl rfl)

set_option maxRecDepth 20000 in
/-- C48: a refused recipient leaves the transaction open. -/
example : ∃ w', handleLine exampleConfig 9 (b!"RCPT TO:<m@bad>" ++ crlf) (openWorld []) = (.ok (), w') ∧
    w'.mail = some ⟨some alice, []⟩ := by
  have h : handleLine exampleConfig 9 (b!"RCPT TO:<m@bad>" ++ crlf) (openWorld []) = (.ok (),
      ⟨Prep.new [.pkt b!"hi\r\n.\r\n"], ⟨[b!"550 No such host\r\n"], []⟩, (), (), some ⟨some alice, []⟩,
        [.filterTo mallory mallory ⟨some alice, []⟩ ⟨some alice, []⟩ (.reject ⟨⟨550⟩, b!"No such host"⟩),
          .reply (⟨550⟩, b!"No such host")]⟩) := by
    unfold handleLine
    rw [parse_of_commandOn p_bad]
    rfl
  exact ⟨_, h, (c48_rcpt_refused exampleConfig 9 _ _ _ mallory [] mallory _ _ _ _ _ (parse_of_commandOn p_bad) rfl rfl h).1⟩

/-- A configuration that refuses messages after DATA. -/
abbrev noDataConfig : Config exampleIp Unit Unit :=
  { exampleConfig with filterData := fun _ _ m => (.reject ⟨⟨552⟩, b!"Too much"⟩, m, (), ()) }

set_option maxRecDepth 20000 in
/-- C48: a refused DATA leaves the transaction open. -/
example : ∃ w', handleLine noDataConfig 9 (b!"DATA" ++ crlf) (openWorld [bob]) = (.ok (), w') ∧
    w'.mail = some ⟨some alice, [bob]⟩ := by
  have h : handleLine noDataConfig 9 (b!"DATA" ++ crlf) (openWorld [bob]) = (.ok (),
      ⟨Prep.new [.pkt b!"hi\r\n.\r\n"], ⟨[b!"552 Too much\r\n"], []⟩, (), (), some ⟨some alice, [bob]⟩,
        [.filterData ⟨some alice, [bob]⟩ ⟨some alice, [bob]⟩ (.reject ⟨⟨552⟩, b!"Too much"⟩),
          .reply (⟨552⟩, b!"Too much")]⟩) := by
    unfold handleLine
    rw [parse_of_commandOn p_data]
    rfl
  exact ⟨_, h, (c48_data_refused noDataConfig 9 _ _ _ _ _ _ _ _ (parse_of_commandOn p_data) rfl (by simp) rfl h).1⟩

set_option maxRecDepth 20000 in
/-- C48: a message closes the transaction. -/
example : ∃ w', handleLine exampleConfig 9 (b!"DATA" ++ crlf) (openWorld [bob]) = (.ok (), w') ∧ w'.mail = none := by
  have p1 : (DStream.new (Prep.new [.pkt b!"hi\r\n.\r\n"])).pollNext =
      (.ready (some b!"hi\r\n"), ⟨Prep.new [], .finished, []⟩) := by
    unfold DStream.pollNext DStream.new
    rw [DStream.pollLoop]
    simp [scanBuf, scanWindows, scanLast, Prep.pollNext, Prep.new]
    rw [DStream.pollLoop]
    simp [scanBuf, scanWindows, scanLast, Prep.pollNext, Prep.new]
  have hr : runHandler (exampleConfig.handleMail () () ⟨some alice, [bob]⟩) 9 []
      (DStream.new (Prep.new [.pkt b!"hi\r\n.\r\n"])) =
      .returned .accept () () ⟨Prep.new [], .completed, []⟩ := by
    rw [runHandler]
    simp only [exampleRequired, Required.toConfig, readerAct, List.getLast?_nil, p1]
    rw [runHandler]
    simp only [List.nil_append, readerAct, List.getLast?_singleton, DStream.pollNext, if_true]
    rw [runHandler]
    simp [readerAct, DStream.complete]
    rw [runHandler]
    simp [readerAct]
  have h : handleLine exampleConfig 9 (b!"DATA" ++ crlf) (openWorld [bob]) = (.ok (),
      ⟨Prep.new [], ⟨[b!"354 Start mail input; end with <CRLF>.<CRLF>\r\n", b!"250 Okay\r\n"], []⟩, (), (), none,
        [.filterData ⟨some alice, [bob]⟩ ⟨some alice, [bob]⟩ .accept,
          .reply (⟨354⟩, b!"Start mail input; end with <CRLF>.<CRLF>"), .handleMail ⟨some alice, [bob]⟩,
          .handled .accept, okayR]⟩) := by
    unfold handleLine
    rw [parse_of_commandOn p_data]
    have hc : ∀ w : World exampleIp Unit Unit, w.reader = Prep.new [.pkt b!"hi\r\n.\r\n"] →
        callHandleMail exampleConfig 9 ⟨some alice, [bob]⟩ w = (.ok .accept, { w with
          reader := Prep.new [], trace := w.trace ++ [.handleMail ⟨some alice, [bob]⟩] ++ [.handled .accept] }) := by
      intro w hw
      unfold callHandleMail
      simp only [emit_bind, SM.get_bind, hw]
      rw [hr]
      rfl
    unfold handleDataCmd
    simp only [SM.get_bind, setMail_bind, List.isEmpty_cons, Bool.false_eq_true, if_false]
    have f1 : callFilterData exampleConfig ⟨some alice, [bob]⟩
        (⟨Prep.new [.pkt b!"hi\r\n.\r\n"], ⟨[], []⟩, (), (), none, []⟩ : World exampleIp Unit Unit) =
        (.ok (.accept, ⟨some alice, [bob]⟩), ⟨Prep.new [.pkt b!"hi\r\n.\r\n"], ⟨[], []⟩, (), (),
          none, [.filterData ⟨some alice, [bob]⟩ ⟨some alice, [bob]⟩ .accept]⟩) := rfl
    have f2 : sendCfg exampleConfig.dataOkay (⟨Prep.new [.pkt b!"hi\r\n.\r\n"], ⟨[], []⟩, (), (),
          none, [.filterData ⟨some alice, [bob]⟩ ⟨some alice, [bob]⟩ .accept]⟩ : World exampleIp Unit Unit) =
        (.ok (), ⟨Prep.new [.pkt b!"hi\r\n.\r\n"],
          ⟨[b!"354 Start mail input; end with <CRLF>.<CRLF>\r\n"], []⟩, (), (),
          none, [.filterData ⟨some alice, [bob]⟩ ⟨some alice, [bob]⟩ .accept,
          .reply (⟨354⟩, b!"Start mail input; end with <CRLF>.<CRLF>")]⟩) := rfl
    refine (SM.bind_ok f1).trans ?_
    refine (SM.bind_ok f2).trans ?_
    refine (SM.bind_ok (hc _ rfl)).trans ?_
    rfl
  exact ⟨_, h, c48_closed_after_message exampleConfig 9 _ _ _ h _ rfl ⟨some alice, [bob]⟩ (by simp)⟩

/-! ### C49: a failing write -/

set_option maxRecDepth 20000 in
/-- The second reply cannot be written: the session ends with the error, and what the client sent next is unread. -/
theorem example_failing :
    interact exampleConfig 9 [.pkt b!"DATA\r\nMAIL FROM:<a@b>\r\n"] ⟨[], [.ok, .ok, .errDropped]⟩ () () =
    (.err, ⟨⟨[], some b!"MAIL FROM:<a@b>\r\n", 0⟩, ⟨[b!"220 test Service ready\r\n"], []⟩, (), (), none,
      [.reply (⟨220⟩, b!"test Service ready"), .line b!"DATA\r\n", .writeError]⟩) := by
  have h1 : sendCfg exampleConfig.welcomeBanner
      (start [.pkt b!"DATA\r\nMAIL FROM:<a@b>\r\n"] ⟨[], [.ok, .ok, .errDropped]⟩ () () : World exampleIp Unit Unit) =
      (.ok (), ⟨Prep.new [.pkt b!"DATA\r\nMAIL FROM:<a@b>\r\n"], ⟨[b!"220 test Service ready\r\n"], [.errDropped]⟩,
        (), (), none, [.reply (⟨220⟩, b!"test Service ready")]⟩) := rfl
  have h2 : nextCrlfLine (Prep.new [.pkt b!"DATA\r\nMAIL FROM:<a@b>\r\n"]) =
      .ok (some b!"DATA\r\n", ⟨[], some b!"MAIL FROM:<a@b>\r\n", 0⟩) := by
    unfold nextCrlfLine
    rw [nextCrlfLineLoop]
    rfl
  unfold interact session
  rw [SM.bind_ok h1]
  unfold loop
  have h3 : nextLine (⟨Prep.new [.pkt b!"DATA\r\nMAIL FROM:<a@b>\r\n"],
      ⟨[b!"220 test Service ready\r\n"], [.errDropped]⟩, (), (), none, [.reply (⟨220⟩, b!"test Service ready")]⟩ :
        World exampleIp Unit Unit) = (.ok (some b!"DATA\r\n"), ⟨⟨[], some b!"MAIL FROM:<a@b>\r\n", 0⟩,
      ⟨[b!"220 test Service ready\r\n"], [.errDropped]⟩, (), (), none, [.reply (⟨220⟩, b!"test Service ready")]⟩) := by
    simp [nextLine, h2]
  rw [SM.bind_ok h3]
  simp only [emit_bind]
  apply SM.bind_err
  unfold handleLine
  have hp : (Command.parse b!"DATA\r\n" : Except ParseErr (Command exampleIp)) = .ok .data := parse_of_commandOn p_data
  rw [hp]
  rfl

/-- C49 of it: the last event, the write schedule, what is unread. -/
example := (c49_error_is_last _ _ _ _ _ _ _ _ example_failing).2 rfl
example := (c49_no_write_after _ _ _ _ _ _ _ _ example_failing).1 rfl
example := c49_no_read_after _ _ _ _ _ _ _ example_failing
example := c46_output_error _ _ _ _ _ _ _ example_failing

/-! ### C50-C53: handlers -/

theorem example_conforming (s u m) : Conforming (exampleConfig.handleMail s u m) := (example_whole s u m).conforming

example : ∀ s u m, NoPollAfterComplete (exampleConfig.handleMail s u m) := by
  intro s u m h ok
  simp [exampleRequired, Required.toConfig, readerAct]

/-- C50, C53 apply to the example configuration. -/
example (incoming) (outgoing : BSink) : ∃ n0 r w, (∀ n, n0 ≤ n → interact exampleConfig n incoming outgoing () () = (r, w)) ∧
    (r = .ok () ∨ r = .err) := by
  obtain ⟨n0, r, w, h1, h2, _⟩ := c53_ok_iff exampleConfig example_sendable example_conforming incoming outgoing () ()
  exact ⟨n0, r, w, h1, h2⟩

/-- C52: a session whose input ends within a line. -/
example : ∃ n1 n2 w1 w2,
    interact exampleConfig n1 [.pkt b!"QUIT\r\nMAIL FR"] ⟨[], []⟩ () () = (.ok (), w1) ∧
    interact exampleConfig n2 [.pkt b!"QUIT\r\n"] ⟨[], []⟩ () () = (.ok (), w2) ∧
    w1.reader.bytes = b!"MAIL FR" ∧ w1.trace = w2.trace := by
  obtain ⟨m1, v1, k1, _, _⟩ := c42_total exampleConfig exampleVerdict example_sendable example_whole
    [.pkt b!"QUIT\r\nMAIL FR"] ⟨[], []⟩ (by simp) () ()
  obtain ⟨m2, v2, k2, _, _⟩ := c42_total exampleConfig exampleVerdict example_sendable example_whole
    [.pkt b!"QUIT\r\n"] ⟨[], []⟩ (by simp) () ()
  have e1 := k1 m1 (Nat.le_refl _)
  have e2 := k2 m2 (Nat.le_refl _)
  have hb : v1.reader.bytes = b!"MAIL FR" := by
    have ho := interact_out exampleConfig m1 [.pkt b!"QUIT\r\nMAIL FR"] ⟨[], []⟩ () ()
    rw [e1] at ho
    dsimp only at ho
    cases ho with
    | ok j1 j2 j3 j4 =>
      have h1 := j2.mono (fun _ _ _ _ _ _ _ _ hh => handles_byText example_whole hh)
      have h2 := one_line (st := ⟨(), (), none⟩) (l := b!"QUIT") (by decide) p_quit
        (.unimplemented (by simp [Implemented])) (.nil (b := b!"MAIL FR"))
      exact (h1.det (byText_det exampleVerdict) j3 h2 (noCrlf_of _ (by decide))).2.2
    | banner j1 _ j2 j3 j4 => exact absurd rfl (j2.not_ok ())
    | cut j1 j2 j3 j4 j8 j5 j6 j7 => exact absurd rfl (j5.not_ok ())
  refine ⟨m1, m2, v1, v2, e1, e2, hb, ?_⟩
  exact (c52_tail_ignored exampleConfig exampleVerdict example_whole _ _ _ _ _ _ _ _ _ e1 e2
    (by rw [hb]; simp [evBytes])).1

/-! ### C25: replies through the server -/

set_option maxRecDepth 20000 in
example : (Server.sendReply (⟨250⟩, b!"Okay") closedWorld).1 = .ok () ∧
    (Server.sendReply (⟨250⟩, b!"Okay") closedWorld).2.writer.out.flatten = b!"250 Okay\r\n" := by decide +kernel
example : (Server.sendReply (⟨250⟩, b!"Ok\nay") closedWorld).1 = .panic .buildUnwrap :=
  (c25_server_panics (⟨250⟩, b!"Ok\nay") closedWorld (by simp)).1 ⟨10, by decide, by decide⟩

end Verif
