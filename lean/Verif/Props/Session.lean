import Verif.Proofs.Termination
import Verif.Props.Sequence
/-
C42, C45-C55: sessions.
-/
namespace Verif
open Spec Server
variable {L : IpLib} {S U : Type}

/-! ### C42 -/

/-- C42. A session that ends normally is the one the specification determines from the bytes alone: the same
callbacks with the same arguments and results, the same replies, in the same order, the same final state. -/
theorem c42_reference (C : Config L S U) (V : Verdict L S U)
    (hV : ∀ s u m, WholeMessage (C.handleMail s u m) (V s u m)) (fuel : Nat) (incoming : List (SrcEv Bytes))
    (outgoing : BSink) (s : S) (u : U) (w : World L S U)
    (h : interact C fuel incoming outgoing s u = (.ok (), w)) :
    CompleteSession C (ByText V) s u (evBytes incoming) w.trace ⟨w.cfg, w.conn, w.mail⟩ := by
  have := interact_out C fuel incoming outgoing s u
  rw [h] at this
  dsimp only at this
  cases this with
  | ok j1 j2 j3 j4 => exact ⟨_, _, j1, j2.mono (fun _ _ _ _ _ _ _ _ hh => handles_byText hV hh), j3⟩
  | banner j1 _ j2 j3 j4 => exact absurd rfl (j2.not_ok ())
  | cut j1 j2 j3 j4 j8 j5 j6 j7 => exact absurd rfl (j5.not_ok ())

/-- C42. The specification leaves no choice. -/
theorem c42_reference_unique (C : Config L S U) (V : Verdict L S U) (s : S) (u : U) (input : Bytes)
    (tr1 tr2 : List (Ev L)) (st1 st2 : SState L S U)
    (h1 : CompleteSession C (ByText V) s u input tr1 st1) (h2 : CompleteSession C (ByText V) s u input tr2 st2) :
    tr1 = tr2 ∧ st1 = st2 :=
  CompleteSession.det (byText_det V) h1 h2

/-- C42. Packet boundaries and not-ready polls are irrelevant, write failures included: two sessions over the
same bytes that have ended ended alike, with the same events, output, state, and bytes left. -/
theorem c42_packets (C : Config L S U) (V : Verdict L S U)
    (hV : ∀ s u m, WholeMessage (C.handleMail s u m) (V s u m)) (n1 n2 : Nat) (in1 in2 : List (SrcEv Bytes))
    (outgoing : BSink) (s : S) (u : U) (hin : evBytes in1 = evBytes in2) (r1 r2 : Res Unit) (w1 w2 : World L S U)
    (h1 : interact C n1 in1 outgoing s u = (r1, w1)) (h2 : interact C n2 in2 outgoing s u = (r2, w2))
    (hr1 : r1 ≠ .running) (hr2 : r2 ≠ .running) :
    r1 = r2 ∧ w1.trace = w2.trace ∧ w1.writer = w2.writer ∧ w1.cfg = w2.cfg ∧ w1.conn = w2.conn ∧
      w1.mail = w2.mail ∧ w1.reader.bytes = w2.reader.bytes := by
  have := similar_session hV n1 n2 (start in1 outgoing s u) (start in2 outgoing s u)
    ⟨by rw [start_bytes, start_bytes, hin], rfl, rfl, rfl, rfl, rfl⟩
  unfold interact at h1 h2
  rw [h1, h2] at this
  rcases this with h | h | ⟨h, h'⟩
  · exact absurd h hr1
  · exact absurd h hr2
  · exact ⟨h, h'.trace, h'.writer, h'.cfg, h'.conn, h'.mail, h'.bytes⟩

/-! ### C45, C47, C48: one line -/

/-- A step that does nothing but send one reply. -/
def OnlyReply (w : World L S U) (x : Reply) (res : Res Unit × World L S U) : Prop :=
  (res.1 = .ok () ∧ res.2.trace = w.trace ++ [.reply x] ∧ res.2.reader = w.reader ∧ res.2.cfg = w.cfg ∧
    res.2.conn = w.conn ∧ res.2.mail = w.mail) ∨
  (res.1 = .err ∧ res.2.trace = w.trace ++ [.writeError]) ∨
  (¬ Sendable x ∧ res.1 = .panic .buildUnwrap ∧ res.2.trace = w.trace)

private theorem onlyReply_send (x : Reply) (w : World L S U) : OnlyReply w x (Server.sendReply x w) := by
  rcases sendReply_cases x w with ⟨wr, h1, h2, h3⟩ | ⟨wr, new, h1, h2, h3⟩ | ⟨wr, h1, h2⟩
  · rw [h2]; exact .inl ⟨rfl, rfl, rfl, rfl, rfl, rfl⟩
  · rw [h1]; exact .inr (.inl ⟨rfl, rfl⟩)
  · rw [h2]; exact .inr (.inr ⟨h1, rfl, rfl⟩)

/-- C45. MAIL inside a transaction. -/
theorem c45_mail_again (C : Config L S U) (fuel : Nat) (line : Bytes) (f : Option (Email L)) (p : Params) (w : World L S U) (m : MailMeta L)
    (hp : Command.parse line = .ok (.mail f p)) (hm : w.mail = some m) :
    OnlyReply w (C.alreadyInMail w.cfg) (handleLine C fuel line w) := by
  unfold handleLine
  simp only [hp, handleMailCmd, SM.get_bind, hm, Option.isSome_some, if_true, sendCfg]
  exact onlyReply_send _ _

/-- C45. RCPT outside a transaction. -/
theorem c45_rcpt_before_mail (C : Config L S U) (fuel : Nat) (line : Bytes) (t : Email L) (p : Params) (w : World L S U)
    (hp : Command.parse line = .ok (.rcpt t p)) (hm : w.mail = none) :
    OnlyReply w (C.rcptBeforeMail w.cfg) (handleLine C fuel line w) := by
  unfold handleLine
  simp only [hp, handleRcptCmd, SM.get_bind, hm, sendCfg]
  exact onlyReply_send _ _

/-- C45. DATA outside a transaction. -/
theorem c45_data_before_mail (C : Config L S U) (fuel : Nat) (line : Bytes) (w : World L S U)
    (hp : Command.parse line = .ok (.data : Command L)) (hm : w.mail = none) :
    OnlyReply w (C.dataBeforeMail w.cfg) (handleLine C fuel line w) := by
  unfold handleLine
  simp only [hp, handleDataCmd, SM.get_bind, hm, sendCfg]
  exact onlyReply_send _ _

/-- C45. DATA in a transaction without recipients. -/
theorem c45_data_before_rcpt (C : Config L S U) (fuel : Nat) (line : Bytes) (w : World L S U) (m : MailMeta L)
    (hp : Command.parse line = .ok (.data : Command L)) (hm : w.mail = some m) (hto : m.to = []) :
    OnlyReply w (C.dataBeforeRcpt w.cfg) (handleLine C fuel line w) := by
  unfold handleLine
  simp only [hp, handleDataCmd, SM.get_bind, hm, setMail_bind, hto, List.isEmpty_nil, if_true, sendCfg,
    SM.bind_assoc']
  rcases sendReply_cases (C.dataBeforeRcpt w.cfg) { w with mail := none } with
    ⟨wr, h1, h2, h3⟩ | ⟨wr, new, h1, h2, h3⟩ | ⟨wr, h1, h2⟩
  · rw [SM.bind_ok h2]; exact .inl ⟨rfl, rfl, rfl, rfl, rfl, by simp [hm]⟩
  · rw [SM.bind_err h1]; exact .inr (.inl ⟨rfl, rfl⟩)
  · rw [SM.bind_panic h2]; exact .inr (.inr ⟨h1, rfl, rfl⟩)

/-- C47. A line that is not a command. -/
theorem c47_unrecognized (C : Config L S U) (fuel : Nat) (line : Bytes) (w : World L S U) (e : ParseErr)
    (hp : (Command.parse line : Except ParseErr (Command L)) = .error e) :
    OnlyReply w (C.commandUnrecognized w.cfg) (handleLine C fuel line w) := by
  unfold handleLine
  simp only [hp, sendCfg, SM.get_bind]
  exact onlyReply_send _ _

/-- C47. A command other than MAIL, RCPT and DATA. -/
theorem c47_unimplemented (C : Config L S U) (fuel : Nat) (line : Bytes) (w : World L S U) (c : Command L)
    (hp : Command.parse line = .ok c) (h1 : ∀ f p, c ≠ .mail f p) (h2 : ∀ t p, c ≠ .rcpt t p) (h3 : c ≠ .data) :
    OnlyReply w (C.commandUnimplemented w.cfg) (handleLine C fuel line w) := by
  unfold handleLine
  cases c with
  | mail f p => exact absurd rfl (h1 f p)
  | rcpt t p => exact absurd rfl (h2 t p)
  | data => exact absurd rfl h3
  | _ => simp only [hp, sendCfg, SM.get_bind]; exact onlyReply_send _ _

private theorem line_ok {C : Config L S U} {fuel line} {w w' : World L S U}
    (h : handleLine C fuel line w = (.ok (), w')) :
    ∃ evs b st' b', Exchange C (Handles C fuel) (commandOn line) ⟨w.cfg, w.conn, w.mail⟩ b evs st' b' ∧
      w'.mail = st'.mail ∧ w'.trace = w.trace ++ evs := by
  have := handleLine_out C fuel line w
  rw [h] at this
  cases this with
  | ok k1 k2 k3 => exact ⟨_, _, _, _, k2, rfl, k1⟩
  | cut k1 k2 k6 k3 k4 k5 => exact absurd rfl (k3.not_ok ())

private theorem commandOn_ok {line : Bytes} {c : Command L} (hp : Command.parse line = .ok c) :
    commandOn line = some c := by
  simp [commandOn, hp, Except.toOption]

/-- C48. After a message was handed over, whatever was decided about it, no transaction is open. -/
theorem c48_closed_after_message (C : Config L S U) (fuel : Nat) (line : Bytes) (w w' : World L S U)
    (h : handleLine C fuel line w = (.ok (), w')) (evs : List (Ev L)) (ht : w'.trace = w.trace ++ evs)
    (m : MailMeta L) (hm : Ev.handleMail m ∈ evs) : w'.mail = none := by
  obtain ⟨evs', b, st', b', hex, hs, ht'⟩ := line_ok h
  rw [ht'] at ht
  obtain rfl : evs' = evs := List.append_cancel_left ht
  generalize hc : (commandOn line : Option (Command L)) = c at hex
  generalize SState.mk w.cfg w.conn w.mail = st at hex
  rw [hs]
  cases hex <;> simp at hm
  rfl

/-- C48. A transaction that `filter_data` refuses stays open, with the envelope the filter left. -/
theorem c48_data_refused (C : Config L S U) (fuel : Nat) (line : Bytes) (w w' : World L S U)
    (m m' : MailMeta L) (r : Refusal) (s' : S) (u' : U) (hp : Command.parse line = .ok (.data : Command L))
    (hm : w.mail = some m) (hto : m.to ≠ []) (hf : C.filterData w.cfg w.conn m = (.reject r, m', s', u'))
    (h : handleLine C fuel line w = (.ok (), w')) :
    w'.mail = some m' ∧ w'.trace = w.trace ++ [.filterData m m' (.reject r), .reply (r.code, r.msg)] := by
  obtain ⟨evs, b, st', b', hex, hs, ht⟩ := line_ok h
  rw [commandOn_ok hp, hm] at hex
  rw [hs]
  cases hex with
  | unimplemented hc => simp [Implemented] at hc
  | dataNoRcpt => exact absurd rfl hto
  | dataRefused _ hf' =>
    rw [hf] at hf'
    simp at hf'
    obtain ⟨rfl, rfl, rfl, rfl⟩ := hf'
    exact ⟨rfl, ht⟩
  | dataHandled _ hf' _ => rw [hf] at hf'; simp at hf'

/-- C48. A transaction with a refused recipient stays open, with the envelope the filter left. -/
theorem c48_rcpt_refused (C : Config L S U) (fuel : Nat) (line : Bytes) (w w' : World L S U) (t : Email L)
    (p : Params) (t' : Email L) (m m' : MailMeta L) (r : Refusal) (s' : S) (u' : U) (hp : Command.parse line = .ok (.rcpt t p))
    (hm : w.mail = some m) (hf : C.filterTo w.cfg w.conn t m = (.reject r, t', m', s', u'))
    (h : handleLine C fuel line w = (.ok (), w')) :
    w'.mail = some m' ∧ w'.trace = w.trace ++ [.filterTo t t' m m' (.reject r), .reply (r.code, r.msg)] := by
  obtain ⟨evs, b, st', b', hex, hs, ht⟩ := line_ok h
  rw [commandOn_ok hp, hm] at hex
  rw [hs]
  cases hex with
  | unimplemented hc => simp [Implemented] at hc
  | rcptAccepted hf' => rw [hf] at hf'; simp at hf'
  | rcptRefused hf' =>
    rw [hf] at hf'
    simp at hf'
    obtain ⟨rfl, rfl, rfl, rfl, rfl⟩ := hf'
    exact ⟨rfl, ht⟩

/-- C48. The only line that closes a transaction is one that hands over its message. -/
theorem c48_closed_only_by_message (C : Config L S U) (fuel : Nat) (line : Bytes) (w w' : World L S U)
    (h : handleLine C fuel line w = (.ok (), w')) (m : MailMeta L) (hm : w.mail = some m) (hn : w'.mail = none) :
    ∃ m' d evs, w'.trace = w.trace ++ evs ∧ Ev.handleMail m' ∈ evs ∧ Ev.handled d ∈ evs := by
  obtain ⟨evs, b, st', b', hex, hs, ht⟩ := line_ok h
  generalize hc : (commandOn line : Option (Command L)) = c at hex
  rw [hm] at hex
  rw [hn] at hs
  cases hex <;> simp at hs
  case dataHandled m' s' u' d s'' u'' h1 h2 h3 => exact ⟨m', d, _, ht, by simp, by simp⟩

/-! ### C46 -/

private theorem exchange_block {C : Config L S U} {H : Handling L S U} {cmd st b evs st' b'} (l : Bytes)
    (h : Exchange C H cmd st b evs st' b') : Block C (.line l :: evs) := by
  cases h with
  | unrecognized => exact .simple (mid := []) (by simp)
  | unimplemented _ => exact .simple (mid := []) (by simp)
  | mailAgain => exact .simple (mid := []) (by simp)
  | mailAccepted _ => exact .simple (mid := [.newMail, .filterFrom _ _ _]) (by simp [IsCheck])
  | mailRefused _ => exact .simple (mid := [.newMail, .filterFrom _ _ _]) (by simp [IsCheck])
  | rcptEarly => exact .simple (mid := []) (by simp)
  | rcptAccepted _ => exact .simple (mid := [.filterTo _ _ _ _ _]) (by simp [IsCheck])
  | rcptRefused _ => exact .simple (mid := [.filterTo _ _ _ _ _]) (by simp [IsCheck])
  | dataEarly => exact .simple (mid := []) (by simp)
  | dataNoRcpt => exact .simple (mid := []) (by simp)
  | dataRefused _ _ => exact .simple (mid := [.filterData _ _ _]) (by simp [IsCheck])
  | dataHandled _ _ _ => exact .message

private theorem dialogue_blocks {C : Config L S U} {H : Handling L S U} {st b evs st' b'}
    (h : Dialogue C H st b evs st' b') : ∃ blocks : List (List (Ev L)), evs = blocks.flatten ∧ ∀ x ∈ blocks, Block C x := by
  induction h with
  | nil => exact ⟨[], rfl, by simp⟩
  | cons h1 h2 h3 ih =>
    obtain ⟨bs, e, hb⟩ := ih
    refine ⟨_ :: bs, by rw [List.flatten_cons, ← e], ?_⟩
    intro x hx
    rcases List.mem_cons.1 hx with rfl | hx
    · exact exchange_block _ h2
    · exact hb x hx

/-- C46. At every point a session consists of the banner and then, for each line read, one block with exactly one
final reply at its end (a message also has the intermediate reply); only the last block may still be open. A
session that ended normally has no open block. -/
theorem c46_blocks (C : Config L S U) (fuel : Nat) (incoming : List (SrcEv Bytes)) (outgoing : BSink)
    (s : S) (u : U) (r : Res Unit) (w : World L S U) (h : interact C fuel incoming outgoing s u = (r, w)) :
    (r ≠ .ok () ∧ ∀ x, Ev.reply x ∉ w.trace) ∨
    ∃ (blocks : List (List (Ev L))) (part : List (Ev L)),
      w.trace = .reply (C.welcomeBanner s) :: blocks.flatten ++ part ++ (if r = .err then [.writeError] else []) ∧
      (∀ x ∈ blocks, Block C x) ∧ (part = [] ∨ ∃ e rest, Block C (part ++ e :: rest)) ∧ (r = .ok () → part = []) := by
  have herr : (errEv r : List (Ev L)) = if r = .err then [.writeError] else [] := by cases r <;> simp [errEv]
  have := interact_out C fuel incoming outgoing s u
  rw [h] at this
  dsimp only at this
  cases this with
  | ok j1 j2 j3 j4 =>
    right
    obtain ⟨bs, e, hb⟩ := dialogue_blocks j2
    exact ⟨bs, [], by simp [j1, e], hb, .inl rfl, fun _ => rfl⟩
  | rounds j1 j2 j3 j4 =>
    right
    obtain ⟨bs, e, hb⟩ := dialogue_blocks j2
    exact ⟨bs, [], by simp [j1, e], hb, .inl rfl, fun _ => rfl⟩
  | banner j1 _ j2 j3 j4 =>
    left
    refine ⟨j2.not_ok (), ?_⟩
    intro x
    rw [j1]
    cases r <;> simp [errEv]
  | @cut _ _ evs1 st1 l t evs e rest st' b' new j1 j2 j3 j4 j8 j5 j6 j7 =>
    right
    obtain ⟨bs, eb, hb⟩ := dialogue_blocks j2
    refine ⟨bs, .line (l ++ crlf) :: evs, by rw [← herr, ← eb, j1]; simp, hb, .inr ⟨e, rest, ?_⟩,
      fun hr => absurd hr (j5.not_ok ())⟩
    exact exchange_block _ j4

private theorem outputOf_eq (evs : List (Ev L)) : outputOf evs = (repliesOf evs).flatMap wire := by
  induction evs with
  | nil => rfl
  | cons e evs ih =>
    cases e <;> simp [outputOf, repliesOf] <;> simpa [outputOf] using ih

private theorem outputOf_errEv (r : Res Unit) : outputOf (errEv r : List (Ev L)) = [] := by
  cases r <;> simp [errEv, outputOf]

/-- C46. What is on the wire is what was there before and the lines of the replies of the record, in order; after
a panic or a write error possibly more. -/
theorem c46_output (C : Config L S U) (fuel : Nat) (incoming : List (SrcEv Bytes)) (outgoing : BSink)
    (s : S) (u : U) (r : Res Unit) (w : World L S U) (h : interact C fuel incoming outgoing s u = (r, w)) :
    ∃ new, w.writer.out = outgoing.out ++ (repliesOf w.trace).flatMap wire ++ new ∧ (r = .ok () → new = []) := by
  have := interact_out C fuel incoming outgoing s u
  rw [h] at this
  dsimp only at this
  rw [← outputOf_eq]
  cases this with
  | ok j1 j2 j3 j4 => exact ⟨[], by simp [j4], fun _ => rfl⟩
  | rounds j1 j2 j3 j4 => exact ⟨[], by simp [j4], fun _ => rfl⟩
  | @banner _ _ new j1 _ j2 j3 j4 =>
    exact ⟨new, by rw [j3, j1, outputOf_errEv]; simp, fun hr => absurd hr (j2.not_ok ())⟩
  | @cut _ _ evs1 st1 l t evs e rest st' b' new j1 j2 j3 j4 j8 j5 j6 j7 =>
    refine ⟨new, ?_, fun hr => absurd hr (j5.not_ok ())⟩
    rw [j6, j1, outputOf_append _ (errEv r), outputOf_errEv, List.append_nil]

/-- C46. After a write error, what may have been written beyond the complete replies is the first lines of the
next reply due. -/
theorem c46_output_error (C : Config L S U) (fuel : Nat) (incoming : List (SrcEv Bytes)) (outgoing : BSink)
    (s : S) (u : U) (w : World L S U) (h : interact C fuel incoming outgoing s u = (.err, w)) :
    ∃ new x, w.writer.out = outgoing.out ++ (repliesOf w.trace).flatMap wire ++ new ∧
      (Sendable x → new <+: wire x) ∧
      ((w.trace = [.writeError] ∧ x = C.welcomeBanner s) ∨
       ∃ (blocks : List (List (Ev L))) (part rest : List (Ev L)),
        w.trace = .reply (C.welcomeBanner s) :: blocks.flatten ++ part ++ [.writeError] ∧
        (∀ y ∈ blocks, Block C y) ∧ Block C (part ++ .reply x :: rest)) := by
  have := interact_out C fuel incoming outgoing s u
  rw [h] at this
  dsimp only at this
  rw [← outputOf_eq]
  cases this with
  | @banner _ _ new j1 _ j2 j3 j4 =>
    exact ⟨new, _, by rw [j3, j1, outputOf_errEv]; simp, j4 rfl, .inl ⟨j1, rfl⟩⟩
  | @cut _ _ evs1 st1 l t evs e rest st' b' new j1 j2 j3 j4 j8 j5 j6 j7 =>
    obtain ⟨bs, eb, hb⟩ := dialogue_blocks j2
    cases j5 with
    | write =>
      rename_i rp
      refine ⟨new, rp, ?_, j7 rfl rp rfl, .inr ⟨bs, .line (l ++ crlf) :: evs, rest, ?_, hb, exchange_block _ j4⟩⟩
      · rw [j6, j1, outputOf_append _ (errEv .err), outputOf_errEv, List.append_nil]
      · rw [j1, eb]; simp [errEv]

/-- C46, on the wire: a sendable reply becomes the lines RFC 5321 asks for. -/
theorem c46_wire (r : Reply) (hs : Sendable r) (hc : r.1.code < 1000) :
    ReplyOnWire r.1.code.toNat r.2 (wire r) := by
  obtain ⟨ls, h1, h2, h3, h4, h5⟩ := c25_lines r.1 r.2 hs
  rw [wire, h1, Option.getD_some, ← h2]
  clear h1 h2
  induction ls with
  | nil => exact .nothing
  | cons l ls ih =>
    obtain ⟨k1, k2, k3⟩ := h3 l (by simp)
    have hw := (c18_wire_form _ _ _ _ k2 hc).1
    have hlen := ((c17_build_ok _ _ _ _).1 k2).1.1
    cases ls with
    | nil =>
      have := h5 l (by simp)
      rw [this] at hw
      simpa using ReplyOnWire.last k3 hlen hw
    | cons l2 ls =>
      obtain ⟨e1, e2⟩ := h4 l (by simp)
      rw [e1] at hw
      have ih := ih (fun x hx => h3 x (by simp [hx])) (fun x hx => h4 x (by simp; right; simpa using hx))
        (fun x hx => h5 x (by simpa using hx))
      refine ReplyOnWire.more e2 hw ?_ ih
      have := (h3 l2 (by simp)).2.2
      simp [this]

/-! ### C49 -/

private theorem exchange_no_error {C : Config L S U} {H : Handling L S U} {cmd st b evs st' b'}
    (h : Exchange C H cmd st b evs st' b') : Ev.writeError ∉ evs := by
  cases h <;> simp

private theorem exchange_no_line {C : Config L S U} {H : Handling L S U} {cmd st b evs st' b'}
    (h : Exchange C H cmd st b evs st' b') (x : Bytes) : Ev.line x ∉ evs := by
  cases h <;> simp

private theorem dialogue_no_error {C : Config L S U} {H : Handling L S U} {st b evs st' b'}
    (h : Dialogue C H st b evs st' b') : Ev.writeError ∉ evs := by
  induction h with
  | nil => simp
  | cons h1 h2 h3 ih =>
    have := exchange_no_error h2
    simp [this, ih]


/-- C25. What the server hands to its connection for a reply that goes through: exactly the lines for its code and
text, whatever the state. -/
theorem c25_sent (r : Reply) (hc : r.1.code < 1000) (w w' : World L S U) (h : Server.sendReply r w = (.ok (), w')) :
    ∃ lines, ReplyOnWire r.1.code.toNat r.2 lines ∧ w'.writer.out = w.writer.out ++ lines ∧
      w'.trace = w.trace ++ [.reply r] := by
  rcases sendReply_cases r w with ⟨wr, h1, h2, h3⟩ | ⟨wr, new, h1, _⟩ | ⟨wr, _, h1⟩
  · rw [h] at h2
    simp only [Prod.mk.injEq, true_and] at h2
    subst h2
    exact ⟨_, c46_wire r h1 hc, h3, rfl⟩
  · rw [h] at h1; simp at h1
  · rw [h] at h1; simp at h1

/-- C25. The server panics over a reply exactly when its text holds a byte that may not be sent and the connection
takes the lines before it. -/
theorem c25_server_panics (r : Reply) (w : World L S U) (hw : ∀ o ∈ w.writer.plan, o = .ok) :
    ((∃ b ∈ r.2, ¬ TextByte b) → (Server.sendReply r w).1 = .panic .buildUnwrap) ∧
    ((∀ b ∈ r.2, TextByte b) → (Server.sendReply r w).1 = .ok ()) := by
  have herr : (Server.sendReply r w).1 ≠ .err := by
    intro he
    rcases stops_sendReply r w with ⟨h, _⟩ | ⟨_, oks, o, h1, _, h2⟩
    · exact h he
    · exact h2 (hw o (by rw [h1]; simp))
  rcases sendReply_cases r w with ⟨wr, h1, h2, h3⟩ | ⟨wr, new, h1, _⟩ | ⟨wr, h0, h1⟩
  · rw [h2]
    exact ⟨fun ⟨b, hb, hn⟩ => absurd (h1 b hb) hn, fun _ => rfl⟩
  · rw [h1] at herr; exact absurd rfl herr
  · rw [h1]
    exact ⟨fun _ => rfl, fun h => absurd h h0⟩

/-- C49. A write error is the last event of its session, and the session returns it; and a session that returns
an error met one. -/
theorem c49_error_is_last (C : Config L S U) (fuel : Nat) (incoming : List (SrcEv Bytes)) (outgoing : BSink)
    (s : S) (u : U) (r : Res Unit) (w : World L S U) (h : interact C fuel incoming outgoing s u = (r, w)) :
    (∀ pre post, w.trace = pre ++ .writeError :: post → post = [] ∧ r = .err) ∧
    (r = .err → ∃ pre, w.trace = pre ++ [.writeError] ∧ Ev.writeError ∉ pre) := by
  have key : ∃ pre, w.trace = pre ++ errEv r ∧ Ev.writeError ∉ pre := by
    rcases trace_shape C fuel incoming outgoing s u h with ⟨h1, _⟩ | ⟨evs, rest, st, b, h1, h2, _, h4⟩
    · exact ⟨[], h1, by simp⟩
    · have := dialogue_no_error h2
      refine ⟨_, h1, ?_⟩
      simp at this ⊢
      exact this.1
  obtain ⟨pre, h1, h2⟩ := key
  constructor
  · intro pre' post ht
    rw [h1] at ht
    cases r with
    | err =>
      simp only [errEv] at ht
      rcases List.append_eq_append_iff.1 ht with ⟨c, rfl, hc⟩ | ⟨c, rfl, hc⟩
      · rcases c with _ | ⟨c0, c⟩ <;> simp at hc
        exact ⟨hc.symm ▸ rfl, rfl⟩
      · rcases c with _ | ⟨c0, c⟩
        · simp at hc; exact ⟨hc, rfl⟩
        · simp at hc
          exact absurd (by simp [← hc.1]) h2
    | _ =>
      simp only [errEv, List.append_nil] at ht
      rw [ht] at h2
      simp at h2
  · rintro rfl
    exact ⟨pre, h1, h2⟩

/-- C49. Nothing is written after a failure: all operations of the sink before the failing one succeeded, and it
was the last one used. Otherwise, all operations used succeeded. -/
theorem c49_no_write_after (C : Config L S U) (fuel : Nat) (incoming : List (SrcEv Bytes)) (outgoing : BSink)
    (s : S) (u : U) (r : Res Unit) (w : World L S U) (h : interact C fuel incoming outgoing s u = (r, w)) :
    (r = .err → ∃ oks o, outgoing.plan = oks ++ o :: w.writer.plan ∧ (∀ x ∈ oks, x = .ok) ∧ o ≠ .ok) ∧
    (r ≠ .err → ∃ oks, outgoing.plan = oks ++ w.writer.plan ∧ ∀ x ∈ oks, x = .ok) := by
  have := stops_session (C := C) fuel (start incoming outgoing s u)
  unfold interact at h
  rw [h] at this
  rcases this with ⟨h1, h2⟩ | ⟨h1, h2⟩
  · exact ⟨fun h => absurd h h1, fun _ => h2⟩
  · exact ⟨fun _ => h2, fun h => absurd h1 h⟩

/-- C49. Nothing is read after a failure: the bytes left are those after the last line read, or, if its message had
been handled, after the message. -/
theorem c49_no_read_after (C : Config L S U) (fuel : Nat) (incoming : List (SrcEv Bytes)) (outgoing : BSink)
    (s : S) (u : U) (w : World L S U) (h : interact C fuel incoming outgoing s u = (.err, w)) :
    (w.trace = [.writeError] ∧ w.reader.bytes = evBytes incoming) ∨
    ∃ before st l after evs, w.trace = .reply (C.welcomeBanner s) :: (before ++ .line (l ++ crlf) :: evs) ++ [.writeError] ∧
      Dialogue C (Handles C fuel) ⟨s, u, none⟩ (evBytes incoming) before st (l ++ crlf ++ after) ∧ NoCrlf l ∧
      (∀ x, Ev.line x ∉ evs) ∧
      ((∀ d, Ev.handled d ∉ evs) → w.reader.bytes = after) ∧ w.reader.bytes <:+ after := by
  have := interact_out C fuel incoming outgoing s u
  rw [h] at this
  dsimp only at this
  cases this with
  | @banner _ _ new j1 j0 j2 j3 j4 => exact .inl ⟨j1, j0⟩
  | @cut _ _ evs1 st1 l t evs e rest st' b' new j1 j2 j3 j4 j8 j5 j6 j7 =>
    right
    refine ⟨evs1, st1, l, t, evs, j1, j2, j3, ?_, ?_⟩
    · intro x hx
      exact exchange_no_line j4 x (List.mem_append_left _ hx)
    · rw [j8]
      clear j6 j7 j8 j2
      generalize hc : (commandOn (l ++ crlf) : Option (Command L)) = c at j4
      generalize hx : evs ++ e :: rest = x at j4
      cases j4 with
      | dataHandled k1 k2 k3 =>
        rename_i s0 u0 m m' s' u' d s'' u''
        by_cases hd : Ev.handled d ∈ evs
        · exact ⟨fun hn => absurd hd (hn d), handles_suffix (k3.1 hd)⟩
        · rw [k3.2 hd]
          exact ⟨fun _ => rfl, List.suffix_rfl⟩
      | _ => exact ⟨fun _ => rfl, List.suffix_rfl⟩

/-! ### C50 -/

private theorem runHandler_done {act : List HObs → HAct S U} {n h d dec s u x}
    (hr : runHandler act n h d = .returned dec s u x) : ∃ h', act h' = .done dec s u := by
  induction n generalizing h d with
  | zero => simp [runHandler] at hr
  | succ n ih =>
    unfold runHandler at hr
    split at hr
    · rename_i hd
      simp at hr
      obtain ⟨rfl, rfl, rfl, _⟩ := hr
      exact ⟨h, hd⟩
    · exact ih hr
    · split at hr
      · simp at hr
      · exact ih hr

private theorem exchange_sendable {C : Config L S U} (hs : SendableConfig C) {fuel cmd st b evs rp rest st' b'}
    (h : Exchange C (Upto C fuel evs) cmd st b (evs ++ .reply rp :: rest) st' b') : Sendable rp := by
  have hm : Ev.reply rp ∈ evs ++ .reply rp :: rest := by simp
  generalize hx : evs ++ .reply rp :: rest = x at h hm
  cases h with
  | unrecognized => simp at hm; rw [hm]; exact hs.commandUnrecognized _
  | unimplemented h => simp at hm; rw [hm]; exact hs.commandUnimplemented _
  | mailAgain => simp at hm; rw [hm]; exact hs.alreadyInMail _
  | mailAccepted h => simp at hm; rw [hm]; exact hs.mailOkay _
  | mailRefused h => simp at hm; rw [hm]; exact hs.filterFrom _ _ _ _ _ _ _ h
  | rcptEarly => simp at hm; rw [hm]; exact hs.rcptBeforeMail _
  | rcptAccepted h => simp at hm; rw [hm]; exact hs.rcptOkay _
  | rcptRefused h => simp at hm; rw [hm]; exact hs.filterTo _ _ _ _ _ _ _ _ _ h
  | dataEarly => simp at hm; rw [hm]; exact hs.dataBeforeMail _
  | dataNoRcpt => simp at hm; rw [hm]; exact hs.dataBeforeRcpt _
  | dataRefused h1 h2 => simp at hm; rw [hm]; exact hs.filterData _ _ _ _ _ _ _ h2
  | @dataHandled s u m _ m' s' u' d s'' u'' _ h1 h2 h3 =>
    by_cases hd : Ev.handled d ∈ evs
    · simp at hm
      rcases hm with rfl | rfl
      · exact hs.dataOkay _
      · obtain ⟨rd, x, _, hr, _, _⟩ := h3.1 hd
        cases d with
        | accept => exact hs.mailAccepted _
        | reject r =>
          obtain ⟨h', hh⟩ := runHandler_done hr
          exact hs.handleMail _ _ _ _ _ _ _ hh
    · have : rp = C.dataOkay s' := by
        rcases evs with _ | ⟨e0, evs⟩
        · simp at hx
        · simp at hx
          obtain ⟨rfl, hx⟩ := hx
          rcases evs with _ | ⟨e1, evs⟩
          · simp at hx; exact hx.1
          · simp at hx
            obtain ⟨rfl, hx⟩ := hx
            rcases evs with _ | ⟨e2, evs⟩
            · simp at hx
            · simp at hx
              obtain ⟨rfl, hx⟩ := hx
              rcases evs with _ | ⟨e3, evs⟩
              · simp at hx
              · simp at hx
                obtain ⟨rfl, hx⟩ := hx
                simp at hd
      rw [this]
      exact hs.dataOkay _

private theorem cut_no_panic {C : Config L S U} (hc : ∀ s u m, Conforming (C.handleMail s u m)) {fuel b evs e p}
    (h : Cut C fuel b evs e (.panic p)) : ∃ rp, e = .reply rp ∧ ¬ Sendable rp := by
  cases h with
  | text h => exact ⟨_, rfl, h⟩
  | @handlerPanic _ s u m rd d _ hb hr =>
    exfalso
    obtain ⟨k, d, s', u', x, h1, _⟩ := conforming_run (hc s u m) rd
    have := runHandler_mono (by rw [hr]; simp :
      runHandler (C.handleMail s u m) fuel [] (DStream.new rd) ≠ .running) (fuel + k) (by omega)
    rw [h1, hr] at this
    simp at this
  | @notCompleted _ s u m rd d s1 u1 x1 hb hr hx =>
    exfalso
    obtain ⟨k, d, s', u', x, h1, h2⟩ := conforming_run (hc s u m) rd
    have := runHandler_mono (by rw [hr]; simp :
      runHandler (C.handleMail s u m) fuel [] (DStream.new rd) ≠ .running) (fuel + k) (by omega)
    rw [h1, hr] at this
    simp at this
    rw [this.2.2.2, hx] at h2
    simp at h2

/-- C50. With sendable texts and a handler that reads its message to the end and then completes it, the server
does not panic, whatever it is sent, however it is sent, and whatever the writer does. -/
theorem c50_no_panic (C : Config L S U) (hs : SendableConfig C) (hc : ∀ s u m, Conforming (C.handleMail s u m))
    (fuel : Nat) (incoming : List (SrcEv Bytes)) (outgoing : BSink) (s : S) (u : U) (p : Panic) :
    (interact C fuel incoming outgoing s u).1 ≠ .panic p := by
  intro hp
  have := interact_out C fuel incoming outgoing s u
  rw [hp] at this
  generalize (interact C fuel incoming outgoing s u).2 = w at this
  cases this with
  | banner j1 j0 j2 j3 j4 =>
    obtain ⟨rp, he, hn⟩ := cut_no_panic hc j2
    simp at he
    exact hn (he ▸ hs.welcomeBanner _)
  | cut j1 j2 j3 j4 j8 j5 j6 j7 =>
    obtain ⟨rp, rfl, hn⟩ := cut_no_panic hc j5
    exact hn (exchange_sendable hs j4)

/-! ### C53 -/

/-- C53. If the mail handlers return, so does the session, on every input: from some number of rounds on, the
result is always the same, and it is not "still running". -/
theorem c53_terminates (C : Config L S U) (hR : ∀ s u m, Returns (C.handleMail s u m))
    (incoming : List (SrcEv Bytes)) (outgoing : BSink) (s : S) (u : U) :
    ∃ n0 R, R.1 ≠ .running ∧ ∀ n, n0 ≤ n → interact C n incoming outgoing s u = R :=
  session_settles hR (start incoming outgoing s u)

/-- C53. A session ends normally only when no complete line is left. -/
theorem c53_all_lines (C : Config L S U) (fuel : Nat) (incoming : List (SrcEv Bytes)) (outgoing : BSink)
    (s : S) (u : U) (w : World L S U) (h : interact C fuel incoming outgoing s u = (.ok (), w)) :
    NoCrlf w.reader.bytes := by
  have := interact_out C fuel incoming outgoing s u
  rw [h] at this
  dsimp only at this
  cases this with
  | ok j1 j2 j3 j4 => exact j3
  | banner j1 j0 j2 j3 j4 => exact absurd rfl (j2.not_ok ())
  | cut j1 j2 j3 j4 j8 j5 j6 j7 => exact absurd rfl (j5.not_ok ())

/-- C53. With a conforming configuration, a session whose writer never fails ends normally; and one that does not
end normally met a write failure. -/
theorem c53_ok_iff (C : Config L S U) (hs : SendableConfig C) (hc : ∀ s u m, Conforming (C.handleMail s u m))
    (incoming : List (SrcEv Bytes)) (outgoing : BSink) (s : S) (u : U) :
    ∃ n0 r w, (∀ n, n0 ≤ n → interact C n incoming outgoing s u = (r, w)) ∧
      (r = .ok () ∨ r = .err) ∧ (r = .err ↔ Ev.writeError ∈ w.trace) ∧
      ((∀ o ∈ outgoing.plan, o = .ok) → r = .ok ()) := by
  obtain ⟨n0, ⟨r, w⟩, h1, h2⟩ := c53_terminates C (fun s u m => (hc s u m).returns') incoming outgoing s u
  have h3 := h2 n0 (Nat.le_refl _)
  have hr : r = .ok () ∨ r = .err := by
    cases r with
    | ok a => exact .inl rfl
    | err => exact .inr rfl
    | panic p => exact absurd (by rw [h3]) (c50_no_panic C hs hc n0 incoming outgoing s u p)
    | running => exact absurd rfl h1
  obtain ⟨k1, k2⟩ := c49_error_is_last C n0 incoming outgoing s u r w h3
  refine ⟨n0, r, w, h2, hr, ⟨?_, ?_⟩, ?_⟩
  · intro he
    obtain ⟨pre, hp, _⟩ := k2 he
    rw [hp]; simp
  · intro hm
    obtain ⟨a, b, hab⟩ := List.append_of_mem hm
    exact (k1 a b hab).2
  · intro hall
    rcases hr with hr | hr
    · exact hr
    · exfalso
      obtain ⟨oks, o, e1, e2, e3⟩ := (c49_no_write_after C n0 incoming outgoing s u r w h3).1 hr
      exact e3 (hall o (by rw [e1]; simp))

/-- C42, C53. Put together: for a configuration that looks at messages as a whole, a server whose writer never
fails does exactly what the specification says, and nothing else, on every input. -/
theorem c42_total (C : Config L S U) (V : Verdict L S U) (hs : SendableConfig C)
    (hV : ∀ s u m, WholeMessage (C.handleMail s u m) (V s u m)) (incoming : List (SrcEv Bytes)) (outgoing : BSink)
    (hw : ∀ o ∈ outgoing.plan, o = .ok) (s : S) (u : U) :
    ∃ n0 w, (∀ n, n0 ≤ n → interact C n incoming outgoing s u = (.ok (), w)) ∧
      (∀ tr st, CompleteSession C (ByText V) s u (evBytes incoming) tr st ↔
        tr = w.trace ∧ st = ⟨w.cfg, w.conn, w.mail⟩) ∧
      w.writer.out = outgoing.out ++ (repliesOf w.trace).flatMap wire := by
  obtain ⟨n0, r, w, h1, _, _, h2⟩ := c53_ok_iff C hs (fun s u m => (hV s u m).conforming) incoming outgoing s u
  obtain rfl := h2 hw
  have h3 := h1 n0 (Nat.le_refl _)
  have href := c42_reference C V hV n0 incoming outgoing s u w h3
  refine ⟨n0, w, h1, ?_, ?_⟩
  · intro tr st
    constructor
    · intro h
      exact c42_reference_unique C V s u _ _ _ _ _ h href
    · rintro ⟨rfl, rfl⟩
      exact href
  · obtain ⟨new, e1, e2⟩ := c46_output C n0 incoming outgoing s u (.ok ()) w h3
    rw [e1, e2 rfl, List.append_nil]

end Verif
