import Verif.Model.TestConfig
import Verif.Props.Addresses
import Verif.Props.SessionExamples
/-
C74: sessions with the configuration of the project's own tests, on every input. C75: the project's session tests
themselves, for every way the input may be cut into packets.
-/
namespace Verif
open Spec Server
variable {L : IpLib}

/-! ### Specification -/
namespace Spec

/-- The banned sender of the tests. -/
def bannedSender (L : IpLib) : Email L := ⟨b!"bad", some (.host b!"quux.example.org")⟩

/-- `text` is the decoded text of a complete message that follows a DATA line in `raw`. -/
def ReceivedText (L : IpLib) (raw text : Bytes) : Prop :=
  ∃ before line after ls rest, raw = before ++ line ++ after ∧ (commandOn line : Option (Command L)) = some .data ∧
    IsMessage after ls rest ∧ text = decodedLines ls

/-- The number of messages a record shows as accepted by the mail handler. -/
def acceptedMessages : List (Ev L) → Nat
  | [] => 0
  | .handled .accept :: evs => acceptedMessages evs + 1
  | _ :: evs => acceptedMessages evs

/-- What the tests' configuration may store. -/
structure Storable (raw : Bytes) (x : Option (Email L) × List (Email L) × Bytes) : Prop where
  sender : x.1 ≠ some (bannedSender L)
  recipients : x.2.1 ≠ []
  noBaz : ∀ t ∈ x.2.1, t.localpartFn ≠ some b!"baz"
  text : ReceivedText L raw x.2.2
  noWorld : ¬ b!"World" <:+: x.2.2

end Spec

/-! ### The configuration conforms -/

theorem concatOf_eq (h : List HObs) : concatOf h = textOf h := by
  induction h with
  | nil => rfl
  | cons o h ih =>
    cases o with
    | completed ok => simpa [concatOf, textOf] using ih
    | polled r =>
      cases r with
      | pending => simpa [concatOf, textOf] using ih
      | ready x => cases x <;> simp [concatOf, textOf, ih]

theorem textOf_append (a b : List HObs) : textOf (a ++ b) = textOf a ++ textOf b := by
  induction a with
  | nil => rfl
  | cons o h ih =>
    cases o with
    | completed ok => simpa [textOf] using ih
    | polled r =>
      cases r with
      | pending => simpa [textOf] using ih
      | ready x => cases x <;> simp [textOf, ih]

/-- The decision of the tests' configuration about a message. -/
def testVerdict (L : IpLib) : Verdict L (MailBox L) Unit := fun box _ m text ok =>
  if ok then
    if saysWorld text then (.reject ⟨⟨550⟩, b!"Don't you dare say 'World'!"⟩, box, ())
    else (.accept, box ++ [(m.from_, m.to, text)], ())
  else (.reject ⟨⟨503⟩, b!"Closed the channel before end of message"⟩, box, ())

theorem test_whole (s : MailBox L) (u : Unit) (m : MailMeta L) :
    WholeMessage ((testConfig L).handleMail s u m) (testVerdict L s u m) where
  reads h hh := by
    show testHandle s m h = .poll
    unfold testHandle
    split
    · rename_i ho
      obtain ⟨r, h1, _⟩ := hh _ (List.mem_of_getLast? ho)
      simp at h1
    · rename_i ho
      obtain ⟨r, h1, _⟩ := hh _ (List.mem_of_getLast? ho)
      simp at h1
    · rename_i ho
      obtain ⟨r, h1, h2⟩ := hh _ (List.mem_of_getLast? ho)
      simp at h1
      exact absurd h1.symm h2
    · rfl
  completes h _ := by
    show testHandle s m _ = .complete
    simp [testHandle]
  returns h ok _ := by
    show testHandle s m _ = _
    have e : textOf (h ++ [.polled (.ready none)] ++ [.completed ok]) = textOf h := by
      rw [textOf_append, textOf_append]; simp [textOf]
    unfold testHandle
    rw [concatOf_eq, e]
    cases ok
    · simp [testVerdict]
    · cases hw : saysWorld (textOf h) <;> simp [testVerdict, hw]

theorem saysWorld_iff (t : Bytes) : saysWorld t = true ↔ b!"World" <:+: t := by
  induction t with
  | nil => simp [saysWorld]
  | cons c r ih =>
    rw [saysWorld, Bool.or_eq_true, ih, List.infix_cons_iff]
    constructor
    · rintro (h | h)
      · left
        simp only [decide_eq_true_eq] at h
        exact List.prefix_iff_eq_take.2 h.symm
      · exact .inr h
    · rintro (h | h)
      · left
        simp only [decide_eq_true_eq]
        exact (List.prefix_iff_eq_take.1 h).symm
      · exact .inr h

theorem test_sendable : SendableConfig (testConfig L) := by
  apply c55_sendable
  · intro s b hb
    revert b
    show ∀ b ∈ b!"test.example.org", TextByte b
    decide +kernel
  · intro s u f r f' s' u' h
    simp only [testRequired, Prod.mk.injEq] at h
    obtain ⟨h, _⟩ := h
    split at h
    · cases h
      show ∀ b ∈ b!"User 'bad' banned", TextByte b
      decide +kernel
    · cases h
  · intro s u f r m t' m' s' u' h
    simp only [testRequired, Prod.mk.injEq] at h
    obtain ⟨h, _⟩ := h
    split at h
    · cases h
      show ∀ b ∈ b!"No user 'baz'", TextByte b
      decide +kernel
    · cases h
  · intro s u m h r s' u' hh
    change testHandle s m h = _ at hh
    unfold testHandle at hh
    split at hh
    · cases hh
      show ∀ b ∈ b!"Closed the channel before end of message", TextByte b
      decide +kernel
    · split at hh
      · cases hh
        show ∀ b ∈ b!"Don't you dare say 'World'!", TextByte b
        decide +kernel
      · cases hh
    · cases hh
    · cases hh

theorem isBadSender_iff (a : Option (Email L)) : isBadSender a = true ↔ a = some (bannedSender L) := by
  unfold isBadSender bannedSender
  split
  · simp
  · rename_i h
    constructor
    · simp
    · rintro rfl
      exact absurd rfl (h _ _)

/-! ### C74 -/

/-- C74. A session with this configuration never panics, always comes to an end, and ends normally if the connection
takes every reply. -/
theorem c74_ends (incoming : List (SrcEv Bytes)) (outgoing : BSink) (box : MailBox L) :
    (∀ fuel p, (interact (testConfig L) fuel incoming outgoing box ()).1 ≠ .panic p) ∧
    ∃ n0 r w, (∀ n, n0 ≤ n → interact (testConfig L) n incoming outgoing box () = (r, w)) ∧ (r = .ok () ∨ r = .err) ∧
      ((∀ o ∈ outgoing.plan, o = .ok) → r = .ok ()) := by
  have hc : ∀ s u m, Conforming ((testConfig L).handleMail s u m) := fun s u m => (test_whole s u m).conforming
  refine ⟨fun fuel p => c50_no_panic _ test_sendable hc fuel incoming outgoing box () p, ?_⟩
  obtain ⟨n0, r, w, h1, h2, _, h3⟩ := c53_ok_iff (testConfig L) test_sendable hc incoming outgoing box ()
  exact ⟨n0, r, w, h1, h2, h3⟩

/-- C74. Nor does its own call of `localpart()` panic. -/
theorem c74_localpart (hL : IpLaws L) (fuel : Nat) (incoming : List (SrcEv Bytes)) (outgoing : BSink) (box : MailBox L)
    (t t' : Email L) (m m' : MailMeta L) (d : Decision)
    (h : Ev.filterTo t t' m m' d ∈ (interact (testConfig L) fuel incoming outgoing box ()).2.trace) :
    t.localpartFn ≠ none := by
  obtain ⟨_, c, h, _⟩ := c73_wellformed hL _ fuel incoming outgoing box () t (.inr ⟨_, _, _, _, h⟩)
  rw [h]; simp

/-- The open transaction is one the filters let pass. -/
def Passed (m : Option (MailMeta L)) : Prop :=
  ∀ x, m = some x → x.from_ ≠ some (bannedSender L) ∧ ∀ t ∈ x.to, t.localpartFn ≠ some b!"baz"

theorem exchange_box {raw before l : Bytes} {st st1 : SState L (MailBox L) Unit} {t evs b1}
    (h : Exchange (testConfig L) (ByText (testVerdict L)) (commandOn l) st t evs st1 b1)
    (hraw : raw = before ++ l ++ t) (hp : Passed st.mail) :
    Passed st1.mail ∧ (∃ before', raw = before' ++ b1) ∧ ∃ new, st1.cfg = st.cfg ++ new ∧
      new.length = acceptedMessages evs ∧ ∀ x ∈ new, Storable raw x := by
  have stay : ∀ b, raw = before ++ l ++ b → ∃ before', raw = before' ++ b := fun b h => ⟨_, h⟩
  generalize hc : (commandOn l : Option (Command L)) = c at h
  have none_ : Passed (none : Option (MailMeta L)) := by intro x hx; cases hx
  cases h with
  | unrecognized | unimplemented _ | mailAgain | rcptEarly | dataEarly | dataNoRcpt =>
    exact ⟨hp, stay _ hraw, [], by simp, by simp [acceptedMessages], by simp⟩
  | mailAccepted h =>
    simp only [Required.toConfig, testRequired, Prod.mk.injEq] at h
    obtain ⟨h, rfl, rfl, _⟩ := h
    refine ⟨?_, stay _ hraw, [], by simp, by simp [acceptedMessages], by simp⟩
    intro x hx
    cases hx
    refine ⟨?_, by simp⟩
    intro hb
    have hb := (isBadSender_iff _).2 hb
    dsimp only at hb
    simp [hb] at h
  | mailRefused h =>
    simp only [Required.toConfig, testRequired, Prod.mk.injEq] at h
    obtain ⟨_, rfl, rfl, _⟩ := h
    exact ⟨none_, stay _ hraw, [], by simp, by simp [acceptedMessages], by simp⟩
  | rcptAccepted h =>
    simp only [Required.toConfig, testRequired, Prod.mk.injEq] at h
    obtain ⟨h, rfl, rfl, rfl, _⟩ := h
    refine ⟨?_, stay _ hraw, [], by simp, by simp [acceptedMessages], by simp⟩
    intro x hx
    cases hx
    obtain ⟨h1, h2⟩ := hp _ rfl
    refine ⟨h1, ?_⟩
    intro t ht
    rcases List.mem_append.1 ht with ht | ht
    · exact h2 t ht
    · simp at ht
      subst ht
      intro hb
      simp [hb] at h
  | rcptRefused h =>
    simp only [Required.toConfig, testRequired, Prod.mk.injEq] at h
    obtain ⟨h, rfl, rfl, rfl, _⟩ := h
    exact ⟨hp, stay _ hraw, [], by simp, by simp [acceptedMessages], by simp⟩
  | dataRefused _ h => simp [Required.toConfig] at h
  | dataHandled hto h hH =>
    simp only [Required.toConfig, Prod.mk.injEq] at h
    obtain ⟨_, rfl, rfl, _⟩ := h
    obtain ⟨h1, h2⟩ := hp _ rfl
    rcases hH with ⟨ls, hm, hv⟩ | ⟨ls, part, hm, rfl, hv⟩
    · have hrest := hm.1
      have hpos : ∃ before', raw = before' ++ b1 := ⟨before ++ l ++ (linesBytes ls ++ b!".\r\n"), by
        rw [hraw, hrest]; simp⟩
      simp only [testVerdict, if_true] at hv
      split at hv
      · cases hv
        exact ⟨none_, hpos, [], by simp, by simp [acceptedMessages], by simp⟩
      · rename_i hw
        simp only [Prod.mk.injEq] at hv
        obtain ⟨rfl, rfl, _⟩ := hv
        refine ⟨none_, hpos, [_], rfl, by simp [acceptedMessages], ?_⟩
        intro x hx
        simp only [List.mem_singleton] at hx
        subst hx
        refine ⟨h1, hto, h2, ⟨before, l, _, ls, _, hraw, hc, hm, rfl⟩, ?_⟩
        rw [← saysWorld_iff]
        exact hw
    · simp only [testVerdict] at hv
      cases hv
      exact ⟨none_, ⟨raw, by simp⟩, [], by simp, by simp [acceptedMessages], by simp⟩

theorem acceptedMessages_append (a b : List (Ev L)) :
    acceptedMessages (a ++ b) = acceptedMessages a + acceptedMessages b := by
  induction a with
  | nil => simp [acceptedMessages]
  | cons e a ih =>
    cases e with
    | handled d =>
      cases d with
      | accept => simp only [List.cons_append, acceptedMessages, ih]; omega
      | reject r => simpa [acceptedMessages] using ih
    | _ => simpa [acceptedMessages] using ih

theorem dialogue_box {raw : Bytes} {st st' : SState L (MailBox L) Unit} {b evs b'}
    (h : Dialogue (testConfig L) (ByText (testVerdict L)) st b evs st' b') :
    ∀ before, raw = before ++ b → Passed st.mail →
    Passed st'.mail ∧ (∃ before', raw = before' ++ b') ∧
    ∃ new, st'.cfg = st.cfg ++ new ∧ new.length = acceptedMessages evs ∧ ∀ x ∈ new, Storable raw x := by
  induction h with
  | nil => intro before h hp; exact ⟨hp, ⟨before, h⟩, [], by simp, by simp [acceptedMessages], by simp⟩
  | @cons st l t evs st1 b1 evs' st2 b2 hl hx _ ih =>
    intro before hraw hp
    obtain ⟨hp1, ⟨before', hraw'⟩, new, e1, e2, e3⟩ :=
      exchange_box (raw := raw) (before := before) hx (by rw [hraw]; simp) hp
    obtain ⟨hp2, hb2, new', f1, f2, f3⟩ := ih before' hraw' hp1
    refine ⟨hp2, hb2, new ++ new', by rw [f1, e1]; simp, ?_, ?_⟩
    · have : acceptedMessages (.line (l ++ crlf) :: evs ++ evs') = acceptedMessages evs + acceptedMessages evs' := by
        rw [List.cons_append, acceptedMessages, acceptedMessages_append]
        intro h; cases h
      rw [this]; simp [e2, f2]
    · intro x hx
      rcases List.mem_append.1 hx with hx | hx
      · exact e3 x hx
      · exact f3 x hx

/-- C74. After a session the mailbox holds what it held before and one message for each one accepted; each of them came
in after a DATA line, has a sender and recipients the filters let pass, and its text, decoded, does not say "World". -/
theorem c74_mailbox (fuel : Nat) (incoming : List (SrcEv Bytes)) (outgoing : BSink) (box : MailBox L)
    (w : World L (MailBox L) Unit) (h : interact (testConfig L) fuel incoming outgoing box () = (.ok (), w)) :
    ∃ new, w.cfg = box ++ new ∧ new.length = acceptedMessages w.trace ∧ ∀ x ∈ new, Storable (evBytes incoming) x := by
  obtain ⟨evs, left, h1, h2, _⟩ := c42_reference _ _ test_whole fuel incoming outgoing box () w h
  obtain ⟨_, _, new, e1, e2, e3⟩ := dialogue_box (raw := evBytes incoming) h2 [] rfl (by intro x hx; cases hx)
  refine ⟨new, e1, ?_, e3⟩
  rw [h1]
  rw [acceptedMessages]
  · exact e2
  · intro h; cases h

/-! ### C75 -/

/-- The mails as the tests compare them (interact.rs:378-397): addresses in the form `from_sendable` gives. -/
def shownMails (box : MailBox L) : List (Option Bytes × List Bytes × Bytes) :=
  box.map fun x => (x.1.map Email.sendTo, x.2.1.map Email.sendTo, x.2.2)

/-- The addresses of the standard library. -/
abbrev SuiteIp : IpLib := Ip.stdIp 1

/-- One run of the tests' loop (interact.rs:352-399), with the input in one packet. -/
def suiteRun (inp out : Bytes) (mails : List (Option Bytes × List Bytes × Bytes)) : Bool :=
  match interact (testConfig SuiteIp) 30 [.pkt inp] ⟨[], []⟩ [] () with
  | (.ok (), w) => w.writer.out.flatten = out && shownMails w.cfg = mails
  | _ => false

/-- However the client's bytes arrive, the server ends normally, having sent `out` and stored `mails`. -/
def Expected (inp out : Bytes) (mails : List (Option Bytes × List Bytes × Bytes)) : Prop :=
  ∀ incoming : List (SrcEv Bytes), evBytes incoming = inp →
    ∃ n0 w, (∀ n, n0 ≤ n → interact (testConfig SuiteIp) n incoming ⟨[], []⟩ [] () = (.ok (), w)) ∧
      w.writer.out.flatten = out ∧ shownMails w.cfg = mails

private theorem expected_of_run {inp out mails} (h : suiteRun inp out mails = true) : Expected inp out mails := by
  intro incoming hin
  obtain ⟨n0, r, w, h1, _, h3⟩ := (c74_ends (L := SuiteIp) incoming ⟨[], []⟩ []).2
  obtain rfl := h3 (by simp)
  refine ⟨n0, w, h1, ?_⟩
  unfold suiteRun at h
  split at h
  · rename_i w2 h2
    obtain ⟨_, _, e1, e2, _⟩ := c42_packets (testConfig SuiteIp) (testVerdict SuiteIp) test_whole n0 30 incoming [.pkt inp]
      ⟨[], []⟩ [] () (by simp [hin, evBytes]) _ _ _ _ (h1 n0 (Nat.le_refl _)) h2 (by simp) (by simp)
    rw [e1, e2]
    simpa using h
  · cases h

set_option maxRecDepth 10000 in
/-- C75, interact.rs:266-290. -/
theorem c75_mail : Expected
    b!"MAIL FROM:<>\r\nRCPT TO:<baz@quux.example.org>\r\nRCPT TO:<foo2@bar.example.org>\r\nRCPT TO:<foo3@bar.example.org>\r\nDATA\r\nHello world\r\n.\r\nQUIT\r\n"
    b!"220 test.example.org Service ready\r\n250 Okay\r\n550 No user 'baz'\r\n250 Okay\r\n250 Okay\r\n354 Start mail input; end with <CRLF>.<CRLF>\r\n250 Okay\r\n502 Command not implemented\r\n"
    [(none, [b!"foo2@bar.example.org", b!"foo3@bar.example.org"], b!"Hello world\r\n")] :=
  expected_of_run (by decide +kernel)

set_option maxRecDepth 10000 in
/-- C75, interact.rs:291-308. -/
theorem c75_refused_text : Expected
    b!"MAIL FROM:<test@example.org>\r\nRCPT TO:<foo@example.org>\r\nDATA\r\nHello World\r\n.\r\nQUIT\r\n"
    b!"220 test.example.org Service ready\r\n250 Okay\r\n250 Okay\r\n354 Start mail input; end with <CRLF>.<CRLF>\r\n550 Don't you dare say 'World'!\r\n502 Command not implemented\r\n"
    [] :=
  expected_of_run (by decide +kernel)

set_option maxRecDepth 10000 in
/-- C75, interact.rs:309-314. -/
theorem c75_help : Expected b!"HELP hello\r\n"
    b!"220 test.example.org Service ready\r\n502 Command not implemented\r\n" [] :=
  expected_of_run (by decide +kernel)

set_option maxRecDepth 10000 in
/-- C75, interact.rs:315-340. -/
theorem c75_refused_sender : Expected
    b!"MAIL FROM:<bad@quux.example.org>\r\nMAIL FROM:<foo@bar.example.org>\r\nMAIL FROM:<baz@quux.example.org>\r\nRCPT TO:<foo2@bar.example.org>\r\nDATA\r\nHello\r\n.\r\nQUIT\r\n"
    b!"220 test.example.org Service ready\r\n550 User 'bad' banned\r\n250 Okay\r\n503 Bad sequence of commands\r\n250 Okay\r\n354 Start mail input; end with <CRLF>.<CRLF>\r\n250 Okay\r\n502 Command not implemented\r\n"
    [(some b!"foo@bar.example.org", [b!"foo2@bar.example.org"], b!"Hello\r\n")] :=
  expected_of_run (by decide +kernel)

set_option maxRecDepth 10000 in
/-- C75, interact.rs:341-350. -/
theorem c75_no_recipient : Expected b!"MAIL FROM:<foo@test.example.com>\r\nDATA\r\nQUIT\r\n"
    b!"220 test.example.org Service ready\r\n250 Okay\r\n503 Bad sequence of commands\r\n502 Command not implemented\r\n"
    [] :=
  expected_of_run (by decide +kernel)

set_option maxRecDepth 10000 in
/-- C75, interact.rs:351-357. -/
theorem c75_cut_line : Expected b!"MAIL FROM:<foo@test.example.com>\r\nRCPT TO:<foo@bar.example.org>\r"
    b!"220 test.example.org Service ready\r\n250 Okay\r\n" [] :=
  expected_of_run (by decide +kernel)

set_option maxRecDepth 10000 in
/-- C75, interact.rs:404-416 (`interrupted_data`); the test asks only for a normal end. -/
theorem c75_interrupted : Expected b!"MAIL FROM:foo\r\nRCPT TO:bar\r\nDATA\r\nhello"
    b!"220 test.example.org Service ready\r\n250 Okay\r\n250 Okay\r\n354 Start mail input; end with <CRLF>.<CRLF>\r\n503 Closed the channel before end of message\r\n"
    [] :=
  expected_of_run (by decide +kernel)

/-- The banned sender is the one the tests parse (interact.rs:206). -/
example : (Email.parse b!"bad@quux.example.org" : Except ParseErr (Email SuiteIp)).toOption.map
    (fun e => isBadSender (some e)) = some true := by decide +kernel

/-- C74: a message is stored. -/
example : ∃ n w, interact (testConfig SuiteIp) n [.pkt b!"MAIL FROM:<>\r\n", .pkt b!"RCPT TO:<a@b>\r\nDATA\r\nhi\r\n.\r\n"]
    ⟨[], []⟩ [] () = (.ok (), w) ∧ w.cfg.length = 1 ∧ acceptedMessages w.trace = 1 := by
  obtain ⟨n, w, h1, _, h2⟩ := expected_of_run (inp := b!"MAIL FROM:<>\r\nRCPT TO:<a@b>\r\nDATA\r\nhi\r\n.\r\n")
    (out := b!"220 test.example.org Service ready\r\n250 Okay\r\n250 Okay\r\n354 Start mail input; end with <CRLF>.<CRLF>\r\n250 Okay\r\n")
    (mails := [(none, [b!"a@b"], b!"hi\r\n")]) (by decide +kernel)
    [.pkt b!"MAIL FROM:<>\r\n", .pkt b!"RCPT TO:<a@b>\r\nDATA\r\nhi\r\n.\r\n"] (by decide +kernel)
  have h3 := h1 n (Nat.le_refl _)
  obtain ⟨new, e1, e2, _⟩ := c74_mailbox n _ _ _ w h3
  have hl : w.cfg.length = 1 := by simpa [shownMails] using congrArg List.length h2
  refine ⟨n, w, h3, hl, ?_⟩
  rw [← e2, ← hl, e1]; simp

/-- C73: a filter is called, with the address of the command. -/
example : ∃ n f' d, Ev.filterFrom (some Ex.alice) f' d ∈
    (interact exampleConfig n [.pkt exampleInput] ⟨[], []⟩ () ()).2.trace := by
  obtain ⟨n, w, h, ht⟩ := example_session [.pkt exampleInput] (by simp [evBytes])
  refine ⟨n, some Ex.alice, .accept, ?_⟩
  rw [h, ht]; simp

end Verif
