import Verif.Model.Server
import Verif.Spec.Reply
/-
Independent specification of an SMTP session as this server understands it: what is exchanged for each
command line, in terms of the bytes of the connection, the configuration's callbacks and the replies.
It uses the data types and the event alphabet of the model, and none of its functions but the public
`Command::parse`.
-/
namespace Verif.Spec
variable {L : IpLib} {S U : Type}

/-- What is remembered between two lines: the configuration, the user's connection data, and the envelope
of the open transaction if there is one. -/
structure SState (L : IpLib) (S U : Type) where
  cfg : S
  conn : U
  mail : Option (MailMeta L)

/-- How a message may be treated: from configuration, connection data, envelope and the bytes to come, to a
decision, the new configuration and connection data, and the bytes left. -/
abbrev Handling (L : IpLib) (S U : Type) := S → U → MailMeta L → Bytes → Decision → S → U → Bytes → Prop

/-- A reply whose text can be sent: TAB and printable ASCII only. -/
def Sendable (r : Reply) : Prop := ∀ b ∈ r.2, TextByte b

/-- The final reply for a decision. -/
def answer (okay : Reply) : Decision → Reply
  | .accept => okay
  | .reject r => (r.code, r.msg)

/-- The commands the server has a use for. -/
def Implemented : Command L → Prop
  | .mail _ _ => True
  | .rcpt _ _ => True
  | .data => True
  | _ => False

/-- What happens after a line (`cmd` is the command on it, `none` if it is not one) has been read, the bytes
after the line being `b`: the events, the new state, and the bytes left. -/
inductive Exchange (C : Config L S U) (H : Handling L S U) :
    Option (Command L) → SState L S U → Bytes → List (Ev L) → SState L S U → Bytes → Prop
  | unrecognized {st b} :
      Exchange C H none st b [.reply (C.commandUnrecognized st.cfg)] st b
  | unimplemented {st b c} : ¬ Implemented c →
      Exchange C H (some c) st b [.reply (C.commandUnimplemented st.cfg)] st b
  | mailAgain {s u m b f p} :
      Exchange C H (some (.mail f p)) ⟨s, u, some m⟩ b [.reply (C.alreadyInMail s)] ⟨s, u, some m⟩ b
  | mailAccepted {s u b f p f' s' u'} : C.filterFrom (C.newMail s) u f = (.accept, f', s', u') →
      Exchange C H (some (.mail f p)) ⟨s, u, none⟩ b
        [.newMail, .filterFrom f f' .accept, .reply (C.mailOkay s')] ⟨s', u', some ⟨f', []⟩⟩ b
  | mailRefused {s u b f p f' r s' u'} : C.filterFrom (C.newMail s) u f = (.reject r, f', s', u') →
      Exchange C H (some (.mail f p)) ⟨s, u, none⟩ b
        [.newMail, .filterFrom f f' (.reject r), .reply (r.code, r.msg)] ⟨s', u', none⟩ b
  | rcptEarly {s u b t p} :
      Exchange C H (some (.rcpt t p)) ⟨s, u, none⟩ b [.reply (C.rcptBeforeMail s)] ⟨s, u, none⟩ b
  | rcptAccepted {s u m b t p t' m' s' u'} : C.filterTo s u t m = (.accept, t', m', s', u') →
      Exchange C H (some (.rcpt t p)) ⟨s, u, some m⟩ b
        [.filterTo t t' m m' .accept, .reply (C.rcptOkay s')]
        ⟨s', u', some ⟨m'.from_, m'.to ++ [t']⟩⟩ b
  | rcptRefused {s u m b t p t' m' r s' u'} : C.filterTo s u t m = (.reject r, t', m', s', u') →
      Exchange C H (some (.rcpt t p)) ⟨s, u, some m⟩ b
        [.filterTo t t' m m' (.reject r), .reply (r.code, r.msg)] ⟨s', u', some m'⟩ b
  | dataEarly {s u b} :
      Exchange C H (some .data) ⟨s, u, none⟩ b [.reply (C.dataBeforeMail s)] ⟨s, u, none⟩ b
  | dataNoRcpt {s u f b} :
      Exchange C H (some .data) ⟨s, u, some ⟨f, []⟩⟩ b [.reply (C.dataBeforeRcpt s)] ⟨s, u, some ⟨f, []⟩⟩ b
  | dataRefused {s u m b m' r s' u'} : m.to ≠ [] → C.filterData s u m = (.reject r, m', s', u') →
      Exchange C H (some .data) ⟨s, u, some m⟩ b
        [.filterData m m' (.reject r), .reply (r.code, r.msg)] ⟨s', u', some m'⟩ b
  | dataHandled {s u m b m' s' u' d s'' u'' b'} : m.to ≠ [] →
      C.filterData s u m = (.accept, m', s', u') → H s' u' m' b d s'' u'' b' →
      Exchange C H (some .data) ⟨s, u, some m⟩ b
        [.filterData m m' .accept, .reply (C.dataOkay s'), .handleMail m', .handled d,
          .reply (answer (C.mailAccepted s'') d)]
        ⟨s'', u'', none⟩ b'

/-- The command on a line, if it is one. -/
def commandOn (line : Bytes) : Option (Command L) := (Command.parse line).toOption

/-- A dialogue: any number of complete lines, each read up to its first CRLF and followed by its exchange. -/
inductive Dialogue (C : Config L S U) (H : Handling L S U) :
    SState L S U → Bytes → List (Ev L) → SState L S U → Bytes → Prop
  | nil {st b} : Dialogue C H st b [] st b
  | cons {st l t evs st1 b1 evs' st2 b2} : NoCrlf l →
      Exchange C H (commandOn (l ++ crlf)) st t evs st1 b1 →
      Dialogue C H st1 b1 evs' st2 b2 →
      Dialogue C H st (l ++ crlf ++ t) (.line (l ++ crlf) :: evs ++ evs') st2 b2

/-- A complete session: the banner, then a dialogue until no complete line is left. -/
def CompleteSession (C : Config L S U) (H : Handling L S U) (s : S) (u : U) (input : Bytes)
    (trace : List (Ev L)) (final : SState L S U) : Prop :=
  ∃ evs left, trace = .reply (C.welcomeBanner s) :: evs ∧ Dialogue C H ⟨s, u, none⟩ input evs final left ∧
    NoCrlf left

/-- A configuration treating messages as a whole: `verdict s u m text ok` is what it decides about a message
with this text, `ok` telling whether the end-of-data marker was received. -/
abbrev Verdict (L : IpLib) (S U : Type) := S → U → MailMeta L → Bytes → Bool → Decision × S × U

/-- The treatment of a message by its text: a complete message is decoded up to its marker and the bytes
after it are left; an unfinished one is what was received, and nothing is left. -/
def ByText (V : Verdict L S U) : Handling L S U := fun s u m b d s' u' b' =>
  (∃ ls, IsMessage b ls b' ∧ V s u m (decodedLines ls) true = (d, s', u')) ∨
  (∃ ls part, IsUnfinished b ls part ∧ b' = [] ∧
    V s u m (decodedLines ls ++ decodedPart part) false = (d, s', u'))

end Verif.Spec

/-! ### Mail handlers -/
namespace Verif.Spec
variable {L : IpLib} {S U : Type}

/-- A history of a handler that is still reading: only polls, none of which returned the end. -/
def Reading (h : List HObs) : Prop := ∀ o ∈ h, ∃ r, o = .polled r ∧ r ≠ .ready none

/-- The text a history has shown. -/
def textOf : List HObs → Bytes
  | [] => []
  | .polled (.ready (some c)) :: h => c ++ textOf h
  | _ :: h => textOf h

/-- A handler that does what config.rs:38-40 asks for: it reads its stream to the end, calls `complete()`
once, and returns. -/
structure Conforming (act : List HObs → HAct S U) : Prop where
  reads : ∀ h, Reading h → act h = .poll
  completes : ∀ h, Reading h → act (h ++ [.polled (.ready none)]) = .complete
  returns : ∀ h ok, Reading h → ∃ d s u, act (h ++ [.polled (.ready none)] ++ [.completed ok]) = .done d s u

/-- A conforming handler whose decision depends on the message as a whole, not on its chunks. -/
structure WholeMessage (act : List HObs → HAct S U) (v : Bytes → Bool → Decision × S × U) : Prop where
  reads : ∀ h, Reading h → act h = .poll
  completes : ∀ h, Reading h → act (h ++ [.polled (.ready none)]) = .complete
  returns : ∀ h ok, Reading h → act (h ++ [.polled (.ready none)] ++ [.completed ok]) =
    .done (v (textOf h) ok).1 (v (textOf h) ok).2.1 (v (textOf h) ok).2.2

/-- A handler that returns, whatever it reads. -/
def Returns (act : List HObs → HAct S U) : Prop :=
  ∀ rd : Prep Bytes, ∃ n, Server.runHandler act n [] (DStream.new rd) ≠ .running

/-- A handler that does not read on once `complete()` has returned. -/
def NoPollAfterComplete (act : List HObs → HAct S U) : Prop :=
  ∀ h ok, act (h ++ [.completed ok]) ≠ .poll

end Verif.Spec

/-! ### Histories -/
namespace Verif.Spec
variable {L : IpLib} {S U : Type}

/-- Events that may occur while one transaction is open: none that opens another one or hands over a
message. -/
def InTransaction : Ev L → Prop
  | .newMail => False
  | .filterFrom _ _ _ => False
  | .handleMail _ => False
  | .handled _ => False
  | _ => True

/-- The recipients accepted in a piece of history, in order. -/
def acceptedRcpts : List (Ev L) → List (Email L)
  | [] => []
  | .filterTo _ t' _ _ .accept :: evs => t' :: acceptedRcpts evs
  | _ :: evs => acceptedRcpts evs

/-- Filters that leave the envelope they are shown as it is (they may still change the address they are
asked about). -/
structure KeepsEnvelope (C : Config L S U) : Prop where
  to : ∀ s u t m, (C.filterTo s u t m).2.2.1 = m
  data : ∀ s u m, (C.filterData s u m).2.1 = m

/-- The envelope after one more event of an open transaction, as the filters left it. -/
def envelopeStep (m : MailMeta L) : Ev L → MailMeta L
  | .filterTo _ t' _ mo .accept => ⟨mo.from_, mo.to ++ [t']⟩
  | .filterTo _ _ _ mo (.reject _) => mo
  | .filterData _ mo (.reject _) => mo
  | _ => m

end Verif.Spec

/-! ### Replies -/
namespace Verif.Spec
variable {L : IpLib} {S U : Type}

/-- A reply text of any length as lines on the wire: full lines of 506 characters marked as continued, then
the last line. Nothing at all is sent for the empty text. -/
inductive ReplyOnWire (code : Nat) : Bytes → List Bytes → Prop
  | nothing : ReplyOnWire code [] []
  | last {t w} : t ≠ [] → t.length ≤ 506 → IsReplyWire w code true t → ReplyOnWire code t [w]
  | more {t w rest ws} : t.length = 506 → IsReplyWire w code false t → rest ≠ [] → ReplyOnWire code rest ws →
      ReplyOnWire code (t ++ rest) (w :: ws)

/-- Filter callbacks. -/
def IsCheck : Ev L → Prop
  | .newMail => True
  | .filterFrom _ _ _ => True
  | .filterTo _ _ _ _ _ => True
  | .filterData _ _ _ => True
  | _ => False

/-- What belongs to one line: the line, some checks, and one final reply; or, for a message, the intermediate
reply before and one final reply after it was handled. -/
inductive Block (C : Config L S U) : List (Ev L) → Prop
  | simple {l mid r} : (∀ e ∈ mid, IsCheck e) → Block C (.line l :: mid ++ [.reply r])
  | message {l m0 m s d r} : Block C
      [.line l, .filterData m0 m .accept, .reply (C.dataOkay s), .handleMail m, .handled d, .reply r]

/-- The replies of a record, in order. -/
def repliesOf : List (Ev L) → List Reply
  | [] => []
  | .reply r :: evs => r :: repliesOf evs
  | _ :: evs => repliesOf evs

/-- All reply texts a configuration may give, and its refusals, can be sent. -/
structure SendableConfig (C : Config L S U) : Prop where
  welcomeBanner : ∀ s, Sendable (C.welcomeBanner s)
  mailOkay : ∀ s, Sendable (C.mailOkay s)
  rcptOkay : ∀ s, Sendable (C.rcptOkay s)
  dataOkay : ∀ s, Sendable (C.dataOkay s)
  mailAccepted : ∀ s, Sendable (C.mailAccepted s)
  alreadyInMail : ∀ s, Sendable (C.alreadyInMail s)
  rcptBeforeMail : ∀ s, Sendable (C.rcptBeforeMail s)
  dataBeforeRcpt : ∀ s, Sendable (C.dataBeforeRcpt s)
  dataBeforeMail : ∀ s, Sendable (C.dataBeforeMail s)
  commandUnimplemented : ∀ s, Sendable (C.commandUnimplemented s)
  commandUnrecognized : ∀ s, Sendable (C.commandUnrecognized s)
  filterFrom : ∀ s u f r f' s' u', C.filterFrom s u f = (.reject r, f', s', u') → Sendable (r.code, r.msg)
  filterTo : ∀ s u t m r t' m' s' u', C.filterTo s u t m = (.reject r, t', m', s', u') → Sendable (r.code, r.msg)
  filterData : ∀ s u m r m' s' u', C.filterData s u m = (.reject r, m', s', u') → Sendable (r.code, r.msg)
  handleMail : ∀ s u m h r s' u', C.handleMail s u m h = .done (.reject r) s' u' → Sendable (r.code, r.msg)

/-- Where a connection may stand after a message: right after the end-of-data marker, or at the end of the
input if there was no marker. -/
def AfterMessage (b b' : Bytes) : Prop :=
  (∃ ls, IsMessage b ls b') ∨ (¬ HasMarker b ∧ b' = [])

/-- `b` is what follows a line of `raw` that holds only a dot. -/
def AfterDot (raw b : Bytes) : Prop := ∃ c, raw = c ++ b!".\r\n" ++ b ∧ (c = [] ∨ crlf <:+ c)

end Verif.Spec

/-! ### Neighbouring events -/
namespace Verif.Spec
variable {L : IpLib} {S U : Type}

/-- Which event may come right after another one: each callback is answered by its own reply. -/
inductive Follows (C : Config L S U) : Ev L → Ev L → Prop
  /-- a reply is out, the next line is read -/
  | nextLine {r l} : Follows C (.reply r) (.line l)
  /-- a line that calls for no callback -/
  | unrecognized {l s} : (commandOn l : Option (Command L)) = none →
      Follows C (.line l) (.reply (C.commandUnrecognized s))
  | unimplemented {l s c} : commandOn l = some c → ¬ Implemented c →
      Follows C (.line l) (.reply (C.commandUnimplemented s))
  | mailAgain {l s f p} : commandOn l = some (.mail f p) → Follows C (.line l) (.reply (C.alreadyInMail s))
  | rcptEarly {l s t p} : commandOn l = some (.rcpt t p) → Follows C (.line l) (.reply (C.rcptBeforeMail s))
  | dataEarly {l s} : (commandOn l : Option (Command L)) = some .data →
      Follows C (.line l) (.reply (C.dataBeforeMail s))
  | dataNoRcpt {l s} : (commandOn l : Option (Command L)) = some .data →
      Follows C (.line l) (.reply (C.dataBeforeRcpt s))
  /-- a line that does -/
  | mail {l f p} : commandOn l = some (.mail f p) → Follows C (.line l) .newMail
  | sender {f f' d} : Follows C .newMail (.filterFrom f f' d)
  | senderReply {f f' d s} : Follows C (.filterFrom f f' d) (.reply (answer (C.mailOkay s) d))
  | rcpt {l t t' p m m' d} : commandOn l = some (.rcpt t p) → Follows C (.line l) (.filterTo t t' m m' d)
  | rcptReply {t t' m m' d s} : Follows C (.filterTo t t' m m' d) (.reply (answer (C.rcptOkay s) d))
  | data {l m m' d} : (commandOn l : Option (Command L)) = some .data → m.to ≠ [] →
      Follows C (.line l) (.filterData m m' d)
  | dataReply {m m' d s} : Follows C (.filterData m m' d) (.reply (answer (C.dataOkay s) d))
  | handle {m s} : Follows C (.reply (C.dataOkay s)) (.handleMail m)
  | handled {m d} : Follows C (.handleMail m) (.handled d)
  | handledReply {d s} : Follows C (.handled d) (.reply (answer (C.mailAccepted s) d))

end Verif.Spec
