import Verif.Spec.Relay
/-
What can be seen of a session at a moment when it is suspended, and what a mailbox holds then.
-/
namespace Verif.Spec
variable {L : IpLib} {S U : Type}

/-- How far the exchange for a line can have got: `cur` is what has happened since the line was read (`cmd` is the command on
it, `b` the bytes after it, `st` the state when it was read), and the last two arguments are the configuration and the connection
data now. The last reply of the exchange is not out yet. -/
inductive Underway (C : Config L S U) (H : Handling L S U) :
    Option (Command L) → SState L S U → Bytes → List (Ev L) → S → U → Prop
  /-- nothing but the reading -/
  | read {c st b} : Underway C H c st b [] st.cfg st.conn
  /-- the announcement of a mail -/
  | newMail {s u b f p} : Underway C H (some (.mail f p)) ⟨s, u, none⟩ b [.newMail] (C.newMail s) u
  /-- the message is let in, the reply that asks for it is on its way -/
  | data {s u m b m' s' u'} : m.to ≠ [] → C.filterData s u m = (.accept, m', s', u') →
      Underway C H (some .data) ⟨s, u, some m⟩ b [.filterData m m' .accept] s' u'
  /-- the message is asked for, and the handler is reading it -/
  | handling {s u m b m' s' u'} : m.to ≠ [] → C.filterData s u m = (.accept, m', s', u') →
      Underway C H (some .data) ⟨s, u, some m⟩ b [.filterData m m' .accept, .reply (C.dataOkay s'), .handleMail m'] s' u'
  /-- everything but the last reply -/
  | answering {c st b cur r st' b'} : Exchange C H c st b (cur ++ [.reply r]) st' b' → Underway C H c st b cur st'.cfg st'.conn

/-- A session with the input `input` in a moment when `trace` has happened and configuration and connection data are `s'` and
`u'`: the greeting is on its way; or some lines have been treated; or some lines have been, and another one is. A write error is
the last thing to happen. -/
inductive Moment (C : Config L S U) (H : Handling L S U) (s : S) (u : U) (input : Bytes) : List (Ev L) → S → U → Prop
  | greeting {e} : (e = [] ∨ e = [.writeError]) → Moment C H s u input e s u
  | between {evs st b} : Dialogue C H ⟨s, u, none⟩ input evs st b →
      Moment C H s u input (.reply (C.welcomeBanner s) :: evs) st.cfg st.conn
  | within {evs st l b cur s' u' e} : Dialogue C H ⟨s, u, none⟩ input evs st (l ++ crlf ++ b) → NoCrlf l →
      Underway C H (commandOn (l ++ crlf)) st b cur s' u' → (e = [] ∨ e = [.writeError]) →
      Moment C H s u input (.reply (C.welcomeBanner s) :: evs ++ .line (l ++ crlf) :: cur ++ e) s' u'

/-- The configuration's mailbox `box` is changed by its mail handler only, which adds the mail it is given if it accepts it, and
leaves the mailbox as it is if it refuses it. -/
structure Keeps (C : Config L S U) (V : Verdict L S U) (box : S → List (Stored L)) : Prop where
  newMail : ∀ s, box (C.newMail s) = box s
  from_ : ∀ s u f, box (C.filterFrom s u f).2.2.1 = box s
  to : ∀ s u t m, box (C.filterTo s u t m).2.2.2.1 = box s
  data : ∀ s u m, box (C.filterData s u m).2.2.1 = box s
  accept : ∀ s u m text ok s' u', V s u m text ok = (.accept, s', u') → box s' = box s ++ [(m, text, ok)]
  reject : ∀ s u m text ok r s' u', V s u m text ok = (.reject r, s', u') → box s' = box s

/-- The envelopes of the mails the handler has accepted. -/
def acceptedMails : List (Ev L) → List (MailMeta L)
  | [] => []
  | .handleMail m :: .handled .accept :: evs => m :: acceptedMails evs
  | _ :: evs => acceptedMails evs

/-- The envelopes of the mails whose acceptance the client was told. -/
def acknowledgedMails : List (Ev L) → List (MailMeta L)
  | [] => []
  | .handleMail m :: .handled .accept :: .reply _ :: evs => m :: acknowledgedMails evs
  | _ :: evs => acknowledgedMails evs

/-- `Sent L raw xs`: the mails `xs` are in `raw`, in this order and without overlap, each behind a line with the command DATA:
complete, with the decoded text, or, the last one, unfinished, with what there is of it. -/
inductive Sent (L : IpLib) : Bytes → List (Stored L) → Prop
  | nil {raw} : Sent L raw []
  | complete {raw before line b m ls b' xs} : raw = before ++ line ++ b → (before = [] ∨ crlf <:+ before) →
      (commandOn line : Option (Command L)) = some .data → IsMessage b ls b' → Sent L b' xs → Sent L raw ((m, decodedLines ls, true) :: xs)
  | unfinished {raw before line b m ls part} : raw = before ++ line ++ b → (before = [] ∨ crlf <:+ before) →
      (commandOn line : Option (Command L)) = some .data → IsUnfinished b ls part → Sent L raw [(m, decodedLines ls ++ decodedPart part, false)]

end Verif.Spec
