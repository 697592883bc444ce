import Verif.Spec.EndToEnd
/-
The sizes RFC 5321, section 4.5.3.1, puts limits on, for a mail as a client sends it.
-/
namespace Verif.Spec
variable {L : IpLib}

/-- A host name of more than `N` bytes, in more than `N` labels, each of more than `N` bytes. -/
def LongHost (N : Nat) (h : Bytes) : Prop :=
  N < h.length ∧ ∃ ls, h = joinWith 46 ls ∧ N < ls.length ∧ ∀ l ∈ ls, N < l.length ∧ 46 ∉ l

/-- An address whose local part and whose domain have more than `N` bytes. -/
def LongEmail (N : Nat) (e : Email L) : Prop := N < e.localpart.length ∧ ∃ h, e.hostname = some (.host h) ∧ LongHost N h

/-- Everything about the mail is larger than `N`: local part and domain of sender and recipients, the number of recipients,
the number of parameters of each command, the command lines, the text, and its first line. -/
structure Oversized (N : Nat) (m : OutMail L) : Prop where
  sender : ∃ e, m.from_ = some e ∧ LongEmail N e
  recipients : N < m.rcpts.length ∧ ∀ t ∈ m.rcpts, LongEmail N t.1
  params : N < m.params.length ∧ ∀ t ∈ m.rcpts, N < t.2.length
  lines : N < (Command.mail m.from_ m.params).sendTo.length ∧ ∀ t ∈ m.rcpts, N < (Command.rcpt t.1 t.2).sendTo.length
  text : N < m.text.flatten.length
  textLine : ∃ l r, NoCrlf l ∧ m.text.flatten = l ++ crlf ++ r ∧ N < l.length

end Verif.Spec
