import Verif.Model.Env
import Verif.Spec.Wording
/-
The session against an arbitrary environment, and sessions of configurations in the sense of the other properties (C125).
-/
namespace Verif.Spec
open Env
variable {L : IpLib}

/-- What the callbacks of a session answer: the `k`-th callback (from 0) answers `from_ k` and so on, according to what it is; if it
is a mail handler, it does `want k h` when it has seen `h` of its stream. -/
structure Script (L : IpLib) where
  from_ : Nat → Decision × Option (Email L)
  to : Nat → MailMeta L × Decision × Email L
  data : Nat → Decision × MailMeta L
  want : Nat → List HObs → Callbacks.Want

/-- What a handler wants, the `k`-th callback. -/
def Script.act (T : Script L) (k : Nat) (h : List HObs) : HAct Nat Unit :=
  match T.want k h with
  | .poll => .poll
  | .complete => .complete
  | .done d => .done d (k + 1) ()

/-- A configuration that counts its callbacks and does what is in the script, with the replies `words`. -/
def played (T : Script L) (words : Hook → Reply) : Config L Nat Unit where
  newMail k := k + 1
  filterFrom k _ _ := ((T.from_ k).1, (T.from_ k).2, k + 1, ())
  filterTo k _ _ _ := ((T.to k).2.1, (T.to k).2.2, (T.to k).1, k + 1, ())
  filterData k _ _ := ((T.data k).1, (T.data k).2, k + 1, ())
  handleMail k _ _ h := T.act k h
  welcomeBanner _ := words .welcomeBanner
  mailOkay _ := words .mailOkay
  rcptOkay _ := words .rcptOkay
  dataOkay _ := words .dataOkay
  mailAccepted _ := words .mailAccepted
  alreadyInMail _ := words .alreadyInMail
  rcptBeforeMail _ := words .rcptBeforeMail
  dataBeforeRcpt _ := words .dataBeforeRcpt
  dataBeforeMail _ := words .dataBeforeMail
  commandUnimplemented _ := words .commandUnimplemented
  commandUnrecognized _ := words .commandUnrecognized

/-- What the environment says on this occasion, at some time. -/
def maySay (E : Environment L) (h : Hook) (r : Reply) : Prop := ∃ t, E.say h t = some r

/-- How often the connection has been polled. -/
def listened (x : Env.State L) : Nat := x.input.polls

/-- In its first `k` polls, the connection reports nothing but its end once it has reported its end. -/
def StaysEnded (f : AnySource.Source) (k : Nat) : Prop := ∀ i j, i < j → j < k → f i = .ready none → f j = .ready none

/-- The same place in the code. If the writer has failed, or a reply cannot be sent, or the environment has panicked, the other session
is about to send that reply or in that callback. -/
def Standing (E : Environment L) (words : Hook → Reply) : Env.PC L → Task.PC L Nat Unit → Prop
  | .read b, .read b' => b = b'
  | .send r _ a, .send r' _ a' => Reworded (maySay E) words r r' ∧ a = a'
  | .newMail f, .newMail f' => f = f'
  | .filterFrom f, .filterFrom f' => f = f'
  | .filterTo t m, .filterTo t' m' => t = t' ∧ m = m'
  | .filterData m, .filterData m' => m = m'
  | .handle h d, .handle _ h' d' => h = h' ∧ d.state = d'.state ∧ d.buf = d'.buf ∧ d.reader.pre = d'.source.pre
  | .polling h _, .handle act h' _ => h = h' ∧ act h' = .poll
  | .over .err, .send .. | .over (.panic .buildUnwrap), .send .. => True
  | .unwound, .send .. | .unwound, .newMail _ | .unwound, .filterFrom _ | .unwound, .filterTo .. | .unwound, .filterData _
  | .unwound, .handle .. => True
  | .over r, .over r' => r = r'
  | _, _ => False

/-- Neither over nor in the middle of reading from a message. -/
def Resting : Env.PC L → Prop
  | .polling .. | .over _ | .unwound => False
  | _ => True

/-- The same point of the session: the same place; the same open transaction, unless `filter_to` is at it; all of the input used, but
for the same rest; and the same record, but for the error of the writer, which is the end. -/
structure SameTime (E : Environment L) (words : Hook → Reply) (x : Env.State L) (y : Task.State L Nat Unit) : Prop where
  place : Standing E words x.pc y.1
  mail : x.pc ≠ .unwound → (∀ t m, x.pc ≠ .filterTo t m) → x.mail = y.2.mail
  input : Resting x.pc → (Task.input y).src = [] ∧ (Task.input y).pre = x.input.pre
  trace : ∃ t, Story (maySay E) words t y.2.trace ∧ (x.trace = t ∨ x.pc = .over .err ∧ x.trace = t ++ [.writeError])

/-- Whatever the writer or a callback is asked for, it answers in some later step. -/
structure Responsive (E : Environment L) : Prop where
  write : ∀ n, ∃ t, n ≤ t ∧ E.write t ≠ .pending
  newMail : ∀ n, ∃ t, n ≤ t ∧ E.newMail t ≠ .pending
  filterFrom : ∀ n, ∃ t, n ≤ t ∧ E.filterFrom t ≠ .pending
  filterTo : ∀ n, ∃ t, n ≤ t ∧ (E.filterTo t).2 ≠ .pending
  filterData : ∀ n, ∃ t, n ≤ t ∧ E.filterData t ≠ .pending

/-- A mail handler is at work. -/
def HandlerWorks (x : Env.State L) : Prop := (∃ h d, x.pc = .handle h d) ∨ ∃ h d, x.pc = .polling h d

/-- The environment panics in step number `t`. -/
def PanicsAt (E : Environment L) (t : Nat) : Prop :=
  (∃ h, E.say h t = none) ∨ E.newMail t = .panicked ∨ E.filterFrom t = .panicked ∨ (E.filterTo t).2 = .panicked ∨
    E.filterData t = .panicked ∨ E.handleMail t = .panicked

end Verif.Spec
