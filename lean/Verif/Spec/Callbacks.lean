import Verif.Model.Callbacks
/-
Callbacks that take their time, and the callbacks they amount to (C120).
-/
namespace Verif.Spec
open Callbacks
variable {L : IpLib} {S U : Type}

/-- The future answers at its `n`-th poll for the first time, and leaves `x` behind. -/
def AnswersAt {σ α : Type} (f : Nat → σ × Ans α) (n : Nat) (x : σ) (a : α) : Prop :=
  f n = (x, .ready a) ∧ ∀ k, k < n → (f k).2 = .pending

/-- The callbacks of `C` do in one go what those of `D` do in the end, and it gives the same replies. -/
structure AmountsTo (D : Slow L S U) (C : Config L S U) : Prop where
  newMail : ∀ s n s' a, AnswersAt (D.newMail s) n s' a → C.newMail s = s'
  filterFrom : ∀ s u f n s' u' d f', AnswersAt (D.filterFrom s u f) n (s', u') (d, f') → C.filterFrom s u f = (d, f', s', u')
  filterTo : ∀ s u t m n s' u' m' d t', AnswersAt (D.filterTo s u t m) n (s', u', m') (d, t') →
    C.filterTo s u t m = (d, t', m', s', u')
  filterData : ∀ s u m n s' u' d m', AnswersAt (D.filterData s u m) n (s', u') (d, m') → C.filterData s u m = (d, m', s', u')
  polls : ∀ s u m h n x, AnswersAt (D.handleMail s u m h) n x .poll → C.handleMail s u m h = .poll
  completes : ∀ s u m h n x, AnswersAt (D.handleMail s u m h) n x .complete → C.handleMail s u m h = .complete
  done : ∀ s u m h n s' u' d, AnswersAt (D.handleMail s u m h) n (s', u') (.done d) → C.handleMail s u m h = .done d s' u'
  replies : ∀ s, C.welcomeBanner s = D.replies.welcomeBanner s ∧ C.mailOkay s = D.replies.mailOkay s ∧
    C.rcptOkay s = D.replies.rcptOkay s ∧ C.dataOkay s = D.replies.dataOkay s ∧
    C.mailAccepted s = D.replies.mailAccepted s ∧ C.alreadyInMail s = D.replies.alreadyInMail s ∧
    C.rcptBeforeMail s = D.replies.rcptBeforeMail s ∧ C.dataBeforeRcpt s = D.replies.dataBeforeRcpt s ∧
    C.dataBeforeMail s = D.replies.dataBeforeMail s ∧ C.commandUnimplemented s = D.replies.commandUnimplemented s ∧
    C.commandUnrecognized s = D.replies.commandUnrecognized s

/-- All callbacks answer in the end, whatever they are called with, and the mail handler whatever it has seen. -/
structure AllAnswer (D : Slow L S U) : Prop where
  newMail : ∀ s, ∃ n x a, AnswersAt (D.newMail s) n x a
  filterFrom : ∀ s u f, ∃ n x a, AnswersAt (D.filterFrom s u f) n x a
  filterTo : ∀ s u t m, ∃ n x a, AnswersAt (D.filterTo s u t m) n x a
  filterData : ∀ s u m, ∃ n x a, AnswersAt (D.filterData s u m) n x a
  handleMail : ∀ s u m h, ∃ n x a, AnswersAt (D.handleMail s u m h) n x a

/-- Whatever a callback is called with, what each of its polls leaves behind is related to that by `P`. -/
structure Effects (D : Slow L S U) (P : S × U → S × U → Prop) : Prop where
  same : ∀ x, P x x
  newMail : ∀ s u k, P (s, u) ((D.newMail s k).1, u)
  filterFrom : ∀ s u f k, P (s, u) (D.filterFrom s u f k).1
  filterTo : ∀ s u t m k, P (s, u) ((D.filterTo s u t m k).1.1, (D.filterTo s u t m k).1.2.1)
  filterData : ∀ s u m k, P (s, u) (D.filterData s u m k).1
  handleMail : ∀ s u m h k, P (s, u) (D.handleMail s u m h k).1

/-- The session is inside a callback, or a callback has panicked. -/
def InCallback : PC L S U → Prop
  | .newMail .. | .filterFrom .. | .filterTo .. | .filterData .. | .handle .. | .unwound => True
  | _ => False

/-- The session is inside a callback that never answers. -/
def Stuck (D : Slow L S U) : PC L S U → Prop
  | .newMail _ s _ => ∀ k, (D.newMail s k).2 = .pending
  | .filterFrom f s u _ => ∀ k, (D.filterFrom s u f k).2 = .pending
  | .filterTo t m s u _ => ∀ k, (D.filterTo s u t m k).2 = .pending
  | .filterData m s u _ => ∀ k, (D.filterData s u m k).2 = .pending
  | .handle m s u h _ _ => ∀ k, (D.handleMail s u m h k).2 = .pending
  | _ => False

/-- The same place in the code, for callbacks that take their time and for callbacks that do everything in one go; the mail
handler has seen the same of its stream, which is in the same state. -/
def SamePlace : PC L S U → Task.PC L S U → Prop
  | .read b, .read b' => b = b'
  | .send r l a, .send r' l' a' => r = r' ∧ l = l' ∧ a = a'
  | .newMail f _ _, .newMail f' => f = f'
  | .filterFrom f _ _ _, .filterFrom f' => f = f'
  | .filterTo t m _ _ _, .filterTo t' m' => t = t' ∧ m = m'
  | .filterData m _ _ _, .filterData m' => m = m'
  | .handle _ _ _ h _ d, .handle _ h' d' => h = h' ∧ d = d'
  | .over r, .over r' => r = r'
  | .unwound, .newMail .. | .unwound, .filterFrom .. | .unwound, .filterTo .. | .unwound, .filterData .. | .unwound, .handle .. => True
  | _, _ => False

end Verif.Spec
