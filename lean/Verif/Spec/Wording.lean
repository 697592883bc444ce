import Verif.Model.Wording
/-
Configurations whose reply methods have effects, and the configurations without effects that are equivalent to them (C124).
-/
namespace Verif.Spec
open Wording
variable {L : IpLib} {S U : Type}

/-- The configuration is about to be asked by a callback, or is in the mail handler. -/
def AtCallback : Wording.PC L S U → Prop
  | .at (.newMail _) | .at (.filterFrom _) | .at (.filterTo ..) | .at (.filterData _) | .at (.handle ..) => True
  | _ => False

/-- A callback that has returned. -/
def isReturn : Ev L → Bool
  | .newMail | .filterFrom .. | .filterTo .. | .filterData .. | .handled _ => true
  | _ => false

/-- How many callbacks have returned. -/
def returns (t : List (Ev L)) : Nat := (t.filter isReturn).length

/-- What a handler wants; with the configuration it leaves behind goes the number `k`. -/
def HAct.leave (k : Nat) : HAct S U → HAct (Nat × S) U
  | .poll => .poll
  | .complete => .complete
  | .done d s u => .done d (k, s) u

/-- A configuration that remembers how many callbacks have returned, and what the last one has left behind: the `k`-th callback
(from 0) does what that of `E` does with the configuration `pick k c`, the last one having left `c`, and the replies are the fixed
texts `words`. -/
def replay (E : Wordy L S U) (pick : Nat → S → S) (words : Hook → Reply) : Config L (Nat × S) U where
  newMail k := (k.1 + 1, E.callbacks.newMail (pick k.1 k.2))
  filterFrom k u f := let x := E.callbacks.filterFrom (pick k.1 k.2) u f; (x.1, x.2.1, (k.1 + 1, x.2.2.1), x.2.2.2)
  filterTo k u t m := let x := E.callbacks.filterTo (pick k.1 k.2) u t m; (x.1, x.2.1, x.2.2.1, (k.1 + 1, x.2.2.2.1), x.2.2.2.2)
  filterData k u m := let x := E.callbacks.filterData (pick k.1 k.2) u m; (x.1, x.2.1, (k.1 + 1, x.2.2.1), x.2.2.2)
  handleMail k u m h := HAct.leave (k.1 + 1) (E.callbacks.handleMail (pick k.1 k.2) u m h)
  welcomeBanner _ := words .welcomeBanner
  mailOkay _ := words .mailOkay
  rcptOkay _ := words .rcptOkay
  dataOkay _ := words .dataOkay
  mailAccepted _ := words .mailAccepted
  alreadyInMail _ := words .alreadyInMail
  rcptBeforeMail _ := words .rcptBeforeMail
  dataBeforeRcpt _ := words .dataBeforeRcpt
  dataBeforeMail _ := words .dataBeforeMail
  commandUnimplemented _ := words .commandUnimplemented
  commandUnrecognized _ := words .commandUnrecognized

/-- The events that are neither replies nor the failure of the writer: what was read, which callbacks were called, what they were
called with, and what they decided. -/
def isDeed : Ev L → Bool
  | .reply _ | .writeError => false
  | _ => true

/-- Two replies of the same meaning: the same refusal, or what both say on the same occasion; `said` tells what may be said when. -/
inductive Reworded (said : Hook → Reply → Prop) (words : Hook → Reply) : Reply → Reply → Prop
  | refusal (r : Refusal) : Reworded said words (r.code, r.msg) (r.code, r.msg)
  | said (h : Hook) (r : Reply) : said h r → Reworded said words r (words h)

/-- Two events of the same meaning. -/
inductive Retold (said : Hook → Reply → Prop) (words : Hook → Reply) : Ev L → Ev L → Prop
  | same (e : Ev L) : isDeed e = true → Retold said words e e
  | reply (r r' : Reply) : Reworded said words r r' → Retold said words (.reply r) (.reply r')

/-- Two records of the same meaning, event by event. -/
inductive Story (said : Hook → Reply → Prop) (words : Hook → Reply) : List (Ev L) → List (Ev L) → Prop
  | nil : Story said words [] []
  | cons {e e' t t'} : Retold said words e e' → Story said words t t' → Story said words (e :: t) (e' :: t')

/-- What the methods that word the replies say, in some configuration. -/
def saidBy (E : Wordy L S U) (h : Hook) (r : Reply) : Prop := ∃ s, (E.say h s).1 = some r

/-- The same place in the code. If the writer has failed, or a reply cannot be sent, or the method that words it has panicked,
the other session is about to send that reply. -/
def SameSpot (E : Wordy L S U) (words : Hook → Reply) : Wording.PC L S U → Task.PC L (Nat × S) U → Prop
  | .at (.read b), .read b' => b = b'
  | .at (.send r _ a), .send r' _ a' => Reworded (saidBy E) words r r' ∧ a = a'
  | .at (.newMail f), .newMail f' => f = f'
  | .at (.filterFrom f), .filterFrom f' => f = f'
  | .at (.filterTo t m), .filterTo t' m' => t = t' ∧ m = m'
  | .at (.filterData m), .filterData m' => m = m'
  | .at (.handle _ h d), .handle _ h' d' => h = h' ∧ d = d'
  | .at (.over .err), .send .. | .at (.over (.panic .buildUnwrap)), .send .. | .unwound, .send .. => True
  | .at (.over r), .over r' => r = r'
  | _, _ => False

/-- The same point of the session: the same place, connection data, open transaction and input to come, and the same record, but
for the error of the writer, which is the end. -/
def SameMoment (E : Wordy L S U) (words : Hook → Reply) (x : Wording.State L S U) (y : Task.State L (Nat × S) U) : Prop :=
  SameSpot E words x.1 y.1 ∧ x.2.conn = y.2.conn ∧ x.2.mail = y.2.mail ∧ x.2.reader = y.2.reader ∧
    ∃ t, Story (saidBy E) words t y.2.trace ∧ (x.2.trace = t ∨ x.1 = .at (.over .err) ∧ x.2.trace = t ++ [.writeError])

end Verif.Spec

namespace Verif.Spec
open Wording
variable {L : IpLib} {S U : Type}

/-- The reply methods do nothing but return the replies of `C`, and the callbacks are those of `C`. -/
structure Effectless (E : Wordy L S U) (C : Config L S U) : Prop where
  say : ∀ h s, E.say h s = (some (says C h s), s)
  callbacks : SameCallbacks E.callbacks C

/-- No method of the configuration takes it from where `P` holds to where `P` does not hold. -/
structure Preserves (E : Wordy L S U) (P : S → Prop) : Prop where
  say : ∀ h s, P s → P (E.say h s).2
  newMail : ∀ s, P s → P (E.callbacks.newMail s)
  filterFrom : ∀ s u f, P s → P (E.callbacks.filterFrom s u f).2.2.1
  filterTo : ∀ s u t m, P s → P (E.callbacks.filterTo s u t m).2.2.2.1
  filterData : ∀ s u m, P s → P (E.callbacks.filterData s u m).2.2.1
  handleMail : ∀ s u m h d s' u', P s → E.callbacks.handleMail s u m h = .done d s' u' → P s'

end Verif.Spec
