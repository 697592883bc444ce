import Verif.Model.Queue
/-
Notions used to state what the queue does in the long run: infinite executions, fairness, reliability.
-/
namespace Verif.Queue

/-- An infinite execution: one action after another, for ever. (`tick 0` changes nothing, so an execution may pause as long
as it likes.) -/
structure Execution where
  st : Nat → St
  act : Nat → Act
  first : st 0 = init
  next : ∀ n, step (st n) (act n) = some (st (n + 1))

/-- The scheduler, the storage, the transport and the clock do their part: a task that has an answer goes on some day; an
operation that could succeed all the time is answered some day (with success or not); time goes on. -/
structure Fair (E : Execution) : Prop where
  proceeds : ∀ n i r o a, (E.st n).task i = some ⟨r, o, some a⟩ → ∃ k, n ≤ k ∧ (E.st k).task i ≠ some ⟨r, o, some a⟩
  answers : ∀ n i r o, (E.st n).task i = some ⟨r, o, none⟩ →
    (∀ k, n ≤ k → ∃ a s', a ≠ .err ∧ step (E.st k) (.answer i a false) = some s') →
    ∃ k, n ≤ k ∧ (E.st k).task i ≠ some ⟨r, o, none⟩
  time : ∀ T, ∃ k, T ≤ (E.st k).now

/-- The operation uses a handle that is out of date: the mail is no longer where the handle says. -/
def Stale (s : St) : Op → Prop
  | .sendStart m => s.store m ≠ .queued
  | .getMail c => s.store c.mail ≠ .inflight c.gen
  | .transportSend _ _ => False
  | .sendDone c => s.store c.mail ≠ .inflight c.gen
  | .sendCancel c => s.store c.mail ≠ .inflight c.gen
  | .delay _ _ => False
  | .cancelFound c => s.store c.mail ≠ .inflight c.gen

/-- What an operation is about. -/
def Op.about : Op → MailId
  | .sendStart m => m
  | .getMail c => c.mail
  | .transportSend c _ => c.mail
  | .sendDone c => c.mail
  | .sendCancel c => c.mail
  | .delay _ c => c.mail
  | .cancelFound c => c.mail

/-- Nothing crashes, no task at the mail `m` dies, and no operation about it fails, except that the transport may refuse it, and that handles
which are out of date are refused. Everything about other mails may fail. -/
def Reliable (m : MailId) (s : St) (act : Act) : Prop :=
  (∀ r, act ≠ .crash r) ∧ (∀ i r o a, act = .die i → s.task i = some ⟨r, o, a⟩ → o.about ≠ m) ∧
  ∀ i eff r o, act = .answer i .err eff → s.task i = some ⟨r, o, none⟩ → o.about = m →
    (∃ c b, o = .transportSend c b) ∨ Stale s o

/-- The transport refuses the mail `m`. -/
def Refuses (m : MailId) (s : St) (act : Act) : Prop :=
  ∃ i eff r c b, act = .answer i .err eff ∧ s.task i = some ⟨r, .transportSend c b, none⟩ ∧ c.mail = m

/-- `find_inflight` yields the mail `m`. -/
def Finds (m : MailId) (act : Act) : Prop := ∃ r c, act = .find r c ∧ c.mail = m

end Verif.Queue
