import Verif.Model.Queue
/-
Notions used to state the properties of the queue: what it means to work on a mail, and conditions on executions.
-/
namespace Verif.Queue

/-- No condition. -/
def Always : St → Act → Prop := fun _ _ => True

/-- A task is in the middle of an attempt with the claim `c`: `send_start` has given it the claim, and neither
`send_done` nor `send_cancel` has answered yet. -/
inductive WorksOn : Task → Claim → Prop
  | started {r m c} : WorksOn ⟨r, .sendStart m, some (.inflight c)⟩ c
  | fetching {r c a} : a ≠ some .err → WorksOn ⟨r, .getMail c, a⟩ c
  | sending {r c b a} : WorksOn ⟨r, .transportSend c b, a⟩ c
  | finishing {r c} : WorksOn ⟨r, .sendDone c, none⟩ c
  | cancelling {r c} : WorksOn ⟨r, .sendCancel c, none⟩ c

/-- Recovery takes place only for claims nobody works on: when `cancel_found_inflight` has its effect, no task is in
the middle of an attempt with that claim. -/
def Gentle : St → Act → Prop := fun s act =>
  ∀ tid a eff r c, act = .answer tid a eff → (a ≠ .err ∨ eff = true) →
    s.task tid = some ⟨r, .cancelFound c, none⟩ → ∀ i t, s.task i = some t → ¬ WorksOn t c

/-- Attempts take less than `A` seconds, and `find_inflight` has yielded its mails `F` seconds after startup. -/
def Timely (A F : Nat) : St → Act → Prop := fun s act =>
  (∀ i t c τ, s.task i = some t → WorksOn t c → (c, τ) ∈ s.claims → s.now < τ + A) ∧
  ∀ r c, act = .find r c → s.now ≤ (s.runs r).startup + F

/-- The transport accepted the mail `m`. -/
def Accepted (log : List Entry) (m : MailId) : Prop :=
  ∃ e ∈ log, ∃ r tid c, e.ev = .answer r tid (.transportSend c m) .ok

/-- Every entry of a record is in order with respect to what was recorded before it. -/
def Ordered (Q : List Entry → Entry → Prop) (log : List Entry) : Prop :=
  ∀ pre e post, log = pre ++ e :: post → Q pre e

/-- Some event is in a record. -/
def Has (log : List Entry) (ev : Ev) : Prop := ∃ e ∈ log, e.ev = ev

/-- The protocol: what must have been recorded before task `i` of run `r` may call an operation. In words: an attempt
starts with a mail that was listed, given back by the attempt that spawned this task, or recovered by this very task;
from then on every operation uses the claim `send_start` answered to this task, and follows on the right answer of the
operation before it. -/
inductive Justified (log : List Entry) (r i : Nat) : Op → Prop
  | listed {m} : Has log (.listed r m) → Justified log r i (.sendStart m)
  | retry {c j} : Has log (.answer r j (.sendCancel c) (.queued c.mail)) → Has log (.spawned r j i) →
      Justified log r i (.sendStart c.mail)
  | recovered {c} : Has log (.answer r i (.cancelFound c) (.queued c.mail)) → Justified log r i (.sendStart c.mail)
  | fetch {c} : Has log (.answer r i (.sendStart c.mail) (.inflight c)) → Justified log r i (.getMail c)
  | send {c} : Has log (.answer r i (.sendStart c.mail) (.inflight c)) → Has log (.answer r i (.getMail c) (.mail c.mail)) →
      Justified log r i (.transportSend c c.mail)
  | done {c} : Has log (.answer r i (.sendStart c.mail) (.inflight c)) →
      Has log (.answer r i (.transportSend c c.mail) .ok) → Justified log r i (.sendDone c)
  | cancel {c} : Has log (.answer r i (.sendStart c.mail) (.inflight c)) →
      Has log (.answer r i (.transportSend c c.mail) .err) → Justified log r i (.sendCancel c)
  | wait {t c} : Has log (.found r c) → Justified log r i (.delay t c)
  | recover {t c} : Has log (.answer r i (.delay t c) .ok) → Justified log r i (.cancelFound c)

/-- Recorded with time. -/
def HasAt (log : List Entry) (t : Nat) (ev : Ev) : Prop := (⟨t, ev⟩ : Entry) ∈ log

/-- Task `i` of run `r` was cut off at operation `o`: the process crashed, or the task was dropped or panicked. -/
def CutOff (log : List Entry) (r i : Nat) (o : Op) : Prop := Has log (.crash r) ∨ Has log (.died r i o)

/-- The operation is about the mail `m`. -/
def Op.mail : Op → MailId
  | .sendStart m => m
  | .getMail c => c.mail
  | .transportSend c _ => c.mail
  | .sendDone c => c.mail
  | .sendCancel c => c.mail
  | .delay _ c => c.mail
  | .cancelFound c => c.mail

/-- No operation of the storage fails, and nothing crashes or dies; the transport may refuse as often as it likes. -/
def NoFailure : St → Act → Prop := fun s act =>
  (∀ r, act ≠ .crash r) ∧ (∀ i, act ≠ .die i) ∧
  ∀ i eff r o, act = .answer i .err eff → s.task i = some ⟨r, o, none⟩ → ∃ c b, o = .transportSend c b

/-- What can come after a state, as long as nobody calls `run`. -/
inductive Continues (s : St) : St → Prop
  | refl : Continues s s
  | step {s1 s2 a} : Continues s s1 → (∀ r, a ≠ .start r) → step s1 a = some s2 → Continues s s2

end Verif.Queue
