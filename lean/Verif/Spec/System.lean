import Verif.Spec.Await
import Verif.Spec.Queue
import Verif.Model.Task
/-
A mail server: any number of sessions of the SMTP server, whose mail handler puts the mails it accepts into the storage of a
queue, and any number of instances of the queue's `run` on that storage.
-/
namespace Verif.Spec
open Queue (MailId upd)
variable {L : IpLib} {S U : Type}

/-- What comes in on a connection, the writer of the replies, and the configuration and the connection data the session starts
with. -/
structure Peer (S U : Type) where
  incoming : List (SrcEv Bytes)
  outgoing : BSink
  cfg : S
  conn : U

/-- The session with this peer at its `n`th `.await`. -/
abbrev Peer.at (C : Config L S U) (p : Peer S U) (n : Nat) : World L S U := (Task.after C p.incoming p.outgoing p.cfg p.conn n).2

/-- The whole system. -/
structure Sys (L : IpLib) where
  /-- the storage and the instances of `run` -/
  queue : Queue.St
  /-- how many answers each session has had to what it awaited -/
  answers : Nat → Nat
  /-- the names under which each session has enqueued mails, in order -/
  names : Nat → List MailId
  /-- the mail that was enqueued under a name -/
  content : MailId → Option (Stored L)
  /-- the names under which somebody else has enqueued mails -/
  others : List MailId

/-- Nothing has happened. -/
def Sys.init : Sys L := ⟨Queue.init, fun _ => 0, fun _ => [], fun _ => none, []⟩

/-- What can happen. A session that gets no more answers has crashed; there is always another session to come. -/
inductive Sys.Step (C : Config L S U) (box : S → List (Stored L)) (peer : Nat → Peer S U) : Sys L → Sys L → Prop
  /-- session `i` goes on to its next `.await`, and nothing is stored -/
  | quiet {x i} : box ((peer i).at C (x.answers i + 1)).cfg = box ((peer i).at C (x.answers i)).cfg →
      Step C box peer x { x with answers := upd x.answers i (x.answers i + 1) }
  /-- session `i` goes on to its next `.await`, its handler having stored the mail `y`: it has enqueued it -/
  | store {x i y m q} : box ((peer i).at C (x.answers i + 1)).cfg = box ((peer i).at C (x.answers i)).cfg ++ [y] →
      Queue.step x.queue (.enqueue m) = some q →
      Step C box peer x ⟨q, upd x.answers i (x.answers i + 1), upd x.names i (x.names i ++ [m]), upd x.content m (some y), x.others⟩
  /-- somebody else enqueues a mail -/
  | other {x y m q} : Queue.step x.queue (.enqueue m) = some q →
      Step C box peer x { x with queue := q, content := upd x.content m (some y), others := m :: x.others }
  /-- anything else that can happen to a queue -/
  | queue {x a q} : (∀ m, a ≠ .enqueue m) → Queue.step x.queue a = some q → Step C box peer x { x with queue := q }

/-- What can come after `x`, in any number of steps. -/
inductive Sys.Steps (C : Config L S U) (box : S → List (Stored L)) (peer : Nat → Peer S U) (x : Sys L) : Sys L → Prop
  | refl : Steps C box peer x x
  | step {y z} : Steps C box peer x y → Sys.Step C box peer y z → Steps C box peer x z

/-- The system for ever: one step after another. -/
structure Sys.Forever (C : Config L S U) (box : S → List (Stored L)) (peer : Nat → Peer S U) where
  st : Nat → Sys L
  first : st 0 = Sys.init
  next : ∀ n, Sys.Step C box peer (st n) (st (n + 1))

/-- The mail is waiting in the queue, or in the hands of a task, or the transport has accepted it. -/
def Safe (q : Queue.St) (m : MailId) : Prop :=
  q.store m = .queued ∨ (∃ g, q.store m = .inflight g) ∨ q.store m = .gone ∧ Queue.Accepted q.log m

end Verif.Spec
