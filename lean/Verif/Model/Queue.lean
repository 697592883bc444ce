/-
Model of smtp-queue: run.rs, send_queued_mail.rs and the interfaces storage.rs, mail.rs, transport.rs.

What is code and what is environment. The code of the crate is two functions, `send_queued_mail` and `run`;
here they are `sendQueuedMail`, `next` (what a spawned future does with the answer to the operation it waits
for) and the reactions of `run` to the items of its two streams. Storage, transport and timer are traits or
libraries: they are the environment, free to do anything their interface allows. An operation of the storage
is called, has its effect at some later moment (or never), and answers at that moment; it may fail with or
without having had its effect. Any number of instances of `run` may work on one storage, one after another or at
the same time, and any of them may crash at any moment, which ends all its tasks; and any task may die alone at any moment. (An operation
of a crashed process that has its effect only after the crash is covered too: `run` fails, and each of its tasks dies when its operation
has had its effect.)

An execution is a sequence of atomic actions; `step` says which actions are possible and what they do. The
record `log` (ghost) keeps everything that happened, with the time.

Not modelled: the contents of mails (a mail is an identity; a message body is the identity of the mail it belongs
to), wakers and executors (every runnable task may run next; the polls are in Model/QueueFutures.lean), `Delay` rounding, the texts of refusals (ignored by
the code).
-/
namespace Verif.Queue

abbrev MailId := Nat

/-- What identifies one move of a mail into the in-flight area: `IM` and `FIM` (mail.rs:13-25). The name there is
"randomly picked", so never used twice (lib.rs:35-39): `gen` is fresh for each move. -/
structure Claim where
  mail : MailId
  gen : Nat
  deriving DecidableEq, Repr

/-- Where a mail is in the storage (lib.rs:26-28: a queue directory and an in-progress directory). `gone`: it was
there and has been removed by `send_done`. -/
inductive Loc where
  | absent
  | queued
  | inflight (gen : Nat)
  | gone
  deriving DecidableEq, Repr

/-- The operations a task may be waiting for: the methods of `Storage` (storage.rs:10-25), `InflightMail::get_mail`
(mail.rs:15-19), `Transport::send` (transport.rs:8-12), with the claim its closure holds on to, and the `Delay` of
run.rs:45. `QM` handles are identified with their mail. -/
inductive Op where
  | sendStart (m : MailId)
  | getMail (c : Claim)
  | transportSend (c : Claim) (body : MailId)
  | sendDone (c : Claim)
  | sendCancel (c : Claim)
  | delay (until_ : Nat) (c : Claim)
  | cancelFound (c : Claim)
  deriving DecidableEq, Repr

/-- The answers: an error, `()`, a queued mail, an in-flight mail, a message. -/
inductive Ans where
  | err
  | ok
  | queued (m : MailId)
  | inflight (c : Claim)
  | mail (body : MailId)
  deriving DecidableEq, Repr

/-- What a task does with an answer: it ends, it waits for another operation, or it spawns a new task that starts
with an operation, and ends. -/
inductive Next where
  | finish
  | goOn (o : Op)
  | spawn (o : Op)
  deriving DecidableEq, Repr

/-- The first operation of `send_queued_mail` (send_queued_mail.rs:23-24). -/
def sendQueuedMail (m : MailId) : Op := .sendStart m

/-- The chain of futures of `send_queued_mail` (send_queued_mail.rs:22-39), and of the recovery task of `run`
(run.rs:44-49). -/
def next : Op → Ans → Next
  -- `.and_then(|im| im.get_mail()..)` (send_queued_mail.rs:25)
  | .sendStart _, .inflight c => .goOn (.getMail c)
  -- `.and_then(|(im, mail)| transport.send(mail)..)` (send_queued_mail.rs:26-27)
  | .getMail c, .mail b => .goOn (.transportSend c b)
  -- `Ok(()) => storage.send_done(im)` (send_queued_mail.rs:29)
  | .transportSend c _, .ok => .goOn (.sendDone c)
  -- `Err(..) => storage.send_cancel(im)` (send_queued_mail.rs:30-32)
  | .transportSend c _, .err => .goOn (.sendCancel c)
  -- `.and_then(|qm| tokio::spawn(send_queued_mail(storage, transport, qm)))` (send_queued_mail.rs:32-34)
  | .sendCancel _, .queued m => .spawn (sendQueuedMail m)
  -- `.and_then(move |()| storage_copy.cancel_found_inflight(fim))` (run.rs:47)
  | .delay _ c, .ok => .goOn (.cancelFound c)
  -- `.and_then(move |qm| send_queued_mail(storage_copy2, transport_copy, qm))` (run.rs:48)
  | .cancelFound _, .queued m => .goOn (sendQueuedMail m)
  -- success of the last operation, and every other error: the task is over
  | _, _ => .finish

/-- What `run` is doing (run.rs:27-51). -/
inductive Phase where
  | notStarted
  /-- in `list_queue().for_each` -/
  | listing
  /-- in `find_inflight().for_each` -/
  | finding
  /-- returned `Ok(())` -/
  | finished
  /-- returned `Err(())`, one of the streams having failed -/
  | failed
  /-- its process crashed -/
  | crashed
  deriving DecidableEq, Repr

structure Run where
  phase : Phase
  startup : Nat
  deriving DecidableEq, Repr

structure Task where
  run : Nat
  op : Op
  /-- the answer, once there is one -/
  ans : Option Ans
  deriving DecidableEq, Repr

/-- What is recorded. -/
inductive Ev where
  /-- `enqueue` put a new mail into the queue -/
  | enqueued (m : MailId)
  /-- `run` was called -/
  | started (r : Nat)
  /-- `list_queue` yielded a mail, ended, failed -/
  | listed (r : Nat) (m : MailId)
  | listEnded (r : Nat)
  | listFailed (r : Nat)
  /-- `find_inflight` yielded a mail, ended, failed -/
  | found (r : Nat) (c : Claim)
  | findEnded (r : Nat)
  | findFailed (r : Nat)
  /-- a task called an operation -/
  | call (r tid : Nat) (o : Op)
  /-- the operation answered -/
  | answer (r tid : Nat) (o : Op) (a : Ans)
  /-- task `tid` spawned task `new` -/
  | spawned (r tid new : Nat)
  /-- a task ended -/
  | ended (r tid : Nat)
  | crash (r : Nat)
  /-- task `tid`, at operation `o`, was dropped or panicked -/
  | died (r tid : Nat) (o : Op)
  deriving DecidableEq, Repr

structure Entry where
  time : Nat
  ev : Ev
  deriving DecidableEq, Repr

/-- The state of the world. `gens` and `tids` are the next fresh generation and task number, `claims` the claims
ever made, with the time (ghost). -/
structure St where
  store : MailId → Loc
  gens : Nat
  claims : List (Claim × Nat)
  now : Nat
  runs : Nat → Run
  task : Nat → Option Task
  tids : Nat
  log : List Entry

/-- Nothing has happened yet. -/
def init : St where
  store _ := .absent
  gens := 0
  claims := []
  now := 0
  runs _ := ⟨.notStarted, 0⟩
  task _ := none
  tids := 0
  log := []

def upd {α : Type} (f : Nat → α) (k : Nat) (v : α) : Nat → α := fun x => if x = k then v else f x

/-- Records an event. -/
def St.note (s : St) (e : Ev) : St := { s with log := s.log ++ [⟨s.now, e⟩] }

/-- `tokio::spawn` of a future that starts by calling `o`. -/
def St.spawn (s : St) (r : Nat) (o : Op) : St :=
  { s with task := upd s.task s.tids (some ⟨r, o, none⟩), tids := s.tids + 1 }.note (.call r s.tids o)

/-- A task goes on with an answer. -/
def St.proceed (s : St) (tid : Nat) (t : Task) (a : Ans) : St :=
  match next t.op a with
  | .finish => { s with task := upd s.task tid none }.note (.ended t.run tid)
  | .goOn o => { s with task := upd s.task tid (some ⟨t.run, o, none⟩) }.note (.call t.run tid o)
  | .spawn o => ({ s with task := upd s.task tid none }.note (.spawned t.run tid s.tids)).spawn t.run o

/-- `Duration::from_secs(3600)` (run.rs:45) -/
def recoveryDelay : Nat := 3600

/-- The move of a mail into the in-flight area. -/
def St.take (s : St) (m : MailId) : St :=
  { s with store := upd s.store m (.inflight s.gens), gens := s.gens + 1
           claims := (⟨m, s.gens⟩, s.now) :: s.claims }

/-- The environment: what the answer `a` to the operation `o` does to the storage, `none` if the interface does not
allow this answer now. For an error, `eff` tells whether the operation had its effect nevertheless. An operation
on a claim that is no longer current fails. -/
def effect (s : St) (o : Op) (a : Ans) (eff : Bool) : Option St :=
  match o, a with
  | .sendStart m, .inflight c =>
    if s.store m = .queued ∧ c = ⟨m, s.gens⟩ then some (s.take m) else none
  | .sendStart m, .err =>
    if eff then (if s.store m = .queued then some (s.take m) else none) else some s
  | .getMail c, .mail b => if b = c.mail then some s else none
  | .getMail _, .err => some s
  | .transportSend _ _, .ok => some s
  | .transportSend _ _, .err => some s
  | .sendDone c, .ok =>
    if s.store c.mail = .inflight c.gen then some { s with store := upd s.store c.mail .gone } else none
  | .sendDone c, .err =>
    if eff then
      (if s.store c.mail = .inflight c.gen then some { s with store := upd s.store c.mail .gone } else none)
    else some s
  | .sendCancel c, .queued m =>
    if m = c.mail ∧ s.store c.mail = .inflight c.gen then some { s with store := upd s.store c.mail .queued } else none
  | .sendCancel c, .err =>
    if eff then
      (if s.store c.mail = .inflight c.gen then some { s with store := upd s.store c.mail .queued } else none)
    else some s
  | .delay t _, .ok => if t ≤ s.now then some s else none
  | .delay _ _, .err => some s
  | .cancelFound c, .queued m =>
    if m = c.mail ∧ s.store c.mail = .inflight c.gen then some { s with store := upd s.store c.mail .queued } else none
  | .cancelFound c, .err =>
    if eff then
      (if s.store c.mail = .inflight c.gen then some { s with store := upd s.store c.mail .queued } else none)
    else some s
  | _, _ => none

/-- The actions. -/
inductive Act where
  | tick (d : Nat)
  | enqueue (m : MailId)
  | start (r : Nat)
  | list (r : Nat) (m : MailId)
  | listEnd (r : Nat)
  | listFail (r : Nat)
  | find (r : Nat) (c : Claim)
  | findEnd (r : Nat)
  | findFail (r : Nat)
  | answer (tid : Nat) (a : Ans) (eff : Bool)
  | proceed (tid : Nat)
  | crash (r : Nat)
  | die (tid : Nat)
  deriving DecidableEq, Repr

/-- One action; `none` if it is not possible. -/
def step (s : St) : Act → Option St
  -- time passes
  | .tick d => some { s with now := s.now + d }
  -- somebody calls `enqueue` (storage.rs:18-20) with a new mail, and it succeeds
  | .enqueue m =>
    if s.store m = .absent then some ({ s with store := upd s.store m .queued }.note (.enqueued m)) else none
  -- `run` is called: `startup = Instant::now()`, `storage.list_queue()` (run.rs:24-28)
  | .start r =>
    if (s.runs r).phase = .notStarted then
      some ({ s with runs := upd s.runs r ⟨.listing, s.now⟩ }.note (.started r))
    else none
  -- `list_queue` yields a mail, which may have left the queue meanwhile: `tokio::spawn(send_queued_mail(..))`
  -- (run.rs:29-35)
  | .list r m =>
    if (s.runs r).phase = .listing ∧ s.store m ≠ .absent then
      some ((s.note (.listed r m)).spawn r (sendQueuedMail m))
    else none
  -- `list_queue` ends: `.and_then(.. storage.find_inflight() ..)` (run.rs:36-40)
  | .listEnd r =>
    if (s.runs r).phase = .listing then
      some ({ s with runs := upd s.runs r { s.runs r with phase := .finding } }.note (.listEnded r))
    else none
  -- `list_queue` fails: so does `run`; also if the future of `run` is dropped, or panics (its tasks stay); `findFail` likewise
  | .listFail r =>
    if (s.runs r).phase = .listing then
      some ({ s with runs := upd s.runs r { s.runs r with phase := .failed } }.note (.listFailed r))
    else none
  -- `find_inflight` yields a mail that is, or was, in flight (run.rs:40-50)
  | .find r c =>
    if (s.runs r).phase = .finding ∧ c ∈ s.claims.map (·.1) then
      some ((s.note (.found r c)).spawn r (.delay ((s.runs r).startup + recoveryDelay) c))
    else none
  | .findEnd r =>
    if (s.runs r).phase = .finding then
      some ({ s with runs := upd s.runs r { s.runs r with phase := .finished } }.note (.findEnded r))
    else none
  | .findFail r =>
    if (s.runs r).phase = .finding then
      some ({ s with runs := upd s.runs r { s.runs r with phase := .failed } }.note (.findFailed r))
    else none
  -- an operation answers
  | .answer tid a eff =>
    match s.task tid with
    | some ⟨r, o, none⟩ =>
      (effect s o a eff).map fun s' =>
        { s' with task := upd s'.task tid (some ⟨r, o, some a⟩) }.note (.answer r tid o a)
    | _ => none
  -- a task goes on
  | .proceed tid =>
    match s.task tid with
    | some ⟨r, o, some a⟩ => some (s.proceed tid ⟨r, o, some a⟩ a)
    | _ => none
  -- the process of an instance of `run` crashes: its tasks are gone, the storage stays
  | .crash r =>
    if (s.runs r).phase ≠ .notStarted then
      some ({ s with
        runs := upd s.runs r { s.runs r with phase := .crashed }
        task := fun tid => match s.task tid with
          | some t => if t.run = r then none else some t
          | none => none }.note (.crash r))
    else none
  -- a task is dropped by its executor, or panics, in an operation or before it goes on: it is gone, and everything else stays (an
  -- operation that has had its effect when it panics has answered before: an error with effect, which the task does not see)
  | .die tid =>
    match s.task tid with
    | some t => some ({ s with task := upd s.task tid none }.note (.died t.run tid t.op))
    | none => none

/-- Several actions in a row. -/
def exec (s : St) : List Act → Option St
  | [] => some s
  | a :: as =>
    match step s a with
    | some s' => exec s' as
    | none => none

/-- The states an execution can reach whose actions all satisfy `P` where they take place. -/
inductive Reach (P : St → Act → Prop) : St → Prop
  | init : Reach P init
  | step {s s' a} : Reach P s → P s a → step s a = some s' → Reach P s'

end Verif.Queue
