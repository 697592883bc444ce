import Verif.Model.Queue
/-
The queue (run.rs, send_queued_mail.rs) in an environment of which nothing is assumed but the types. In Model/Queue.lean the storage
keeps a contract: it lists mails it has, moves a mail when it says so, gives out fresh claims, refuses stale ones, answers the right
message; the timer is not early. Here `list_queue` and `find_inflight` may yield anything, any number of times; any operation may answer
anything of its type (storage.rs, mail.rs, transport.rs), at any time, or never; `Delay` may be early. So there is no storage in the state.
The code is the same: `next`, and the reactions of `run`.
-/
namespace Verif.FreeQ
open Queue

/-- The types of the operations: storage.rs:10-24, mail.rs:14-19, transport.rs:8-12, `Delay`. -/
def typed : Op → Ans → Bool
  | _, .err => true
  | .sendStart _, .inflight _ => true
  | .getMail _, .mail _ => true
  | .transportSend _ _, .ok => true
  | .sendDone _, .ok => true
  | .sendCancel _, .queued _ => true
  | .delay _ _, .ok => true
  | .cancelFound _, .queued _ => true
  | _, _ => false

/-- The state of the world, without the storage. -/
structure St where
  now : Nat
  runs : Nat → Run
  task : Nat → Option Task
  tids : Nat
  log : List Entry

/-- Nothing has happened yet. -/
def init : St := ⟨0, fun _ => ⟨.notStarted, 0⟩, fun _ => none, 0, []⟩

/-- Records an event. -/
def St.note (s : St) (e : Ev) : St := { s with log := s.log ++ [⟨s.now, e⟩] }

/-- `tokio::spawn` of a future that starts by calling `o` (run.rs:30-34, 44-49, send_queued_mail.rs:33). -/
def St.spawn (s : St) (r : Nat) (o : Op) : St :=
  { s with task := upd s.task s.tids (some ⟨r, o, none⟩), tids := s.tids + 1 }.note (.call r s.tids o)

/-- A task goes on with an answer (`next`: send_queued_mail.rs:22-39, run.rs:44-49). -/
def St.proceed (s : St) (tid : Nat) (t : Task) (a : Ans) : St :=
  match next t.op a with
  | .finish => { s with task := upd s.task tid none }.note (.ended t.run tid)
  | .goOn o => { s with task := upd s.task tid (some ⟨t.run, o, none⟩) }.note (.call t.run tid o)
  | .spawn o => ({ s with task := upd s.task tid none }.note (.spawned t.run tid s.tids)).spawn t.run o

/-- One action (those of Model/Queue.lean; whether an operation that fails has had an effect is no matter here); `none` if it is not
possible, because the code is not there. -/
def step (s : St) : Act → Option St
  | .tick d => some { s with now := s.now + d }
  | .enqueue m => some (s.note (.enqueued m))
  -- `run` is called (run.rs:24-28)
  | .start r =>
    if (s.runs r).phase = .notStarted then
      some ({ s with runs := upd s.runs r ⟨.listing, s.now⟩ }.note (.started r))
    else none
  -- `list_queue` yields a handle (run.rs:29-35)
  | .list r m =>
    if (s.runs r).phase = .listing then some ((s.note (.listed r m)).spawn r (sendQueuedMail m)) else none
  -- `list_queue` ends (run.rs:36-40), or fails
  | .listEnd r =>
    if (s.runs r).phase = .listing then
      some ({ s with runs := upd s.runs r { s.runs r with phase := .finding } }.note (.listEnded r))
    else none
  | .listFail r =>
    if (s.runs r).phase = .listing then
      some ({ s with runs := upd s.runs r { s.runs r with phase := .failed } }.note (.listFailed r))
    else none
  -- `find_inflight` yields a handle (run.rs:40-50), ends, or fails
  | .find r c =>
    if (s.runs r).phase = .finding then
      some ((s.note (.found r c)).spawn r (.delay ((s.runs r).startup + recoveryDelay) c))
    else none
  | .findEnd r =>
    if (s.runs r).phase = .finding then
      some ({ s with runs := upd s.runs r { s.runs r with phase := .finished } }.note (.findEnded r))
    else none
  | .findFail r =>
    if (s.runs r).phase = .finding then
      some ({ s with runs := upd s.runs r { s.runs r with phase := .failed } }.note (.findFailed r))
    else none
  -- an operation answers
  | .answer tid a _ =>
    match s.task tid with
    | some ⟨r, o, none⟩ =>
      if typed o a then some ({ s with task := upd s.task tid (some ⟨r, o, some a⟩) }.note (.answer r tid o a)) else none
    | _ => none
  -- a task goes on
  | .proceed tid =>
    match s.task tid with
    | some ⟨r, o, some a⟩ => some (s.proceed tid ⟨r, o, some a⟩ a)
    | _ => none
  -- a process crashes
  | .crash r =>
    if (s.runs r).phase ≠ .notStarted then
      some ({ s with
        runs := upd s.runs r { s.runs r with phase := .crashed }
        task := fun tid => match s.task tid with
          | some t => if t.run = r then none else some t
          | none => none }.note (.crash r))
    else none
  -- a task is dropped, or panics
  | .die tid =>
    match s.task tid with
    | some t => some ({ s with task := upd s.task tid none }.note (.died t.run tid t.op))
    | none => none

/-- Several actions in a row. -/
def exec (s : St) : List Act → Option St
  | [] => some s
  | a :: as =>
    match step s a with
    | some s' => exec s' as
    | none => none

end Verif.FreeQ
