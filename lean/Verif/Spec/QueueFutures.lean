import Verif.Model.QueueFutures

/-! # Specification: the futures of the queue (C123) -/

namespace Verif.QFut
open Queue

/-- The answers an operation can give by its type (storage.rs, mail.rs, transport.rs; `Delay`). -/
inductive Fits : Op → Ans → Prop
  | err {o} : Fits o .err
  | sendStart {m c} : Fits (.sendStart m) (.inflight c)
  | getMail {c b} : Fits (.getMail c) (.mail b)
  | transportSend {c b} : Fits (.transportSend c b) .ok
  | sendDone {c} : Fits (.sendDone c) .ok
  | sendCancel {c m} : Fits (.sendCancel c) (.queued m)
  | delay {t c} : Fits (.delay t c) .ok
  | cancelFound {c m} : Fits (.cancelFound c) (.queued m)

/-- How a task stands: it waits for an operation, or it is over, with `Ok(())` or with an error. -/
inductive Stand where
  | waiting (o : Op)
  | over (ok : Bool)

/-- One poll of a task that waits for the operation `o`: that operation is polled. If it is not ready, that is all. When it answers,
the task does what `next` (the transition system of the queue) says: it is over, or a retry is spawned and it is over, or the next
operation is called, and polled at once. -/
inductive OnePoll : Op → List (Option Ans) → List PEv → Stand → Prop
  | noAnswer {o} : OnePoll o [] [.polled o none] (.waiting o)
  | notReady {o as} : OnePoll o (none :: as) [.polled o none] (.waiting o)
  | over {o a as} : next o a = .finish → OnePoll o (some a :: as) [.polled o (some a)] (.over (a ≠ .err))
  | retry {o a as m} : next o a = .spawn (.sendStart m) →
      OnePoll o (some a :: as) [.polled o (some a), .did (.spawnSend m)] (.over true)
  | goOn {o a as o' es out} : next o a = .goOn o' → OnePoll o' as es out →
      OnePoll o (some a :: as) (.polled o (some a) :: .did (.call o') :: es) out

/-- The polls of a task. -/
inductive Life : Op → List (List (Option Ans)) → List (List PEv) → Stand → Prop
  | nothing {o} : Life o [] [] (.waiting o)
  | again {o as es o' polls ess out} : OnePoll o as es (.waiting o') → Life o' polls ess out →
      Life o (as :: polls) (es :: ess) out
  | last {o as es ok polls} : OnePoll o as es (.over ok) → Life o (as :: polls) [es] (.over ok)

/-- The future's own answer agrees. -/
def Out.Agrees : Out → Stand → Prop
  | .notReady _, .waiting _ => True
  | .ready v, .over ok => v = if ok then .unit else .err
  | _, _ => False

/-- All that is seen of a task from its creation on, given its polls. -/
def Built.trace (b : Built) (polls : List (List (Option Ans))) : List PEv :=
  b.1.map .did ++ (b.2.polls polls).1.flatten

/-- What is seen of a poll, without the polls of operations that are not ready. -/
def seen : List PEv → List PEv := List.filter fun
  | .polled _ none => false
  | _ => true

/-- The answers that task `i` gets in an execution of the transition system. -/
def heard (i : Nat) : List Act → List Ans := List.filterMap fun
  | .answer j a _ => if j = i then some a else none
  | _ => none

/-- What the record of the transition system tells of task `i`. (`send_start` of a retry is called just before the retry is spawned,
in one closure; the record has it just after.) -/
def told (i : Nat) : List Queue.Ev → List PEv
  | .spawned _ j _ :: .call r' j' o :: es =>
    match o with
    | .sendStart m => if j = i then .did (.spawnSend m) :: told i es else (if j' = i then [.did (.call o)] else []) ++ told i es
    | _ => (if j' = i then [.did (.call o)] else []) ++ told i es
  | .answer _ j o a :: es => (if j = i then [.polled o (some a)] else []) ++ told i es
  | .call _ j o :: es => (if j = i then [.did (.call o)] else []) ++ told i es
  | _ :: es => told i es
  | [] => []

/-- How a poll of a stream in `for_each` ends. -/
inductive Fin where
  | notReady
  | ended
  | err

/-- One poll of `stream.for_each(closure)`: the stream is polled until it is not ready, ends or fails; for each item it yields, the
closure is run once (`eff`), before the stream is polled again. -/
inductive Each {α : Type} (ev : SAns α → REv) (eff : α → Eff) : List (SAns α) → List REv → Fin → Prop
  | noAnswer : Each ev eff [] [ev .notReady] .notReady
  | notReady {as} : Each ev eff (.notReady :: as) [ev .notReady] .notReady
  | ended {as} : Each ev eff (.ended :: as) [ev .ended] .ended
  | err {as} : Each ev eff (.err :: as) [ev .err] .err
  | item {x as es fin} : Each ev eff as es fin → Each ev eff (.item x :: as) (ev (.item x) :: .did (eff x) :: es) fin

/-- How `run` stands. -/
inductive RStand where
  | listing
  | finding
  | over (ok : Bool)

/-- One poll of `run`, called at the time `startup`. -/
inductive RunPoll (startup : Nat) : RStand → List (SAns MailId) → List (SAns Claim) → List REv → RStand → Prop
  | listing {as bs es} : Each .polledList .spawnSend as es .notReady → RunPoll startup .listing as bs es .listing
  | listFailed {as bs es} : Each .polledList .spawnSend as es .err → RunPoll startup .listing as bs es (.over false)
  | listed {as bs es es' out} : Each .polledList .spawnSend as es .ended → RunPoll startup .finding as bs es' out →
      RunPoll startup .listing as bs (es ++ .calledFind :: es') out
  | finding {as bs es} : Each .polledFind (.spawnRecover (startup + 3600)) bs es .notReady → RunPoll startup .finding as bs es .finding
  | findFailed {as bs es} : Each .polledFind (.spawnRecover (startup + 3600)) bs es .err →
      RunPoll startup .finding as bs es (.over false)
  | found {as bs es} : Each .polledFind (.spawnRecover (startup + 3600)) bs es .ended → RunPoll startup .finding as bs es (.over true)

/-- The polls of `run`. -/
inductive RunLife (startup : Nat) : RStand → List (List (SAns MailId) × List (SAns Claim)) → List (List REv) → RStand → Prop
  | nothing {st} : RunLife startup st [] [] st
  | again {st as bs es st' polls ess out} : RunPoll startup st as bs es st' → (∀ ok, st' ≠ .over ok) →
      RunLife startup st' polls ess out → RunLife startup st ((as, bs) :: polls) (es :: ess) out
  | last {st as bs es ok polls} : RunPoll startup st as bs es (.over ok) → RunLife startup st ((as, bs) :: polls) [es] (.over ok)

/-- What `run` itself answers agrees. -/
def ROut.Agrees : ROut → RStand → Prop
  | .notReady _, .listing => True
  | .notReady _, .finding => True
  | .ready, .over true => True
  | .err, .over false => True
  | _, _ => False

/-- What the streams of run `r` answer in an execution of the transition system. -/
def lists (r : Nat) : List Act → List (SAns MailId) := List.filterMap fun
  | .list r' m => if r' = r then some (.item m) else none
  | .listEnd r' => if r' = r then some .ended else none
  | .listFail r' => if r' = r then some .err else none
  | _ => none

def finds (r : Nat) : List Act → List (SAns Claim) := List.filterMap fun
  | .find r' c => if r' = r then some (.item c) else none
  | .findEnd r' => if r' = r then some .ended else none
  | .findFail r' => if r' = r then some .err else none
  | _ => none

/-- What the record tells of run `r`; after an item, what is called for it. -/
def rtold (r : Nat) : List Queue.Ev → List REv
  | .listed r' m :: .call _ _ o :: es =>
    (if r' = r then [.polledList (.item m)] ++ (match o with | .sendStart m' => [.did (.spawnSend m')] | _ => []) else []) ++ rtold r es
  | .found r' c :: .call _ _ o :: es =>
    (if r' = r then [.polledFind (.item c)] ++ (match o with | .delay t c' => [.did (.spawnRecover t c')] | _ => []) else [])
      ++ rtold r es
  | .listEnded r' :: es => (if r' = r then [.polledList .ended, .calledFind] else []) ++ rtold r es
  | .listFailed r' :: es => (if r' = r then [.polledList .err] else []) ++ rtold r es
  | .findEnded r' :: es => (if r' = r then [.polledFind .ended] else []) ++ rtold r es
  | .findFailed r' :: es => (if r' = r then [.polledFind .err] else []) ++ rtold r es
  | _ :: es => rtold r es
  | [] => []

/-- What is seen of a poll of `run`, without the polls of streams that are not ready. -/
def rseen : List REv → List REv := List.filter fun
  | .polledList .notReady => false
  | .polledFind .notReady => false
  | _ => true

end Verif.QFut
