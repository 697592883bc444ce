import Verif.Model.FreeQueue
/-
Notions for the queue in an environment that keeps no contract (C127).
-/
namespace Verif.FreeQ
open Queue

/-- `s` has come about. -/
def Happens (s : St) : Prop := ∃ acts, exec init acts = some s

/-- The task an event belongs to. -/
def actor : Ev → Option Nat
  | .call _ i _ => some i
  | .answer _ i _ _ => some i
  | .spawned _ i _ => some i
  | .ended _ i => some i
  | .died _ i _ => some i
  | _ => none

/-- What is recorded of task `i`. -/
def eventsOf (i : Nat) (log : List Entry) : List Ev := (log.map (·.ev)).filter fun e => actor e == some i

/-- The run an event belongs to. -/
def runOf : Ev → Option Nat
  | .enqueued _ => none
  | .started r => some r
  | .listed r _ => some r
  | .listEnded r => some r
  | .listFailed r => some r
  | .found r _ => some r
  | .findEnded r => some r
  | .findFailed r => some r
  | .call r _ _ => some r
  | .answer r _ _ _ => some r
  | .spawned r _ _ => some r
  | .ended r _ => some r
  | .crash r => some r
  | .died r _ _ => some r

/-- The first half of a delivery: `send_start` has given an in-flight mail, `get_mail` a message, and the transport has it. -/
def handed (r i : Nat) (m : MailId) (c : Claim) (b : MailId) : List Ev :=
  [.call r i (.sendStart m), .answer r i (.sendStart m) (.inflight c),
   .call r i (.getMail c), .answer r i (.getMail c) (.mail b),
   .call r i (.transportSend c b)]

/-- All that one delivery of a queued mail can come to. -/
inductive Delivers (r i : Nat) (m : MailId) : List Ev → Prop
  | notStarted : Delivers r i m [.call r i (.sendStart m), .answer r i (.sendStart m) .err, .ended r i]
  | noMessage (c : Claim) : Delivers r i m
      [.call r i (.sendStart m), .answer r i (.sendStart m) (.inflight c),
       .call r i (.getMail c), .answer r i (.getMail c) .err, .ended r i]
  | delivered (c : Claim) (b : MailId) : Delivers r i m (handed r i m c b ++
      [.answer r i (.transportSend c b) .ok, .call r i (.sendDone c), .answer r i (.sendDone c) .ok, .ended r i])
  | deliveredNotMarked (c : Claim) (b : MailId) : Delivers r i m (handed r i m c b ++
      [.answer r i (.transportSend c b) .ok, .call r i (.sendDone c), .answer r i (.sendDone c) .err, .ended r i])
  | refused (c : Claim) (b : MailId) (m' j : Nat) : Delivers r i m (handed r i m c b ++
      [.answer r i (.transportSend c b) .err, .call r i (.sendCancel c), .answer r i (.sendCancel c) (.queued m'), .spawned r i j])
  | refusedNotPutBack (c : Claim) (b : MailId) : Delivers r i m (handed r i m c b ++
      [.answer r i (.transportSend c b) .err, .call r i (.sendCancel c), .answer r i (.sendCancel c) .err, .ended r i])

/-- All that a task can come to: a delivery, or the recovery of a mail found in flight, which is a delivery after a wait. -/
inductive Life (r i : Nat) : List Ev → Prop
  | delivery (m : MailId) (l : List Ev) : Delivers r i m l → Life r i l
  | noTimer (t : Nat) (c : Claim) : Life r i [.call r i (.delay t c), .answer r i (.delay t c) .err, .ended r i]
  | notRecovered (t : Nat) (c : Claim) : Life r i
      [.call r i (.delay t c), .answer r i (.delay t c) .ok,
       .call r i (.cancelFound c), .answer r i (.cancelFound c) .err, .ended r i]
  | recovery (t : Nat) (c : Claim) (m : MailId) (l : List Ev) : Delivers r i m l → Life r i
      ([.call r i (.delay t c), .answer r i (.delay t c) .ok,
        .call r i (.cancelFound c), .answer r i (.cancelFound c) (.queued m)] ++ l)

/-- What a call follows on, at time `t`: the task is new, and was spawned just now, for a handle that was yielded just now, or that the
task that spawns it has just been given back; or the last thing that happened in this task is the answer the call makes use of. -/
inductive Warranted (pre : List Entry) (t r i : Nat) : Op → Prop
  | listed (pre' : List Entry) (m : MailId) : pre = pre' ++ [⟨t, .listed r m⟩] → eventsOf i pre' = [] →
      Warranted pre t r i (.sendStart m)
  | found (pre' : List Entry) (c : Claim) (t0 : Nat) : pre = pre' ++ [⟨t, .found r c⟩] → ⟨t0, .started r⟩ ∈ pre' → eventsOf i pre' = [] →
      Warranted pre t r i (.delay (t0 + 3600) c)
  | again (pre' : List Entry) (m : MailId) (j : Nat) (c : Claim) : pre = pre' ++ [⟨t, .spawned r j i⟩] → eventsOf i pre' = [] →
      (eventsOf j pre').getLast? = some (.answer r j (.sendCancel c) (.queued m)) → Warranted pre t r i (.sendStart m)
  | fetch (m : MailId) (c : Claim) : (eventsOf i pre).getLast? = some (.answer r i (.sendStart m) (.inflight c)) →
      Warranted pre t r i (.getMail c)
  | hand (c : Claim) (b : MailId) : (eventsOf i pre).getLast? = some (.answer r i (.getMail c) (.mail b)) →
      Warranted pre t r i (.transportSend c b)
  | done (c : Claim) (b : MailId) : (eventsOf i pre).getLast? = some (.answer r i (.transportSend c b) .ok) →
      Warranted pre t r i (.sendDone c)
  | cancel (c : Claim) (b : MailId) : (eventsOf i pre).getLast? = some (.answer r i (.transportSend c b) .err) →
      Warranted pre t r i (.sendCancel c)
  | recover (t' : Nat) (c : Claim) : (eventsOf i pre).getLast? = some (.answer r i (.delay t' c) .ok) →
      Warranted pre t r i (.cancelFound c)
  | recovered (c : Claim) (m : MailId) : (eventsOf i pre).getLast? = some (.answer r i (.cancelFound c) (.queued m)) →
      Warranted pre t r i (.sendStart m)

/-- The kinds of operations. -/
inductive Kind where
  | sendStart | getMail | transportSend | sendDone | sendCancel | delay | cancelFound
  deriving DecidableEq

def kindOf : Op → Kind
  | .sendStart _ => .sendStart
  | .getMail _ => .getMail
  | .transportSend _ _ => .transportSend
  | .sendDone _ => .sendDone
  | .sendCancel _ => .sendCancel
  | .delay _ _ => .delay
  | .cancelFound _ => .cancelFound

/-- The calls of operations of kind `k` by task `i`. -/
def callsOf (i : Nat) (k : Kind) (log : List Entry) : List Entry :=
  log.filter fun e => match e.ev with
    | .call _ j o => j == i && kindOf o == k
    | _ => false

/-- An action of task `i`, or of the operation it waits for. -/
def isStepOf (i : Nat) : Act → Bool
  | .answer j _ _ => j == i
  | .proceed j => j == i
  | _ => false

/-- An execution that never ends: `a n` is the action taken in state `σ n`. -/
def Endless (σ : Nat → St) (a : Nat → Act) : Prop :=
  σ 0 = init ∧ ∀ n, step (σ n) (a n) = some (σ (n + 1))

/-- As long as task `i` is there, it comes to its turn again: what it waits for answers, and it is polled after that. -/
def Served (σ : Nat → St) (a : Nat → Act) (i : Nat) : Prop :=
  ∀ m, (σ m).task i ≠ none → ∃ n, m ≤ n ∧ (isStepOf i (a n) = true ∨ (σ n).task i = none)

/-- How many times something happened. -/
def times (p : Ev → Bool) (log : List Entry) : Nat := (log.filter fun e => p e.ev).length

/-- A message is given to the transport. -/
def isTransmission : Ev → Bool
  | .call _ _ (.transportSend _ _) => true
  | _ => false

/-- The transport refuses a message. -/
def isRefusal : Ev → Bool
  | .answer _ _ (.transportSend _ _) .err => true
  | _ => false

/-- `list_queue` or `find_inflight` yields a handle. -/
def isYield : Ev → Bool
  | .listed _ _ => true
  | .found _ _ => true
  | _ => false

/-- What is recorded of `run` number `r` itself. -/
def runEvents (r : Nat) (log : List Entry) : List Ev :=
  (log.map (·.ev)).filter fun e => runOf e == some r && (actor e).isNone && !(e matches .crash _)

/-- All that a `run` can have come to so far. -/
inductive RunSoFar (r : Nat) : List Ev → Prop
  | notYet : RunSoFar r []
  | listing (ms : List MailId) : RunSoFar r (.started r :: ms.map (.listed r))
  | listFailed (ms : List MailId) : RunSoFar r (.started r :: ms.map (.listed r) ++ [.listFailed r])
  | finding (ms : List MailId) (cs : List Claim) :
      RunSoFar r (.started r :: ms.map (.listed r) ++ .listEnded r :: cs.map (.found r))
  | findFailed (ms : List MailId) (cs : List Claim) :
      RunSoFar r (.started r :: ms.map (.listed r) ++ .listEnded r :: cs.map (.found r) ++ [.findFailed r])
  | finished (ms : List MailId) (cs : List Claim) :
      RunSoFar r (.started r :: ms.map (.listed r) ++ .listEnded r :: cs.map (.found r) ++ [.findEnded r])

/-- A state of the queue with a storage that keeps its contract, without the storage. -/
def forget (s : Queue.St) : St := ⟨s.now, s.runs, s.task, s.tids, s.log⟩

end Verif.FreeQ
