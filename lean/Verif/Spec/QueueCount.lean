import Verif.Model.Queue
/-
How often the queue sends a mail: counting in the record.
-/
namespace Verif.Queue

/-- The entry says that the transport accepted the mail `m`. -/
def Entry.accepts (m : MailId) (e : Entry) : Bool :=
  match e.ev with
  | .answer _ _ (.transportSend _ b) .ok => b == m
  | _ => false

/-- The entry says that a process crashed, that `send_done` failed for the mail `m`, or that a task died while it was sending the
mail `m`, or in `send_done`. -/
def Entry.mishap (m : MailId) (e : Entry) : Bool :=
  match e.ev with
  | .crash _ => true
  | .answer _ _ (.sendDone c) .err => c.mail == m
  | .died _ _ (.transportSend c _) => c.mail == m
  | .died _ _ (.sendDone c) => c.mail == m
  | _ => false

/-- The entry says that the transport was called with the claim `c`. -/
def Entry.transports (c : Claim) (e : Entry) : Bool :=
  match e.ev with
  | .call _ _ (.transportSend d _) => d == c
  | _ => false

/-- How often the transport accepted the mail `m`. -/
def acceptances (m : MailId) (log : List Entry) : Nat := log.countP (Entry.accepts m)

/-- How many crashes, of any instance, and how many failures of `send_done`, and deaths of tasks, for the mail `m` there were. -/
def mishaps (m : MailId) (log : List Entry) : Nat := log.countP (Entry.mishap m)

/-- How often the transport was called for one claim, that is, within one attempt. -/
def transports (c : Claim) (log : List Entry) : Nat := log.countP (Entry.transports c)

/-- The entry says that an attempt of the mail `m` was begun: `send_start` was called. -/
def Entry.attempts (m : MailId) (e : Entry) : Bool :=
  match e.ev with
  | .call _ _ (.sendStart x) => x == m
  | _ => false

/-- The entry says that a mail `m` was handed to the queue: `list_queue` yielded it, `send_cancel` or `cancel_found_inflight`
put it back into the queue. -/
def Entry.hands (m : MailId) (e : Entry) : Bool :=
  match e.ev with
  | .listed _ x => x == m
  | .answer _ _ (.sendCancel _) (.queued x) => x == m
  | .answer _ _ (.cancelFound _) (.queued x) => x == m
  | _ => false

/-- The entry says that the transport refused the mail `m`. -/
def Entry.refuses (m : MailId) (e : Entry) : Bool :=
  match e.ev with
  | .answer _ _ (.transportSend _ b) .err => b == m
  | _ => false

/-- How often an attempt of the mail `m` was begun. -/
def attempts (m : MailId) (log : List Entry) : Nat := log.countP (Entry.attempts m)

/-- How often the mail `m` was handed to the queue. -/
def hands (m : MailId) (log : List Entry) : Nat := log.countP (Entry.hands m)

/-- How often the transport refused the mail `m`. -/
def refusals (m : MailId) (log : List Entry) : Nat := log.countP (Entry.refuses m)

end Verif.Queue
