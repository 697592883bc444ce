import Verif.Model.Around
import Verif.Spec.Env
import Verif.Spec.SinkPoll
/-
The session in an arbitrary environment with a sink (C126).
-/
namespace Verif.Spec
open Around
variable {L : IpLib}

/-- As `Surroundings`, but the writer is given by what it makes of a line. -/
def withWriter (W : Surroundings L) (write : Nat → Env.WriterAns) : Env.Environment L := { W.others with write := write }

/-- The same place, no matter how much of a reply has been sent. -/
inductive SameStand : Env.PC L → Env.PC L → Prop
  | same (pc : Env.PC L) : SameStand pc pc
  | send (r : Reply) (left left' : List Bytes) (a : Task.After L) : SameStand (.send r left a) (.send r left' a)

/-- What `SendAll::poll` does by single calls, on a sink `R`; at most `k` of them. -/
def callByCall {σ : Type} (R : RawSink σ) (code : ReplyCode) : Nat → Sending → Raw σ → Option (PollRes × Sending × Raw σ)
  | 0, _, _ => none
  | k + 1, x, s =>
    match x.next code with
    | (.panic p, y) => some (.panic p, y, s)
    | (.start l, y) =>
      match s.startSend R l.sendTo with
      | (.ok, s) => callByCall R code k { y with held := none } s
      | (_, s) => some (.error, y, s)
    | (.ready, y) =>
      match s.pollReady R with
      | (.ready, s) => callByCall R code k ⟨none, y.buffered, y.left⟩ s
      | (a, s) => some (a.res, y, s)
    | (.flush, y) => some ((s.pollFlush R).1.res, y, (s.pollFlush R).2)

/-- Each of the operations of the environment answers in some later step, whenever it is asked. -/
structure Answering (W : Surroundings L) : Prop where
  pollReady : ∀ n, ∃ t, n ≤ t ∧ W.pollReady t ≠ .pending
  pollFlush : ∀ n, ∃ t, n ≤ t ∧ W.pollFlush t ≠ .pending
  newMail : ∀ n, ∃ t, n ≤ t ∧ W.others.newMail t ≠ .pending
  filterFrom : ∀ n, ∃ t, n ≤ t ∧ W.others.filterFrom t ≠ .pending
  filterTo : ∀ n, ∃ t, n ≤ t ∧ (W.others.filterTo t).2 ≠ .pending
  filterData : ∀ n, ∃ t, n ≤ t ∧ W.others.filterData t ≠ .pending

end Verif.Spec
