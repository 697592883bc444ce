import Verif.Model.SinkPoll
/-
What the trait `Sink` asks of those who use a sink, and what a sink has been given.
-/
namespace Verif.Spec

/-- The call was answered with an error. -/
def _root_.Verif.Call.Failed : Call → Prop
  | .ready a => a = .error
  | .start _ r => r ≠ .ok
  | .flush a => a = .error

/-- The contract of `Sink`, for the calls made to a sink: `start_send` is called only when the call before it was a `poll_ready` that
found room, and after an error there are no more calls. -/
structure SinkContract (log : List Call) : Prop where
  room : ∀ before item r later, log = before ++ .start item r :: later → [.ready .ready] <:+ before
  stop : ∀ before c later, log = before ++ c :: later → c.Failed → later = []

/-- What the sink has been given. -/
def handed : List Call → List Bytes
  | [] => []
  | .start item .ok :: log => item :: handed log
  | .start item .errAccepted :: log => item :: handed log
  | _ :: log => handed log

/-- What the sink has been given before it last reported that everything is flushed. A sink that buffers may still hold the rest. -/
def flushed (log : List Call) : List Bytes := handed ((log.reverse.dropWhile (· ≠ .flush .ready)).reverse)

/-- A sink that does not fail, and does not answer `Pending` for ever: `wait st` bounds how often it still will before it finds room
or has flushed. -/
structure Willing {σ : Type} (R : RawSink σ) (wait : σ → Nat) : Prop where
  ready : ∀ st, (R.pollReady st).1 ≠ .error ∧ ((R.pollReady st).1 = .pending → wait (R.pollReady st).2 < wait st)
  start : ∀ st item, (R.startSend st item).1 = .ok
  flush : ∀ st, (R.pollFlush st).1 ≠ .error ∧ ((R.pollFlush st).1 = .pending → wait (R.pollFlush st).2 < wait st)

end Verif.Spec
