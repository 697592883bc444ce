import Verif.Model.Env
import Verif.Model.SinkPoll
/-
The session in an arbitrary environment, as in Model/Env.lean, with the writer as what it is: a sink with `poll_ready`, `start_send` and
`poll_flush`, behind the adaptor `With` (interact.rs:31-42) and the future `SendAll` (sendreply.rs:31), as in Model/SinkPoll.lean. A
step is now one call to the sink, to the connection, or to a callback: nothing is left of the environment that is not an arbitrary answer to
a single call.
-/
namespace Verif.Around
open Env
variable {L : IpLib}

/-- What `SendAll` and `With` have between two calls to the sink: the line there was no room for, the line `With` has not handed over
yet, and the texts in the iterator of send_reply (sendreply.rs:18-29). -/
structure Sending where
  buffered : Option ReplyLine
  held : Option ReplyLine
  left : List Bytes

/-- The call that is made next. -/
inductive Doing where
  | ready
  | start (l : ReplyLine)
  | flush
  | panic (p : Panic)

/-- `SendAll::poll`, `With::poll_ready`, `With::poll_flush` and the closures (interact.rs:31-42, sendreply.rs:21-27), up to the next call
to the sink. The next line is built as soon as `SendAll` has none; then `With` hands over the line it holds; then there is room to be
asked for, or, if no line is left, the flush. -/
def Sending.next (code : ReplyCode) (x : Sending) : Doing × Sending :=
  let go (x : Sending) : Doing × Sending :=
    match x.held with
    | some l => if l.byteLen < l.sendTo.length then (.panic .writeUnwrap, x) else (.start l, x)
    | none => (if x.buffered.isSome then .ready else .flush, x)
  match x.buffered, x.left with
  | none, t :: ts =>
    match ReplyLine.build code (if ts.isEmpty then .yes else .no) t with
    | .error _ => (.panic .buildUnwrap, x)
    | .ok l => go ⟨some l, x.held, ts⟩
  | _, _ => go x

/-- The environment: the answers of the connection, of the callbacks and of the reply methods are in `others` (whose `write` is not
used); the calls to the sink in step number `t` are answered by the other three. -/
structure Surroundings (L : IpLib) where
  others : Environment L
  pollReady : Nat → Verif.Ans
  startSend : Nat → SendRes
  pollFlush : Nat → Verif.Ans

/-- A state of the future: as in Model/Env.lean (the texts that are left in the iterator are those of `.send`; `out` is not used), what
`SendAll` and `With` hold, and the calls that were made to the sink. -/
structure State (L : IpLib) where
  x : Env.State L
  buffered : Option ReplyLine
  held : Option ReplyLine
  log : List Call

/-- Step number `t`: one call, and what is done with its answer, up to the next call. -/
def step (W : Surroundings L) (t : Nat) (s : State L) : State L :=
  match s.x.pc with
  | .send rp left a =>
    match Sending.next rp.1 ⟨s.buffered, s.held, left⟩ with
    | (.panic p, y) => ⟨{ s.x with pc := .over (.panic p) }, y.buffered, y.held, s.log⟩
    | (.start l, y) =>
      match W.startSend t with
      | .ok => ⟨{ s.x with pc := .send rp y.left a }, y.buffered, none, s.log ++ [.start l.sendTo .ok]⟩
      | r => ⟨{ s.x with pc := .over .err, trace := s.x.trace ++ [.writeError] }, none, none, s.log ++ [.start l.sendTo r]⟩
    | (.ready, y) =>
      match W.pollReady t with
      | .ready => ⟨{ s.x with pc := .send rp y.left a }, none, y.buffered, s.log ++ [.ready .ready]⟩
      | .pending => ⟨{ s.x with pc := .send rp y.left a }, y.buffered, none, s.log ++ [.ready .pending]⟩
      | .error => ⟨{ s.x with pc := .over .err, trace := s.x.trace ++ [.writeError] }, none, none, s.log ++ [.ready .error]⟩
    | (.flush, y) =>
      match W.pollFlush t with
      | .ready => ⟨resume { s.x with pc := .read [], trace := s.x.trace ++ [.reply rp] } a, none, none, s.log ++ [.flush .ready]⟩
      | .pending => ⟨{ s.x with pc := .send rp y.left a }, none, none, s.log ++ [.flush .pending]⟩
      | .error => ⟨{ s.x with pc := .over .err, trace := s.x.trace ++ [.writeError] }, none, none, s.log ++ [.flush .error]⟩
  | _ => { s with x := Env.step W.others t s.x }

/-- `interact` up to its first `.await` (interact.rs:29-49), in step number 0. -/
def init (W : Surroundings L) : State L := ⟨Env.init W.others [], none, none, []⟩

/-- The future after `n` more steps, numbered from 1. -/
def after (W : Surroundings L) : Nat → State L
  | 0 => init W
  | n + 1 => step W (n + 1) (after W n)

/-- The next step makes a call to the sink. -/
def callsSink (s : State L) : Bool :=
  match s.x.pc with
  | .send rp left _ => !((Sending.next rp.1 ⟨s.buffered, s.held, left⟩).1 matches .panic _)
  | _ => false

/-- As `step`, but if `bursts t` the sink panics if it is called in this step: the panic unwinds the future, through `SendAll` and `With`,
which catch nothing. -/
def stepOr (W : Surroundings L) (bursts : Nat → Bool) (t : Nat) (s : State L) : State L :=
  if bursts t && callsSink s then { s with x := { s.x with pc := .unwound } } else step W t s

/-- The future after `n` more steps, with a sink that may panic. -/
def afterOr (W : Surroundings L) (bursts : Nat → Bool) : Nat → State L
  | 0 => init W
  | n + 1 => stepOr W bursts (n + 1) (afterOr W bursts n)

end Verif.Around
