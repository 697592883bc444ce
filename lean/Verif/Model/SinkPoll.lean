import Verif.Model.Task
/-
The writing side once more, at the level of the trait `Sink` of futures 0.3: `poll_ready`, `start_send` and `poll_flush` of the
sink that `interact` is given, behind the adaptor `With` (interact.rs:31-42) and driven by the future `SendAll` (sendreply.rs:31).
The same for the future `Send` that `DataSink` uses (data/sink.rs:44-69) is in Model/DataSinkPoll.lean.

In the other models a write is one operation with one answer. Here any call may answer `Pending`, a line is held back by `With`
until the next call, and errors come to light when they do. Model of With and SendAll: futures-util 0.3.4, sink/with.rs,
sink/send_all.rs.
-/
namespace Verif

/-- `Poll<Result<(), E>>`, the answer of `poll_ready` and `poll_flush`. -/
inductive Ans where
  | ready | pending | error
  deriving DecidableEq, Repr

/-- A sink for `Bytes`, as a machine with states `σ`. What `start_send` returns is `Ok` or `Err`; for an `Err` the model also says
whether the item was taken all the same. -/
structure RawSink (σ : Type) where
  pollReady : σ → Ans × σ
  startSend : σ → Bytes → SendRes × σ
  pollFlush : σ → Ans × σ

/-- A call to a sink, with its answer. -/
inductive Call where
  | ready (a : Ans)
  | start (item : Bytes) (r : SendRes)
  | flush (a : Ans)
  deriving DecidableEq, Repr

/-- A sink in some state, and (ghost) the calls made so far. -/
structure Raw (σ : Type) where
  st : σ
  log : List Call

section
variable {σ : Type} (R : RawSink σ)

/-- `sink.poll_ready(cx)` -/
def Raw.pollReady (x : Raw σ) : Ans × Raw σ := ((R.pollReady x.st).1, ⟨(R.pollReady x.st).2, x.log ++ [.ready (R.pollReady x.st).1]⟩)

/-- `sink.start_send(item)` -/
def Raw.startSend (x : Raw σ) (item : Bytes) : SendRes × Raw σ :=
  ((R.startSend x.st item).1, ⟨(R.startSend x.st item).2, x.log ++ [.start item (R.startSend x.st item).1]⟩)

/-- `sink.poll_flush(cx)` -/
def Raw.pollFlush (x : Raw σ) : Ans × Raw σ := ((R.pollFlush x.st).1, ⟨(R.pollFlush x.st).2, x.log ++ [.flush (R.pollFlush x.st).1]⟩)

/-- How a poll of a future, or a method of `With`, ends. -/
inductive PollRes where
  | ready | pending | error
  | panic (p : Panic)
  deriving DecidableEq, Repr

/-- `Poll<Result<(), E>>` handed on. -/
def Ans.res : Ans → PollRes
  | .ready => .ready
  | .pending => .pending
  | .error => .error

/-! ### `With` -/

/-- The adaptor made in interact.rs:31-42: the sink, and the future of the closure for a line that was started. That future is
ready when it is first polled. -/
structure With (σ : Type) where
  sink : Raw σ
  state : Option ReplyLine

/-- `With::poll` with the closure of interact.rs:31-42: the line, if there is one, is written into a buffer and given to the sink.
(Simplification: after an error the state is not kept; nothing is called then.) -/
def With.poll (x : With σ) : PollRes × With σ :=
  match x.state with
  | none => (.ready, x)
  | some l =>
    if l.byteLen < l.sendTo.length then (.panic .writeUnwrap, x)
    else
      match x.sink.startSend R l.sendTo with
      | (.ok, s) => (.ready, ⟨s, none⟩)
      | (_, s) => (.error, ⟨s, none⟩)

/-- `<With as Sink>::poll_ready` -/
def With.pollReady (x : With σ) : PollRes × With σ :=
  match x.poll R with
  | (.ready, y) => ((y.sink.pollReady R).1.res, { y with sink := (y.sink.pollReady R).2 })
  | (a, y) => (a, y)

/-- `<With as Sink>::start_send`, with its `assert!(self.state.is_none())`. -/
def With.startSend (x : With σ) (l : ReplyLine) : PollRes × With σ :=
  if x.state.isSome then (.panic .bounds, x) else (.ready, { x with state := some l })

/-- `<With as Sink>::poll_flush` -/
def With.pollFlush (x : With σ) : PollRes × With σ :=
  match x.poll R with
  | (.ready, y) => ((y.sink.pollFlush R).1.res, { y with sink := (y.sink.pollFlush R).2 })
  | (a, y) => (a, y)

/-! ### `SendAll` -/

/-- A future `SendAll`, and the sink it writes to: the item taken from the stream for which there was no room, the texts still in
the iterator of send_reply (sendreply.rs:18-29), and the sink. -/
structure SendAll (σ : Type) where
  buffered : Option ReplyLine
  left : List Bytes
  writer : With σ

/-- `SendAll::try_start_send` -/
def trySend (l : ReplyLine) (left : List Bytes) (x : With σ) : PollRes × SendAll σ :=
  match x.pollReady R with
  | (.ready, y) => ((y.startSend l).1, ⟨none, left, (y.startSend l).2⟩)
  | (.pending, y) => (.pending, ⟨some l, left, y⟩)
  | (a, y) => (a, ⟨none, left, y⟩)

/-- The `loop` of `SendAll::poll`; the next line is built when the iterator is asked for it (sendreply.rs:21-27). -/
def sendAllLoop (code : ReplyCode) : List Bytes → With σ → PollRes × SendAll σ
  | [], x => ((x.pollFlush R).1, ⟨none, [], (x.pollFlush R).2⟩)
  | t :: ts, x =>
    match ReplyLine.build code (if ts.isEmpty then .yes else .no) t with
    | .error _ => (.panic .buildUnwrap, ⟨none, ts, x⟩)
    | .ok l =>
      match trySend R l ts x with
      | (.ready, y) => sendAllLoop code ts y.writer
      | (a, y) => (a, y)

/-- `SendAll::poll` -/
def SendAll.poll (code : ReplyCode) (x : SendAll σ) : PollRes × SendAll σ :=
  match x.buffered with
  | none => sendAllLoop R code x.left x.writer
  | some l =>
    match trySend R l x.left x.writer with
    | (.ready, y) => sendAllLoop R code y.left y.writer
    | (a, y) => (a, y)

/-! ### The session -/

variable {L : IpLib} {S U : Type}

/-- The future of `interact` on such a sink: where it is suspended and everything it refers to, as in Model/Task.lean, except that the
writer is the adaptor and, while a reply is sent, the iterator's rest is `left` and `buffered` is what `SendAll` holds. The writer of
`w` is not used. -/
structure Live (L : IpLib) (S U σ : Type) where
  pc : Task.PC L S U
  w : World L S U
  buffered : Option ReplyLine
  writer : With σ

/-- One poll of the awaited operation, and the code up to the next `.await`. -/
def Live.step (C : Config L S U) (x : Live L S U σ) : Live L S U σ :=
  match x.pc with
  | .send r left a =>
    match SendAll.poll R r.1 ⟨x.buffered, left, x.writer⟩ with
    | (.ready, y) =>
      { pc := (Task.resume C { x.w with trace := x.w.trace ++ [.reply r] } a).1,
        w := (Task.resume C { x.w with trace := x.w.trace ++ [.reply r] } a).2, buffered := none, writer := y.writer }
    | (.pending, y) => { pc := .send r y.left a, w := x.w, buffered := y.buffered, writer := y.writer }
    | (.error, y) => { pc := .over .err, w := { x.w with trace := x.w.trace ++ [.writeError] }, buffered := none, writer := y.writer }
    | (.panic p, y) => { pc := .over (.panic p), w := x.w, buffered := none, writer := y.writer }
  | pc => { x with pc := (Task.step C (pc, x.w)).1, w := (Task.step C (pc, x.w)).2 }

/-- `interact` up to its first `.await` (interact.rs:29-49), on a sink in the state `st`. -/
def Live.init (C : Config L S U) (incoming : List (SrcEv Bytes)) (st : σ) (s : S) (u : U) : Live L S U σ :=
  { pc := (Task.init C incoming ⟨[], []⟩ s u).1, w := (Task.init C incoming ⟨[], []⟩ s u).2, buffered := none, writer := ⟨⟨st, []⟩, none⟩ }

/-- The future after `n` polls. -/
def Live.after (C : Config L S U) (incoming : List (SrcEv Bytes)) (st : σ) (s : S) (u : U) : Nat → Live L S U σ
  | 0 => Live.init C incoming st s u
  | n + 1 => (Live.after C incoming st s u n).step R C

/-- The calls made to the sink. -/
def Live.log (x : Live L S U σ) : List Call := x.writer.sink.log

end
end Verif
