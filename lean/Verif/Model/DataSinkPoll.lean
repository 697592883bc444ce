import Verif.Model.SinkPoll
/-
`DataSink` at the level of the trait `Sink`: every `self.sink.send(..).await` (data/sink.rs:46, 51, 68) is a future `Send`, which calls
`poll_ready`, `start_send` and `poll_flush` and may answer `Pending` any number of times. Model of Send: futures-util 0.3.4,
sink/send.rs.
-/
namespace Verif
section
variable {σ : Type} (R : RawSink σ)

/-- `<Send as Future>::poll`, for the item it still holds: the answer, and what it holds then. -/
def sendPoll (item : Option Bytes) (x : Raw σ) : Ans × Option Bytes × Raw σ :=
  match item with
  | some it =>
    match x.pollReady R with
    | (.ready, y) =>
      match y.startSend R it with
      | (.ok, z) => ((z.pollFlush R).1, none, (z.pollFlush R).2)
      | (_, z) => (.error, none, z)
    | (.pending, y) => (.pending, some it, y)
    | (.error, y) => (.error, none, y)
  | none => ((x.pollFlush R).1, none, (x.pollFlush R).2)

/-- Where the sending of a message is suspended. -/
inductive SendPC where
  /-- in `DataSink::send`, at `self.sink.send(..).await` (data/sink.rs:46, 51), holding `item`; `rest` is the chunk's rest that will be
  looked at after this (line 55), if there is any; `chunks` are the chunks to be sent after this one -/
  | sending (item rest : Option Bytes) (chunks : List Bytes)
  /-- in `DataSink::end`, at `self.sink.send(bytes).await` (data/sink.rs:68) -/
  | ending (item : Option Bytes)
  /-- all is sent, or there was an error -/
  | over (ok : Bool)
  deriving DecidableEq, Repr

/-- Somebody who sends the chunks of a message with a `DataSink` and then calls `end()`, and the sink beneath. -/
structure Sender (σ : Type) where
  pc : SendPC
  /-- the field `state` of `DataSink` (data/sink.rs:13) -/
  state : KState
  sink : Raw σ

/-- From the head of the `loop` of `DataSink::send` to its `.await` (data/sink.rs:29-51), with `chunks` to be sent afterwards. -/
def scanned (st : KState) (item : Bytes) (chunks : List Bytes) : SendPC × KState :=
  match sinkScan st 0 item with
  | (st', none) => (.sending (some item) none chunks, st')
  | (st', some pos) => (.sending (some (item.take (pos + 1))) (some (item.drop pos)) chunks, st')

/-- From between two chunks to the next `.await`: `send` of the next chunk, or `end` (data/sink.rs:61-68). -/
def nextChunk (st : KState) : List Bytes → SendPC × KState
  | [] => (.ending (some (DSink.endBytes st)), st)
  | c :: cs => scanned st c cs

/-- One poll: the awaited `Send`, and the code up to the next `.await`. -/
def Sender.step (x : Sender σ) : Sender σ :=
  match x.pc with
  | .sending item rest chunks =>
    match sendPoll R item x.sink with
    | (.ready, _, s) =>
      match rest with
      | some r => ⟨(scanned x.state r chunks).1, (scanned x.state r chunks).2, s⟩
      | none => ⟨(nextChunk x.state chunks).1, (nextChunk x.state chunks).2, s⟩
    | (.pending, it, s) => ⟨.sending it rest chunks, x.state, s⟩
    | (.error, _, s) => ⟨.over false, x.state, s⟩
  | .ending item =>
    match sendPoll R item x.sink with
    | (.ready, _, s) => ⟨.over true, x.state, s⟩
    | (.pending, it, s) => ⟨.ending it, x.state, s⟩
    | (.error, _, s) => ⟨.over false, x.state, s⟩
  | .over _ => x

/-- `n` polls. -/
def Sender.steps : Nat → Sender σ → Sender σ
  | 0, x => x
  | n + 1, x => (Sender.steps n x).step R

/-- `DataSink::new` (data/sink.rs:19-24) and the code up to the first `.await`. -/
def Sender.init (st : σ) (chunks : List Bytes) : Sender σ :=
  ⟨(nextChunk .crLfPassed chunks).1, (nextChunk .crLfPassed chunks).2, ⟨st, []⟩⟩

/-- The sending of the chunks and of the end after `n` polls. -/
def Sender.after (st : σ) (chunks : List Bytes) (n : Nat) : Sender σ := Sender.steps R n (Sender.init st chunks)

/-- The caller drops the future of `DataSink::send` while it is suspended (a time limit, a `select!`) and goes on with `chunks` and
`end()` on the same `DataSink`. -/
def Sender.goOn (x : Sender σ) (chunks : List Bytes) : Sender σ :=
  ⟨(nextChunk x.state chunks).1, (nextChunk x.state chunks).2, x.sink⟩

end
end Verif
