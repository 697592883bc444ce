import Verif.Model.Task
/-
`interact` once more as a state machine, as in Model/Task.lean, over a connection that may answer its polls in any way: it need not
end, and need not stay at its end once it has reported it. (In the other models a connection is a finite list of answers, after
which it reports its end for ever.) Every step polls the connection at most once, so that a session over packets that never lead to
anything (empty ones, for example) is a run as well.
-/
namespace Verif.AnySource
variable {L : IpLib} {S U : Type}

/-- A connection: what its polls answer, in order. -/
abbrev Source := Nat → Poll (Option Bytes)

/-- `Prependable<S>` (prependable.rs:5-8): how often the stream was polled, and the pushed-back item. -/
structure Reader where
  polls : Nat
  pre : Option Bytes

/-- `<Prependable as Stream>::poll_next` (prependable.rs:32-48). -/
def Reader.poll (f : Source) (r : Reader) : Poll (Option Bytes) × Reader :=
  match r.pre with
  | some item => (.ready (some item), { r with pre := none })
  | none => (f r.polls, { r with polls := r.polls + 1 })

/-- `Prependable::prepend` (prependable.rs:19-26). -/
def Reader.prepend (r : Reader) (item : Bytes) : Option Reader :=
  if r.pre.isSome then none else some { r with pre := some item }

/-- `DataStream` (data/stream.rs:38-46). -/
structure DS where
  reader : Reader
  state : DState
  buf : Bytes

/-- `DataStream::new` (data/stream.rs:52-58). -/
def DS.new (r : Reader) : DS := ⟨r, .crLfPassed, []⟩

/-- `DataStream::complete` (data/stream.rs:62-80). -/
def DS.complete (d : DS) : Except Panic (Bool × DS) :=
  if d.state = .earlyFin then .ok (false, { d with state := .completed })
  else if d.state ≠ .finished then .error .notFinished
  else if d.buf ≠ [] then
    match d.reader.prepend d.buf with
    | some r => .ok (true, ⟨r, .completed, []⟩)
    | none => .error .prependUnwrap
  else .ok (true, { d with state := .completed })

/-- `match Stream::poll_next(self.source)` in the loop of `poll_next` (data/stream.rs:203-220), with the state in which the buffer
was left: the answer of `poll_next`, if there is one now, or another turn of the loop. -/
def DS.more (f : Source) (d : DS) (st : DState) : Option (Poll (Option Bytes)) × DS :=
  match d.reader.poll f with
  | (.pending, r) => (some .pending, { d with reader := r, state := st })
  | (.ready none, r) => (some (.ready none), { d with reader := r, state := .earlyFin })
  | (.ready (some b), r) => (none, ⟨r, st, d.buf ++ b⟩)

/-- One turn of the `loop` of `poll_next` (data/stream.rs:101-221). -/
def DS.turn (f : Source) (d : DS) : Option (Poll (Option Bytes)) × DS :=
  match scanBuf d.state d.buf with
  | (st, .nowhere) =>
    if 0 < d.buf.length then (some (.ready (some d.buf)), { d with state := st, buf := [] }) else d.more f st
  | (_, .eof x) =>
    (some (.ready (if 0 < (d.buf.take x).length then some (d.buf.take x) else none)),
      { d with state := .finished, buf := (d.buf.drop x).drop 3 })
  | (_, .escape x) =>
    (if 0 < (d.buf.take x).length then some (.ready (some (d.buf.take x))) else none,
      { d with state := .running, buf := (d.buf.drop x).drop 1 })
  | (st, .unknown x) =>
    if 0 < x then (some (.ready (some (d.buf.take x))), { d with state := st, buf := d.buf.drop x }) else d.more f st

/-- Where the session is. -/
inductive PC (L : IpLib) (S U : Type) where
  /-- a place of Model/Task.lean that has nothing to do with message streams -/
  | plain (p : Task.PC L S U)
  /-- `cfg.handle_mail(..).await` (interact.rs:131-133): the handler, what it has seen, and its stream -/
  | handle (act : List HObs → HAct S U) (h : List HObs) (d : DS)
  /-- the same, while the handler polls the stream -/
  | polling (act : List HObs → HAct S U) (h : List HObs) (d : DS)

/-- A state of the session. The connection's `Reader` stands beside the other things the session has; the field `reader` of `World` is
not used. -/
structure State (L : IpLib) (S U : Type) where
  pc : PC L S U
  reader : Reader
  world : World L S U

/-- A place of Model/Task.lean, and the message stream made anew when `handle_mail` is called (interact.rs:130). -/
def place (x : Task.State L S U) (r : Reader) : State L S U :=
  match x.1 with
  | .handle act h _ => ⟨.handle act h (DS.new r), r, x.2⟩
  | p => ⟨.plain p, r, x.2⟩

/-- One step. Writing replies and calling filters is as in Model/Task.lean. -/
def step (C : Config L S U) (f : Source) : State L S U → State L S U
  -- `next_crlf_line` (crlflines.rs:10-34)
  | ⟨.plain (.read buf), r, w⟩ =>
    match r.poll f with
    | (.pending, r) => ⟨.plain (.read buf), r, w⟩
    | (.ready (some pkt), r) =>
      match findCrlf (buf ++ pkt) with
      | some pos =>
        match r.prepend ((buf ++ pkt).drop (pos + 2)) with
        | some r =>
          place (Task.dispatch C { w with trace := w.trace ++ [.line ((buf ++ pkt).take (pos + 2))] } ((buf ++ pkt).take (pos + 2))) r
        | none => ⟨.plain (.over (.panic .prependUnwrap)), r, w⟩
      | none => ⟨.plain (.read (buf ++ pkt)), r, w⟩
    | (.ready none, r) =>
      match r.prepend buf with
      | some r => ⟨.plain (.over (.ok ())), r, w⟩
      | none => ⟨.plain (.over (.panic .prependUnwrap)), r, w⟩
  | ⟨.plain p, r, w⟩ => place (Task.step C (p, w)) r
  -- `handle_mail` (interact.rs:130-139); `poll_next` begins at data/stream.rs:94-100
  | ⟨.handle act h d, r, w⟩ =>
    match act h with
    | .poll =>
      if d.state = .finished then ⟨.handle act (h ++ [.polled (.ready none)]) d, r, w⟩ else ⟨.polling act h d, r, w⟩
    | .complete =>
      match d.complete with
      | .error p => ⟨.plain (.over (.panic p)), d.reader, w⟩
      | .ok (ok, d) => ⟨.handle act (h ++ [.completed ok]) d, r, w⟩
    | .done dec s u =>
      if d.state = .completed then
        ⟨.plain (Task.reply (match dec with | .accept => C.mailAccepted s | .reject r => (r.code, r.msg)) .next), d.reader,
          { w with cfg := s, conn := u, trace := w.trace ++ [.handled dec] }⟩
      else ⟨.plain (.over (.panic .notCompleted)), d.reader, w⟩
  | ⟨.polling act h d, r, w⟩ =>
    match d.turn f with
    | (some a, d) => ⟨.handle act (h ++ [.polled a]) d, r, w⟩
    | (none, d) => ⟨.polling act h d, r, w⟩

/-- `interact` up to its first `.await` (interact.rs:29-49). -/
def init (C : Config L S U) (outgoing : BSink) (s : S) (u : U) : State L S U :=
  ⟨.plain (Task.init C [] outgoing s u).1, ⟨0, none⟩, (Task.init C [] outgoing s u).2⟩

/-- The session after `n` steps. -/
def after (C : Config L S U) (f : Source) (outgoing : BSink) (s : S) (u : U) : Nat → State L S U
  | 0 => init C outgoing s u
  | n + 1 => step C f (after C f outgoing s u n)

/-- Where the session reads next: while a message is being handled the reader is lent to its stream. -/
def State.input (x : State L S U) : Reader :=
  match x.pc with
  | .handle _ _ d => d.reader
  | .polling _ _ d => d.reader
  | .plain _ => x.reader

end Verif.AnySource
