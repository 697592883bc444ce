import Verif.Model.Streams
/-
Model of smtp-message/src/data/stream.rs (`DataStream`) and smtp-message/src/data/sink.rs (`DataSink`).
-/
namespace Verif

/-! ### DataStream -/

/-- `DataStreamState` (data/stream.rs:12-19) -/
inductive DState where
  | running | crPassed | crLfPassed | finished | earlyFin | completed
  deriving DecidableEq, Repr

/-- `BufSplit` (data/stream.rs:104-109) -/
inductive BufSplit where
  | nowhere
  | eof (n : Nat)
  | escape (n : Nat)
  | unknown (n : Nat)
  deriving DecidableEq, Repr

/-- `DataStream` (data/stream.rs:38-46). `source` is borrowed mutably by the code; here it is part of
the value and is given back by whoever drops the `DataStream`. -/
structure DStream where
  source : Prep Bytes
  state : DState
  buf : Bytes
  deriving DecidableEq, Repr

/-- The `for (idx, w) in self.buf.windows(3).enumerate()` loop (data/stream.rs:113-133), started at
index `idx` in state `st`. -/
def scanWindows (st : DState) (idx : Nat) : Bytes → DState × BufSplit
  | w0 :: w1 :: w2 :: rest =>
    if w0 = cCR then scanWindows .crPassed (idx + 1) (w1 :: w2 :: rest)
    else if st = .crPassed ∧ w0 = cLF then scanWindows .crLfPassed (idx + 1) (w1 :: w2 :: rest)
    else if st = .crLfPassed ∧ w0 = cDOT then
      if w1 = cCR ∧ w2 = cLF then (st, .eof idx) else (st, .escape idx)
    else scanWindows .running (idx + 1) (w1 :: w2 :: rest)
  | _ => (st, .nowhere)

/-- The look at the last two bytes when no split was found (data/stream.rs:137-171). -/
def scanLast (st : DState) (buf : Bytes) : DState × BufSplit :=
  let l := buf.length
  if h : 2 ≤ l then
    let y := buf[l - 2]
    let z := buf[l - 1]
    if st = .crLfPassed ∧ y = cDOT ∧ z = cCR then (st, .unknown (l - 2))
    else if st = .crPassed ∧ y = cLF ∧ z = cDOT then (.crLfPassed, .unknown (l - 1))
    else if st = .crLfPassed ∧ y = cDOT then (st, .escape (l - 2))
    else if y = cCR ∧ z = cLF then (.crLfPassed, .nowhere)
    else if z = cCR then (.crPassed, .nowhere)
    else (.running, .nowhere)
  else if h : l = 1 then
    let z := buf[l - 1]
    if st = .crLfPassed ∧ z = cDOT then (st, .unknown (l - 1))
    else if z = cCR then (.crPassed, .nowhere)
    else if st = .crPassed ∧ z = cLF then (.crLfPassed, .nowhere)
    else (.running, .nowhere)
  else (st, .nowhere)

/-- Both scans together (data/stream.rs:110-171): the new `self.state` and the split. -/
def scanBuf (st : DState) (buf : Bytes) : DState × BufSplit :=
  match scanWindows st 0 buf with
  | (st', .nowhere) => scanLast st' buf
  | r => r

theorem scanWindows_escape_lt {st st' : DState} {idx n : Nat} {buf : Bytes}
    (h : scanWindows st idx buf = (st', .escape n)) : n < idx + buf.length := by
  fun_induction scanWindows st idx buf <;> simp_all <;> grind

theorem scanBuf_escape_lt {st st' : DState} {n : Nat} {buf : Bytes}
    (h : scanBuf st buf = (st', .escape n)) : n < buf.length := by
  unfold scanBuf at h
  split at h
  · unfold scanLast at h
    grind
  · have := scanWindows_escape_lt h
    omega

/-- Bytes and packets still to come (used for termination only). -/
def Prep.weight (p : Prep Bytes) : Nat :=
  (p.src.map fun | .pkt b => b.length + 1 | .pending => 1).sum + (match p.pre with | some b => b.length + 1 | none => 0)

theorem Prep.weight_ready {p p' : Prep Bytes} {b : Bytes} (h : p.pollNext = (.ready (some b), p')) :
    p'.weight + b.length < p.weight := by
  unfold Prep.pollNext at h
  cases hp : p.pre <;> cases hs : p.src <;> simp [hp, hs] at h
  · rename_i e r
    cases e <;> simp at h
    obtain ⟨rfl, rfl⟩ := h; simp [Prep.weight, hp, hs]; omega
  · obtain ⟨rfl, rfl⟩ := h; simp [Prep.weight, hp, hs]
  · obtain ⟨rfl, rfl⟩ := h; simp [Prep.weight, hp, hs]

namespace DStream

/-- `DataStream::new` (data/stream.rs:52-58) -/
def new (source : Prep Bytes) : DStream := { source, state := .crLfPassed, buf := [] }

/-- The `loop` of `poll_next` (data/stream.rs:101-221). -/
def pollLoop (d : DStream) : Poll (Option Bytes) × DStream :=
  match _hs : scanBuf d.state d.buf with
  -- `BufSplit::Nowhere if self.buf.len() > 0`, or nothing to send: read more (175-176)
  | (st, .nowhere) =>
    if 0 < d.buf.length then (.ready (some d.buf), { d with state := st, buf := [] })
    else
      match _h : d.source.pollNext with
      | (.pending, s) => (.pending, { d with source := s, state := st })
      | (.ready none, s) => (.ready none, { d with source := s, state := .earlyFin })
      | (.ready (some b), s) => pollLoop { d with source := s, state := st, buf := d.buf ++ b }
  -- `BufSplit::Eof` (177-186)
  | (_, .eof x) =>
    let res := d.buf.take x
    let d' := { d with state := .finished, buf := (d.buf.drop x).drop 3 }
    if 0 < res.length then (.ready (some res), d') else (.ready none, d')
  -- `BufSplit::Escape` (187-198)
  | (_, .escape x) =>
    if 0 < (d.buf.take x).length then
      (.ready (some (d.buf.take x)), { d with state := .running, buf := (d.buf.drop x).drop 1 })
    else pollLoop { d with state := .running, buf := (d.buf.drop x).drop 1 }
  -- `BufSplit::Unknown` (199-200)
  | (st, .unknown x) =>
    if 0 < x then (.ready (some (d.buf.take x)), { d with state := st, buf := d.buf.drop x })
    else
      match _h : d.source.pollNext with
      | (.pending, s) => (.pending, { d with source := s, state := st })
      | (.ready none, s) => (.ready none, { d with source := s, state := .earlyFin })
      | (.ready (some b), s) => pollLoop { d with source := s, state := st, buf := d.buf ++ b }
termination_by d.source.weight + d.buf.length
decreasing_by
  · have := Prep.weight_ready _h
    simp; omega
  · have := scanBuf_escape_lt _hs
    simp; omega
  · have := Prep.weight_ready _h
    simp; omega

/-- `<DataStream as Stream>::poll_next` (data/stream.rs:94-222). -/
def pollNext (d : DStream) : Poll (Option Bytes) × DStream :=
  if d.state = .finished then (.ready none, d) else d.pollLoop

/-- `DataStream::complete` (data/stream.rs:62-80): `true` is `Ok(())`, `false` is `Err(())`. -/
def complete (d : DStream) : Except Panic (Bool × DStream) :=
  if d.state = .earlyFin then .ok (false, { d with state := .completed })
  else if d.state ≠ .finished then .error .notFinished
  else if d.buf ≠ [] then
    match d.source.prepend d.buf with
    | some s => .ok (true, { source := s, state := .completed, buf := [] })
    | none => .error .prependUnwrap
  else .ok (true, { d with state := .completed })

/-- `DataStream::was_completed` (data/stream.rs:82-84) -/
def wasCompleted (d : DStream) : Bool := d.state = .completed

end DStream

/-- Size of what can still be polled (termination of readers). -/
def DStream.meas (d : DStream) : Nat × Nat := (d.source.size, d.buf.length)

theorem scanBuf_lt {st st' : DState} {n : Nat} {buf : Bytes}
    (h : scanBuf st buf = (st', .eof n) ∨ scanBuf st buf = (st', .unknown n)) : n < buf.length := by
  have aux : ∀ st idx, scanWindows st idx buf = (st', .eof n) ∨ scanWindows st idx buf = (st', .unknown n) →
      n < idx + buf.length := by
    clear h
    intro st idx h
    fun_induction scanWindows st idx buf <;> simp_all <;> grind
  unfold scanBuf at h
  split at h
  · unfold scanLast at h
    grind
  · have := aux st 0 h
    omega

theorem DStream.pollLoop_meas (d : DStream) :
    d.pollLoop.1 = .ready none ∨ Prod.Lex (· < ·) (· < ·) d.pollLoop.2.meas d.meas := by
  fun_induction DStream.pollLoop d with
  | case1 d st hs hlen => right; exact Prod.Lex.right _ hlen
  | case2 d st hs hlen s h => right; exact Prod.Lex.left _ _ (Prep.size_pending h)
  | case3 => left; rfl
  | case4 d st hs hlen b s h ih =>
    rcases ih with ih | ih
    · exact .inl ih
    · right
      have h1 := Prep.size_ready h
      rcases Prod.lex_def.1 ih with h2 | h2
      · exact Prod.Lex.left _ _ (Nat.lt_trans h2 h1)
      · exact Prod.Lex.left _ _ (Nat.lt_of_le_of_lt (Nat.le_of_eq h2.1) h1)
  | case5 d st x hs res d' hlen =>
    right
    have := scanBuf_lt (.inl hs)
    exact Prod.Lex.right _ (by simp [d']; omega)
  | case6 => left; rfl
  | case7 d st x hs hlen =>
    right
    have := scanBuf_escape_lt hs
    exact Prod.Lex.right _ (by simp; omega)
  | case8 d st x hs hlen ih =>
    rcases ih with ih | ih
    · exact .inl ih
    · right
      have := scanBuf_escape_lt hs
      rcases Prod.lex_def.1 ih with h2 | h2
      · exact Prod.Lex.left _ _ h2
      · refine Prod.lex_def.2 (.inr ⟨h2.1, Nat.lt_trans h2.2 ?_⟩)
        simp [DStream.meas]; omega
  | case9 d st x hs hx =>
    right
    have := scanBuf_lt (.inr hs)
    exact Prod.Lex.right _ (by simp; omega)
  | case10 d st x hs hx s h => right; exact Prod.Lex.left _ _ (Prep.size_pending h)
  | case11 => left; rfl
  | case12 d st x hs hx b s h ih =>
    rcases ih with ih | ih
    · exact .inl ih
    · right
      have h1 := Prep.size_ready h
      rcases Prod.lex_def.1 ih with h2 | h2
      · exact Prod.Lex.left _ _ (Nat.lt_trans h2 h1)
      · exact Prod.Lex.left _ _ (Nat.lt_of_le_of_lt (Nat.le_of_eq h2.1) h1)

theorem DStream.pollNext_meas {d d' : DStream} {r} (h : d.pollNext = (r, d')) (hr : r ≠ .ready none) :
    Prod.Lex (· < ·) (· < ·) d'.meas d.meas := by
  unfold DStream.pollNext at h
  split at h
  · simp at h; exact absurd h.1.symm hr
  · have := d.pollLoop_meas
    rw [h] at this
    simpa [hr] using this

/-- The reader every handler is written with (e.g. interact.rs:236-239, data/stream.rs:226-231):
`while let Some(chunk) = d.next().await`, where a `Pending` is simply polled again. Returns the chunks
and the stream. -/
def DStream.readAll (d : DStream) : List Bytes × DStream :=
  match _h : d.pollNext with
  | (.ready none, d') => ([], d')
  | (.ready (some o), d') => (o :: d'.readAll.1, d'.readAll.2)
  | (.pending, d') => d'.readAll
termination_by d.meas
decreasing_by
  all_goals exact DStream.pollNext_meas _h (by simp)

/-! ### DataSink -/

/-- `DataSinkState` (data/sink.rs:5-9) -/
inductive KState where
  | running | crPassed | crLfPassed
  deriving DecidableEq, Repr

/-- How one `SinkExt::send(item).await` on the underlying sink ends: success; an error before the item
was accepted; an error (for example while flushing) after it was accepted. -/
inductive SendRes where
  | ok | errDropped | errAccepted
  deriving DecidableEq, Repr

/-- The underlying `Sink<Bytes>`: what it has accepted so far, oldest first, and how its future sends
end (`plan` used up: success). -/
structure BSink where
  out : List Bytes
  plan : List SendRes
  deriving DecidableEq, Repr

/-- `SinkExt::send(item).await`; the Boolean is `false` for `Err`. -/
def BSink.send (s : BSink) (item : Bytes) : Bool × BSink :=
  match s.plan with
  | [] => (true, { s with out := s.out ++ [item] })
  | .ok :: p => (true, { out := s.out ++ [item], plan := p })
  | .errDropped :: p => (false, { s with plan := p })
  | .errAccepted :: p => (false, { out := s.out ++ [item], plan := p })

/-- `DataSink` (data/sink.rs:11-14) -/
structure DSink where
  sink : BSink
  state : KState
  deriving DecidableEq, Repr

/-- The `for (pos, c) in item.iter().enumerate()` loop (data/sink.rs:30-43): final state and `breakat`. -/
def sinkScan (st : KState) (pos : Nat) : Bytes → KState × Option Nat
  | [] => (st, none)
  | c :: rest =>
    if c = cCR then sinkScan .crPassed (pos + 1) rest
    else if st = .crPassed ∧ c = cLF then sinkScan .crLfPassed (pos + 1) rest
    else if st = .crLfPassed ∧ c = cDOT then (.running, some pos)
    else sinkScan .running (pos + 1) rest

namespace DSink

/-- `DataSink::new` (data/sink.rs:19-24) -/
def new (sink : BSink) : DSink := { sink, state := .crLfPassed }

/-- The `loop` of `DataSink::send` (data/sink.rs:29-58); the Boolean is `false` for `Err`.
Termination: after a break the item starts with the dot and the state is `Running`, so the same
position cannot break again; `fuel` counts the iterations, `send` supplies enough. Out of fuel is
reported as `none` (proved impossible in `Proofs/Sink.lean`). -/
def sendLoop : Nat → DSink → Bytes → Option (Bool × DSink)
  | 0, _, _ => none
  | fuel + 1, k, item =>
    match sinkScan k.state 0 item with
    | (st, none) =>
      let (ok, s) := k.sink.send item
      some (ok, { sink := s, state := st })
    | (st, some pos) =>
      let (ok, s) := k.sink.send (item.take (pos + 1))
      if ok then sendLoop fuel { sink := s, state := st } (item.drop pos)
      else some (false, { sink := s, state := st })

/-- `DataSink::send` (data/sink.rs:26-59). -/
def send (k : DSink) (item : Bytes) : Option (Bool × DSink) :=
  sendLoop (item.length + 2) k item

/-- What `DataSink::end` appends (data/sink.rs:63-67). -/
def endBytes : KState → Bytes
  | .running => b!"\r\n.\r\n"
  | .crPassed => b!"\r\n.\r\n"
  | .crLfPassed => b!".\r\n"

/-- `DataSink::end` (data/sink.rs:61-70): returns success and the underlying sink. -/
def finish (k : DSink) : Bool × BSink := k.sink.send (endBytes k.state)

/-- The caller's loop: send the chunks in order, stopping at the first error (`sink.send(x).await?`, as in
the tests data/sink.rs:80-90 and benches.rs). The Boolean is `false` for an error. -/
def sendAll (k : DSink) : List Bytes → Option (Bool × DSink)
  | [] => some (true, k)
  | c :: cs =>
    match k.send c with
    | none => none
    | some (false, k') => some (false, k')
    | some (true, k') => k'.sendAll cs

/-- Sending a whole message: all chunks, then `end()` if none failed. Returns success and the underlying
sink. -/
def sendMessage (s : BSink) (chunks : List Bytes) : Option (Bool × BSink) :=
  match (DSink.new s).sendAll chunks with
  | none => none
  | some (false, k) => some (false, k.sink)
  | some (true, k) => some k.finish

end DSink

end Verif
