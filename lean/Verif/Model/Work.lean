import Verif.Model.Data
/-
The functions of Model/Data.lean and Model/Streams.lean that search received bytes, with a counter of the places they look
at. `Props/Work.lean` proves that the counters change nothing else.
-/
namespace Verif

/-- data/stream.rs:113-133, counting the windows of three bytes the loop looks at. -/
def scanWindowsC (st : DState) (idx : Nat) : Bytes → Nat × DState × BufSplit
  | w0 :: w1 :: w2 :: rest =>
    if w0 = cCR then
      let r := scanWindowsC .crPassed (idx + 1) (w1 :: w2 :: rest)
      (r.1 + 1, r.2)
    else if st = .crPassed ∧ w0 = cLF then
      let r := scanWindowsC .crLfPassed (idx + 1) (w1 :: w2 :: rest)
      (r.1 + 1, r.2)
    else if st = .crLfPassed ∧ w0 = cDOT then
      if w1 = cCR ∧ w2 = cLF then (1, st, .eof idx) else (1, st, .escape idx)
    else
      let r := scanWindowsC .running (idx + 1) (w1 :: w2 :: rest)
      (r.1 + 1, r.2)
  | _ => (0, st, .nowhere)

/-- data/stream.rs:110-171; the look at the last two bytes counts as one. -/
def scanBufC (st : DState) (buf : Bytes) : Nat × DState × BufSplit :=
  match scanWindowsC st 0 buf with
  | (n, st', .nowhere) => (n + 1, scanLast st' buf)
  | r => r

theorem scanWindowsC_fst (st : DState) (idx : Nat) (buf : Bytes) : (scanWindowsC st idx buf).2 = scanWindows st idx buf := by
  fun_induction scanWindowsC st idx buf <;> simp_all +zetaDelta [scanWindows]
  grind

theorem scanBufC_fst (st : DState) (buf : Bytes) : (scanBufC st buf).2 = scanBuf st buf := by
  unfold scanBufC scanBuf
  rw [← scanWindowsC_fst]
  rcases scanWindowsC st 0 buf with ⟨n, st', sp⟩
  cases sp <;> rfl

/-- data/stream.rs:101-221, adding up the work of the searches. -/
def DStream.pollLoopC (d : DStream) : Nat × Poll (Option Bytes) × DStream :=
  match _hs : scanBufC d.state d.buf with
  | (n, st, .nowhere) =>
    if 0 < d.buf.length then (n, .ready (some d.buf), { d with state := st, buf := [] })
    else
      match _h : d.source.pollNext with
      | (.pending, s) => (n, .pending, { d with source := s, state := st })
      | (.ready none, s) => (n, .ready none, { d with source := s, state := .earlyFin })
      | (.ready (some b), s) =>
        let r := pollLoopC { d with source := s, state := st, buf := d.buf ++ b }
        (n + r.1, r.2)
  | (n, _, .eof x) =>
    let res := d.buf.take x
    let d' := { d with state := .finished, buf := (d.buf.drop x).drop 3 }
    if 0 < res.length then (n, .ready (some res), d') else (n, .ready none, d')
  | (n, _, .escape x) =>
    if 0 < (d.buf.take x).length then
      (n, .ready (some (d.buf.take x)), { d with state := .running, buf := (d.buf.drop x).drop 1 })
    else
      let r := pollLoopC { d with state := .running, buf := (d.buf.drop x).drop 1 }
      (n + r.1, r.2)
  | (n, st, .unknown x) =>
    if 0 < x then (n, .ready (some (d.buf.take x)), { d with state := st, buf := d.buf.drop x })
    else
      match _h : d.source.pollNext with
      | (.pending, s) => (n, .pending, { d with source := s, state := st })
      | (.ready none, s) => (n, .ready none, { d with source := s, state := .earlyFin })
      | (.ready (some b), s) =>
        let r := pollLoopC { d with source := s, state := st, buf := d.buf ++ b }
        (n + r.1, r.2)
termination_by d.source.weight + d.buf.length
decreasing_by
  · have := Prep.weight_ready _h
    simp; omega
  · have := scanBuf_escape_lt (by rw [← scanBufC_fst, _hs])
    simp; omega
  · have := Prep.weight_ready _h
    simp; omega

/-- data/stream.rs:94-222 -/
def DStream.pollNextC (d : DStream) : Nat × Poll (Option Bytes) × DStream :=
  if d.state = .finished then (0, .ready none, d) else d.pollLoopC

/-- How many windows of two bytes `buf.windows(2).position(..)` (crlflines.rs:22) looks at. -/
def findCrlfWork (buf : Bytes) : Nat :=
  match findCrlf buf with
  | some pos => pos + 1
  | none => buf.length - 1

/-- crlflines.rs:10-34, adding up the work of the searches. -/
def nextCrlfLineLoopC (s : Prep Bytes) (buf : Bytes) : Nat × Except Panic (Option Bytes × Prep Bytes) :=
  match _h : s.pollNext with
  | (.pending, s') => nextCrlfLineLoopC s' buf
  | (.ready (some pkt), s') =>
    match findCrlf (buf ++ pkt) with
    | some pos =>
      match s'.prepend ((buf ++ pkt).drop (pos + 2)) with
      | some s'' => (findCrlfWork (buf ++ pkt), .ok (some ((buf ++ pkt).take (pos + 2)), s''))
      | none => (findCrlfWork (buf ++ pkt), .error .prependUnwrap)
    | none =>
      let r := nextCrlfLineLoopC s' (buf ++ pkt)
      (findCrlfWork (buf ++ pkt) + r.1, r.2)
  | (.ready none, s') =>
    match s'.prepend buf with
    | some s'' => (0, .ok (none, s''))
    | none => (0, .error .prependUnwrap)
termination_by s.size
decreasing_by
  · exact Prep.size_pending _h
  · exact Prep.size_ready _h

/-- crlflines.rs:6-35 -/
def nextCrlfLineC (s : Prep Bytes) : Nat × Except Panic (Option Bytes × Prep Bytes) := nextCrlfLineLoopC s []

end Verif
