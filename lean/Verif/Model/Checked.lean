import Verif.Model.Task
import Verif.Model.Usize
import Verif.Model.SliceParse
/-
The code of a session once more, with every operation of the machine that can fail: indices, `split_to`, `split_off`, `advance`,
`slice_to` of bytes 0.4 (which panic out of range), sums and differences of `usize`, the counters of `enumerate` and `position`, and
buffers that cannot grow beyond `isize::MAX` bytes. In the other models these are total functions on lists and numbers. C115 proves
that nothing is lost by that.
-/
namespace Verif.Checked

/-- What else can go wrong: an operation out of range (panic), or a buffer too large to exist (`capacity overflow`, panic). -/
inductive Fault where
  | range
  | memory
  deriving DecidableEq, Repr

/-- The machine and the build: how many bits a `usize` has, and what happens at an overflow. -/
structure Machine where
  bits : Nat
  overflow : Overflow

/-- `usize::MAX + 1` -/
def Machine.top (M : Machine) : Nat := 2 ^ M.bits
/-- `isize::MAX` -/
def Machine.cap (M : Machine) : Nat := 2 ^ (M.bits - 1) - 1

variable (M : Machine)

/-- `x + y` -/
def add (x y : Nat) : Except Fault Nat :=
  match Usize.add M.overflow M.top x y with
  | some v => .ok v
  | none => .error .range

/-- `x - y` -/
def sub (x y : Nat) : Except Fault Nat :=
  match Usize.sub M.overflow M.top x y with
  | some v => .ok v
  | none => .error .range

/-- `s[i]` -/
def index (s : Bytes) (i : Nat) : Except Fault UInt8 :=
  match s[i]? with
  | some b => .ok b
  | none => .error .range

/-- `BytesMut::split_to`: what is split off the front, and what is left. -/
def splitTo (s : Bytes) (n : Nat) : Except Fault (Bytes × Bytes) :=
  if n ≤ s.length then .ok (s.take n, s.drop n) else .error .range

/-- `BytesMut::split_off`: what is split off the back, and what is left. -/
def splitOff (s : Bytes) (n : Nat) : Except Fault (Bytes × Bytes) :=
  if n ≤ s.length then .ok (s.drop n, s.take n) else .error .range

/-- `Buf::advance` -/
def advance (s : Bytes) (n : Nat) : Except Fault Bytes :=
  if n ≤ s.length then .ok (s.drop n) else .error .range

/-- `Bytes::slice_to` -/
def sliceTo (s : Bytes) (n : Nat) : Except Fault Bytes :=
  if n ≤ s.length then .ok (s.take n) else .error .range

/-- `BytesMut::unsplit` -/
def unsplit (s t : Bytes) : Except Fault Bytes :=
  if s.length + t.length ≤ M.cap then .ok (s ++ t) else .error .memory

/-- `slice::windows` (for `0 < k`) -/
def windows (k : Nat) : Bytes → List Bytes
  | [] => []
  | a :: s => if s.length + 1 < k then [] else (a :: s).take k :: windows k s

/-! ### data/stream.rs -/

/-- `for (idx, w) in self.buf.windows(3).enumerate()` (data/stream.rs:113-133); `enumerate` counts on before the body runs. -/
def scan (st : DState) (idx : Nat) : List Bytes → Except Fault (DState × BufSplit)
  | [] => .ok (st, .nowhere)
  | w :: ws => do
    let next ← add M idx 1
    let w0 ← index w 0
    if w0 = cCR then scan .crPassed next ws
    else if st = .crPassed ∧ w0 = cLF then scan .crLfPassed next ws
    else if st = .crLfPassed ∧ w0 = cDOT ∧ w = b!".\r\n" then .ok (st, .eof idx)
    else if st = .crLfPassed ∧ w0 = cDOT then .ok (st, .escape idx)
    else scan .running next ws

/-- The last two bytes (data/stream.rs:137-171). -/
def look (st : DState) (buf : Bytes) : Except Fault (DState × BufSplit) := do
  let l := buf.length
  if l ≥ 2 then
    let i ← sub M l 2
    let y ← index buf i
    let j ← sub M l 1
    let z ← index buf j
    if st = .crLfPassed ∧ y = cDOT ∧ z = cCR then
      let x ← sub M l 2
      .ok (st, .unknown x)
    else if st = .crPassed ∧ y = cLF ∧ z = cDOT then
      let x ← sub M l 1
      .ok (.crLfPassed, .unknown x)
    else if st = .crLfPassed ∧ y = cDOT then
      let x ← sub M l 2
      .ok (st, .escape x)
    else if y = cCR ∧ z = cLF then .ok (.crLfPassed, .nowhere)
    else if z = cCR then .ok (.crPassed, .nowhere)
    else .ok (.running, .nowhere)
  else if l = 1 then
    let j ← sub M l 1
    let z ← index buf j
    if st = .crLfPassed ∧ z = cDOT then
      let x ← sub M l 1
      .ok (st, .unknown x)
    else if z = cCR then .ok (.crPassed, .nowhere)
    else if st = .crPassed ∧ z = cLF then .ok (.crLfPassed, .nowhere)
    else .ok (.running, .nowhere)
  else .ok (st, .nowhere)

/-- How one turn of the `loop` of `poll_next` ends: it returns, or it goes round again. -/
inductive Turn where
  | ret (r : Poll (Option Bytes)) (d : DStream)
  | again (d : DStream)

/-- The end of a turn: more data is gathered (data/stream.rs:203-219). -/
def gather (d : DStream) : Except Fault Turn :=
  match d.source.pollNext with
  | (.pending, s) => .ok (.ret .pending { d with source := s })
  | (.ready none, s) => .ok (.ret (.ready none) { d with source := s, state := .earlyFin })
  | (.ready (some b), s) => do
    let buf ← unsplit M d.buf b
    .ok (.again { d with source := s, buf := buf })

/-- What a split of the buffer leads to (data/stream.rs:174-201). -/
def act (d : DStream) : BufSplit → Except Fault Turn
  | .nowhere => if d.buf.length > 0 then .ok (.ret (.ready (some d.buf)) { d with buf := [] }) else gather M d
  | .eof x => do
    let (res, buf) ← splitTo d.buf x
    let buf ← advance buf 3
    .ok (.ret (if res.length > 0 then .ready (some res) else .ready none) { d with state := .finished, buf := buf })
  | .escape x => do
    let (res, buf) ← splitTo d.buf x
    let buf ← advance buf 1
    if res.length > 0 then .ok (.ret (.ready (some res)) { d with state := .running, buf := buf })
    else .ok (.again { d with state := .running, buf := buf })
  | .unknown x =>
    if x > 0 then do
      let (res, buf) ← splitTo d.buf x
      .ok (.ret (.ready (some res)) { d with buf := buf })
    else gather M d

/-- One turn of the `loop` of `poll_next` (data/stream.rs:101-220). -/
def turn (d : DStream) : Except Fault Turn := do
  let (st, split) ← scan M d.state 0 (windows 3 d.buf)
  if split = .nowhere then
    let (st, split) ← look M st d.buf
    act M { d with state := st } split
  else act M { d with state := st } split

theorem gather_lt {d d' : DStream} (h : gather M d = .ok (.again d')) :
    d'.source.weight + d'.buf.length < d.source.weight + d.buf.length := by
  unfold gather at h
  split at h
  · cases h
  · cases h
  · rename_i b s hp
    unfold unsplit at h
    have := Prep.weight_ready hp
    split at h
    · cases h; simp; omega
    · cases h

theorem act_lt {d d' : DStream} {split : BufSplit} (h : act M d split = .ok (.again d')) :
    d'.source.weight + d'.buf.length < d.source.weight + d.buf.length := by
  unfold act at h
  split at h
  · split at h
    · cases h
    · exact gather_lt M h
  · unfold splitTo advance at h
    simp only [bind, Except.bind] at h
    split at h <;> try cases h
    split at h <;> cases h
  · rename_i x
    unfold splitTo at h
    simp only [bind, Except.bind] at h
    by_cases h1 : x ≤ d.buf.length
    · simp only [if_pos h1] at h
      unfold advance at h
      by_cases h2 : 1 ≤ (d.buf.drop x).length
      · simp only [if_pos h2] at h
        split at h
        · cases h
        · cases h
          simp at h2 ⊢
          omega
      · simp only [if_neg h2] at h
        cases h
    · simp only [if_neg h1] at h
      cases h
  · split at h
    · unfold splitTo at h
      simp only [bind, Except.bind] at h
      split at h <;> cases h
    · exact gather_lt M h

theorem turn_lt {d d' : DStream} (h : turn M d = .ok (.again d')) :
    d'.source.weight + d'.buf.length < d.source.weight + d.buf.length := by
  unfold turn at h
  simp only [bind, Except.bind] at h
  split at h
  · cases h
  · split at h
    · split at h
      · cases h
      · have := act_lt M h
        exact this
    · have := act_lt M h
      exact this

/-- The `loop` of `poll_next` (data/stream.rs:101-221). -/
def pollLoop (d : DStream) : Except Fault (Poll (Option Bytes) × DStream) :=
  match _h : turn M d with
  | .error f => .error f
  | .ok (.ret r d') => .ok (r, d')
  | .ok (.again d') => pollLoop d'
termination_by d.source.weight + d.buf.length
decreasing_by exact turn_lt M _h

/-- `<DataStream as Stream>::poll_next` (data/stream.rs:94-222) -/
def pollNext (d : DStream) : Except Fault (Poll (Option Bytes) × DStream) :=
  if d.state = .finished then .ok (.ready none, d) else pollLoop M d

/-- `DataStream::complete` (data/stream.rs:62-80) -/
def complete (d : DStream) : Except Fault (Except Panic (Bool × DStream)) :=
  if d.state = .earlyFin then .ok (.ok (false, { d with state := .completed }))
  else if d.state ≠ .finished then .ok (.error .notFinished)
  else if d.buf ≠ [] then do
    let (back, buf) ← splitOff d.buf 0
    match d.source.prepend back with
    | some s => .ok (.ok (true, { source := s, state := .completed, buf := buf }))
    | none => .ok (.error .prependUnwrap)
  else .ok (.ok (true, { d with state := .completed }))

/-! ### data/sink.rs -/

/-- `for (pos, c) in item.iter().enumerate()` (data/sink.rs:31-43) -/
def sinkScan (st : KState) (pos : Nat) : Bytes → Except Fault (KState × Option Nat)
  | [] => .ok (st, none)
  | c :: rest => do
    let next ← add M pos 1
    if c = cCR then sinkScan .crPassed next rest
    else if st = .crPassed ∧ c = cLF then sinkScan .crLfPassed next rest
    else if st = .crLfPassed ∧ c = cDOT then .ok (.running, some pos)
    else sinkScan .running next rest

/-- The `loop` of `DataSink::send` (data/sink.rs:29-58), with fuel as in Model/Data.lean. -/
def sendLoop : Nat → DSink → Bytes → Except Fault (Option (Bool × DSink))
  | 0, _, _ => .ok none
  | fuel + 1, k, item => do
    match ← sinkScan M k.state 0 item with
    | (st, none) => .ok (some ((k.sink.send item).1, { sink := (k.sink.send item).2, state := st }))
    | (st, some pos) =>
      let n ← add M pos 1
      let front ← sliceTo item n
      if (k.sink.send front).1 then
        let item ← advance item pos
        sendLoop fuel { sink := (k.sink.send front).2, state := st } item
      else .ok (some (false, { sink := (k.sink.send front).2, state := st }))

/-! ### crlflines.rs -/

/-- `.position(|x| x == b"\r\n")` on the windows, from the count `i` on (crlflines.rs:22). -/
def position (i : Nat) : List Bytes → Except Fault (Option Nat)
  | [] => .ok none
  | w :: ws => do
    if w = b!"\r\n" then .ok (some i)
    else
      let next ← add M i 1
      position next ws

/-! ### The session -/
section
open Task
variable {L : IpLib} {S U : Type}

/-- `send_reply` up to its first `.await` (sendreply.rs:18-29), with the arithmetic of `byte_chunks` (smtpstring.rs:63-67). -/
def reply (r : Reply) (after : After L) : Except Fault (PC L S U) :=
  match Usize.byteChunks M.overflow M.top r.2 ReplyLine.maxLen with
  | none => .error .range
  | some chunks => .ok (.send r chunks after)

/-- A reply is sent next. -/
def say (r : Reply) (after : After L) (w : World L S U) : Except Fault (State L S U) := do
  let pc ← reply M r after
  .ok (pc, w)

/-- `handle_line` up to its first `.await` (interact.rs:82-172). The line is at the address `ptr`. -/
def dispatch (C : Config L S U) (ptr : Nat) (w : World L S U) (line : Bytes) : Except Fault (State L S U) :=
  match (SliceParse.commandParse ptr line : Option (Except ParseErr (Command L))) with
  | none => .error .range
  | some (.ok (.mail from_ _)) =>
    if w.mail.isSome then say M (C.alreadyInMail w.cfg) .next w else .ok (.newMail from_, w)
  | some (.ok (.rcpt to _)) =>
    match w.mail with
    | some m => .ok (.filterTo to m, w)
    | none => say M (C.rcptBeforeMail w.cfg) .next w
  | some (.ok .data) =>
    match w.mail with
    | some m =>
      if m.to.isEmpty then say M (C.dataBeforeRcpt w.cfg) (.setMail (some m)) { w with mail := none }
      else .ok (.filterData m, { w with mail := none })
    | none => say M (C.dataBeforeMail w.cfg) .next w
  | some (.ok _) => say M (C.commandUnimplemented w.cfg) .next w
  | some (.error _) => say M (C.commandUnrecognized w.cfg) .next w

/-- One answer of the awaited operation, and the code up to the next `.await` (as `Task.step`). `place` is where in memory a line
is. -/
def step (C : Config L S U) (place : Bytes → Nat) : State L S U → Except Fault (State L S U)
  | (.read buf, w) =>
    match w.reader.pollNext with
    | (.pending, s) => .ok (.read buf, { w with reader := s })
    | (.ready (some pkt), s) => do
      let buf ← unsplit M buf pkt
      match ← position M 0 (windows 2 buf) with
      | some pos =>
        let n ← add M pos 2
        let (rest, line) ← splitOff buf n
        match s.prepend rest with
        | some s' => dispatch M C (place line) { w with reader := s', trace := w.trace ++ [.line line] } line
        | none => .ok (.over (.panic .prependUnwrap), w)
      | none => .ok (.read buf, { w with reader := s })
    | (.ready none, s) =>
      match s.prepend buf with
      | some s' => .ok (.over (.ok ()), { w with reader := s' })
      | none => .ok (.over (.panic .prependUnwrap), w)
  | (.filterFrom f, w) =>
    match C.filterFrom w.cfg w.conn f with
    | (.accept, f', s, u) => say M (C.mailOkay s) (.setMail (some ⟨f', []⟩))
        { w with cfg := s, conn := u, trace := w.trace ++ [.filterFrom f f' .accept] }
    | (.reject r, f', s, u) => say M (r.code, r.msg) .next
        { w with cfg := s, conn := u, trace := w.trace ++ [.filterFrom f f' (.reject r)] }
  | (.filterTo t m, w) =>
    match C.filterTo w.cfg w.conn t m with
    | (.accept, t', m', s, u) => say M (C.rcptOkay s) .next
        { w with cfg := s, conn := u, mail := some { m' with to := m'.to ++ [t'] }, trace := w.trace ++ [.filterTo t t' m m' .accept] }
    | (.reject r, t', m', s, u) => say M (r.code, r.msg) .next
        { w with cfg := s, conn := u, mail := some m', trace := w.trace ++ [.filterTo t t' m m' (.reject r)] }
  | (.filterData m, w) =>
    match C.filterData w.cfg w.conn m with
    | (.accept, m', s, u) => say M (C.dataOkay s) (.handle m')
        { w with cfg := s, conn := u, trace := w.trace ++ [.filterData m m' .accept] }
    | (.reject r, m', s, u) => say M (r.code, r.msg) (.setMail (some m'))
        { w with cfg := s, conn := u, trace := w.trace ++ [.filterData m m' (.reject r)] }
  | (.handle act h d, w) =>
    match act h with
    | .poll => do
      let (r, d') ← pollNext M d
      .ok (.handle act (h ++ [.polled r]) d', w)
    | .complete => do
      match ← complete d with
      | .error p => .ok (.over (.panic p), w)
      | .ok (ok, d') => .ok (.handle act (h ++ [.completed ok]) d', w)
    | .done dec s u =>
      if d.wasCompleted then
        say M (match dec with | .accept => C.mailAccepted s | .reject r => (r.code, r.msg)) .next
          { w with cfg := s, conn := u, reader := d.source, trace := w.trace ++ [.handled dec] }
      else .ok (.over (.panic .notCompleted), w)
  -- `newMail` has nothing that can fail; while a reply is sent, `ReplyLine::build` and writing into the buffer are modelled with their
  -- panics in Model/Task.lean
  | x => .ok (Task.step C x)

/-- The future after `n` answers, on the machine. -/
def after (C : Config L S U) (place : Bytes → Nat) (incoming : List (SrcEv Bytes)) (outgoing : BSink) (s : S) (u : U) :
    Nat → Except Fault (State L S U)
  | 0 => say M (C.welcomeBanner s) .next (Server.start incoming outgoing s u)
  | n + 1 => do
    let x ← after C place incoming outgoing s u n
    step M C place x

end
end Verif.Checked
