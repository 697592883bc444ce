import Verif.Model.Server
/-
`interact` once more, as the state machine an `async fn` is compiled to: a state for every `.await` the future can be
suspended at, and `step`, which lets the awaited operation go on by one answer and then runs the code up to the next `.await`.

An answer `Pending` of the writer or of a callback leaves the state as it is, so it needs no step; that of the reader is an event
of the incoming stream, and that of a message stream is seen by the mail handler. The future can be dropped whenever it is
suspended, that is, in any state that can be reached. Simplification: a callback other than `handle_mail` does all it does in one
go, and `handle_mail` changes configuration and connection data when it returns (Model/Callbacks.lean has no such restriction, and C120
relates the two; Spec/Dropped.lean lifts it for the mailbox).
-/
namespace Verif.Task
variable {L : IpLib} {S U : Type}

/-- What is left to be done once a reply is written. -/
inductive After (L : IpLib) where
  /-- `handle_line` is over (interact.rs:90, 101, 114, 117, 121, 138, 141, 162, 167, 170) -/
  | next
  /-- `*mail_meta = m`, and `handle_line` is over (interact.rs:97-98, 153-154, 158-159) -/
  | setMail (m : Option (MailMeta L))
  /-- `handle_mail` is called (interact.rs:130-133) -/
  | handle (m : MailMeta L)
  deriving Inhabited

/-- The places at which the future can be suspended. -/
inductive PC (L : IpLib) (S U : Type) where
  /-- in `next_crlf_line`, at `s.next().await` (crlflines.rs:11), with what is in `buf` -/
  | read (buf : Bytes)
  /-- in `send_reply`, at `writer.send_all(..).await` (sendreply.rs:31), the chunks `left` not yet written, or written but not
  flushed -/
  | send (r : Reply) (left : List Bytes) (after : After L)
  /-- `cfg.new_mail().await` (interact.rs:93) -/
  | newMail (from_ : Option (Email L))
  /-- `cfg.filter_from(..).await` (interact.rs:94) -/
  | filterFrom (from_ : Option (Email L))
  /-- `cfg.filter_to(..).await` (interact.rs:111) -/
  | filterTo (to : Email L) (m : MailMeta L)
  /-- `cfg.filter_data(..).await` (interact.rs:127) -/
  | filterData (m : MailMeta L)
  /-- `cfg.handle_mail(..).await` (interact.rs:131-133): the handler, what it has seen, and its stream -/
  | handle (act : List HObs → HAct S U) (h : List HObs) (d : DStream)
  /-- the future is ready, or has panicked -/
  | over (r : Res Unit)

/-- A state of the future, with everything it refers to. -/
abbrev State (L : IpLib) (S U : Type) := PC L S U × World L S U

/-- `send_reply` up to its first `.await` (sendreply.rs:18-29). -/
def reply (r : Reply) (after : After L) : PC L S U :=
  match byteChunks r.2 ReplyLine.maxLen with
  | none => .over (.panic .divZero)
  | some chunks => .send r chunks after

/-- The code after `send_reply`, up to the next `.await`. -/
def resume (C : Config L S U) (w : World L S U) : After L → State L S U
  | .next => (.read [], w)
  | .setMail m => (.read [], { w with mail := m })
  | .handle m => (.handle (C.handleMail w.cfg w.conn m) [] (DStream.new w.reader), { w with trace := w.trace ++ [.handleMail m] })

/-- `handle_line` up to its first `.await` (interact.rs:82-172). -/
def dispatch (C : Config L S U) (w : World L S U) (line : Bytes) : State L S U :=
  match (Command.parse line : Except ParseErr (Command L)) with
  | .ok (.mail from_ _) =>
    if w.mail.isSome then (reply (C.alreadyInMail w.cfg) .next, w) else (.newMail from_, w)
  | .ok (.rcpt to _) =>
    match w.mail with
    | some m => (.filterTo to m, w)
    | none => (reply (C.rcptBeforeMail w.cfg) .next, w)
  | .ok .data =>
    match w.mail with
    | some m =>
      if m.to.isEmpty then (reply (C.dataBeforeRcpt w.cfg) (.setMail (some m)), { w with mail := none })
      else (.filterData m, { w with mail := none })
    | none => (reply (C.dataBeforeMail w.cfg) .next, w)
  | .ok _ => (reply (C.commandUnimplemented w.cfg) .next, w)
  | .error _ => (reply (C.commandUnrecognized w.cfg) .next, w)

/-- One answer of the awaited operation, and the code up to the next `.await`. -/
def step (C : Config L S U) : State L S U → State L S U
  | (.read buf, w) =>
    match w.reader.pollNext with
    | (.pending, s) => (.read buf, { w with reader := s })
    | (.ready (some pkt), s) =>
      match findCrlf (buf ++ pkt) with
      | some pos =>
        match s.prepend ((buf ++ pkt).drop (pos + 2)) with
        | some s' =>
          dispatch C { w with reader := s', trace := w.trace ++ [.line ((buf ++ pkt).take (pos + 2))] } ((buf ++ pkt).take (pos + 2))
        | none => (.over (.panic .prependUnwrap), w)
      | none => (.read (buf ++ pkt), { w with reader := s })
    | (.ready none, s) =>
      match s.prepend buf with
      | some s' => (.over (.ok ()), { w with reader := s' })
      | none => (.over (.panic .prependUnwrap), w)
  | (.send r [] after, w) =>
    match Server.flush w with
    | (.ok _, w') => resume C { w' with trace := w'.trace ++ [.reply r] } after
    | (.err, w') => (.over .err, w')
    | (.panic p, w') => (.over (.panic p), w')
    | (.running, w') => (.over .running, w')
  | (.send r (t :: ts) after, w) =>
    match ReplyLine.build r.1 (if ts.isEmpty then .yes else .no) t with
    | .error _ => (.over (.panic .buildUnwrap), w)
    | .ok l =>
      match Server.writeLine l w with
      | (.ok _, w') => (.send r ts after, w')
      | (.err, w') => (.over .err, w')
      | (.panic p, w') => (.over (.panic p), w')
      | (.running, w') => (.over .running, w')
  | (.newMail f, w) => (.filterFrom f, { w with cfg := C.newMail w.cfg, trace := w.trace ++ [.newMail] })
  | (.filterFrom f, w) =>
    match C.filterFrom w.cfg w.conn f with
    | (.accept, f', s, u) => (reply (C.mailOkay s) (.setMail (some ⟨f', []⟩)),
        { w with cfg := s, conn := u, trace := w.trace ++ [.filterFrom f f' .accept] })
    | (.reject r, f', s, u) => (reply (r.code, r.msg) .next,
        { w with cfg := s, conn := u, trace := w.trace ++ [.filterFrom f f' (.reject r)] })
  | (.filterTo t m, w) =>
    match C.filterTo w.cfg w.conn t m with
    | (.accept, t', m', s, u) => (reply (C.rcptOkay s) .next,
        { w with cfg := s, conn := u, mail := some { m' with to := m'.to ++ [t'] }, trace := w.trace ++ [.filterTo t t' m m' .accept] })
    | (.reject r, t', m', s, u) => (reply (r.code, r.msg) .next,
        { w with cfg := s, conn := u, mail := some m', trace := w.trace ++ [.filterTo t t' m m' (.reject r)] })
  | (.filterData m, w) =>
    match C.filterData w.cfg w.conn m with
    | (.accept, m', s, u) => (reply (C.dataOkay s) (.handle m'),
        { w with cfg := s, conn := u, trace := w.trace ++ [.filterData m m' .accept] })
    | (.reject r, m', s, u) => (reply (r.code, r.msg) (.setMail (some m')),
        { w with cfg := s, conn := u, trace := w.trace ++ [.filterData m m' (.reject r)] })
  | (.handle act h d, w) =>
    match act h with
    | .poll => (.handle act (h ++ [.polled d.pollNext.1]) d.pollNext.2, w)
    | .complete =>
      match d.complete with
      | .error p => (.over (.panic p), w)
      | .ok (ok, d') => (.handle act (h ++ [.completed ok]) d', w)
    | .done dec s u =>
      if d.wasCompleted then
        (reply (match dec with | .accept => C.mailAccepted s | .reject r => (r.code, r.msg)) .next,
          { w with cfg := s, conn := u, reader := d.source, trace := w.trace ++ [.handled dec] })
      else (.over (.panic .notCompleted), w)
  | (.over r, w) => (.over r, w)

/-- `interact` up to its first `.await` (interact.rs:29-49). -/
def init (C : Config L S U) (incoming : List (SrcEv Bytes)) (outgoing : BSink) (s : S) (u : U) : State L S U :=
  (reply (C.welcomeBanner s) .next, Server.start incoming outgoing s u)

/-- The future after `n` answers. -/
def steps (C : Config L S U) : Nat → State L S U → State L S U
  | 0, x => x
  | n + 1, x => steps C n (step C x)

/-- The future returned by `interact` after `n` answers. -/
def after (C : Config L S U) (incoming : List (SrcEv Bytes)) (outgoing : BSink) (s : S) (u : U) (n : Nat) : State L S U :=
  steps C n (init C incoming outgoing s u)

/-- Where the future reads next: while a message is being handled the reader is lent to its stream. -/
def input (x : State L S U) : Prep Bytes :=
  match x.1 with
  | .handle _ _ d => d.source
  | _ => x.2.reader

end Verif.Task
