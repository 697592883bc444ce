import Verif.Model.Task
/-
`interact` once more as a state machine, as in Model/Task.lean, with callbacks that take as many polls as they like, change the
configuration, the connection data and the envelope they borrow at any of these polls, and may panic or never return. (In
Model/Server.lean and Model/Task.lean a callback does all it does in one go.)
-/
namespace Verif.Callbacks
variable {L : IpLib} {S U : Type}

/-- What a poll of a callback's future answers. -/
inductive Ans (α : Type) where
  | pending
  | ready (a : α)
  | panicked

/-- What a mail handler may want: an item of its stream, `complete()`, or to return. -/
inductive Want where
  | poll
  | complete
  | done (d : Decision)

/-- `trait Config<U>` (config.rs:14-130) with the futures its asynchronous methods return. Nobody else has access to what a future
borrows as long as it lives, so all a future does follows from what it was called with: its `n`-th poll (from 0) leaves behind
what it has borrowed as the first component says, and answers the second. The mail handler also sees its stream: here `n` counts
its polls since the last answer of the stream. Simplification: a value a callback alone can see until it returns (the address in
`filter_from` and `filter_to`, the envelope in `filter_data`, which `handle_line` keeps in local variables) is given with the
answer. `replies` provides the synchronous methods; its callbacks are not used. -/
structure Slow (L : IpLib) (S U : Type) where
  newMail : S → Nat → S × Ans Unit
  filterFrom : S → U → Option (Email L) → Nat → (S × U) × Ans (Decision × Option (Email L))
  filterTo : S → U → Email L → MailMeta L → Nat → (S × U × MailMeta L) × Ans (Decision × Email L)
  filterData : S → U → MailMeta L → Nat → (S × U) × Ans (Decision × MailMeta L)
  handleMail : S → U → MailMeta L → List HObs → Nat → (S × U) × Ans Want
  replies : Config L S U

/-- The places at which the future can be suspended; a callback is there with what it was called with and how often it was polled. -/
inductive PC (L : IpLib) (S U : Type) where
  /-- `s.next().await` (crlflines.rs:11) -/
  | read (buf : Bytes)
  /-- `writer.send_all(..).await` (sendreply.rs:31) -/
  | send (r : Reply) (left : List Bytes) (after : Task.After L)
  /-- `cfg.new_mail().await` (interact.rs:93) -/
  | newMail (from_ : Option (Email L)) (s : S) (n : Nat)
  /-- `cfg.filter_from(..).await` (interact.rs:94) -/
  | filterFrom (from_ : Option (Email L)) (s : S) (u : U) (n : Nat)
  /-- `cfg.filter_to(..).await` (interact.rs:111) -/
  | filterTo (to : Email L) (m : MailMeta L) (s : S) (u : U) (n : Nat)
  /-- `cfg.filter_data(..).await` (interact.rs:127) -/
  | filterData (m : MailMeta L) (s : S) (u : U) (n : Nat)
  /-- `cfg.handle_mail(..).await` (interact.rs:131-133) -/
  | handle (m : MailMeta L) (s : S) (u : U) (h : List HObs) (n : Nat) (d : DStream)
  /-- the future is ready, or has panicked by itself -/
  | over (r : Res Unit)
  /-- a callback has panicked, and the future with it -/
  | unwound

/-- A state of the future, with everything it refers to. -/
abbrev State (L : IpLib) (S U : Type) := PC L S U × World L S U

/-- `send_reply` up to its first `.await` (sendreply.rs:18-29). -/
def reply (r : Reply) (after : Task.After L) : PC L S U :=
  match byteChunks r.2 ReplyLine.maxLen with
  | none => .over (.panic .divZero)
  | some chunks => .send r chunks after

/-- The code after `send_reply`, up to the next `.await` (interact.rs:97-98, 130-133, 153-159). -/
def resume (w : World L S U) : Task.After L → State L S U
  | .next => (.read [], w)
  | .setMail m => (.read [], { w with mail := m })
  | .handle m => (.handle m w.cfg w.conn [] 0 (DStream.new w.reader), { w with trace := w.trace ++ [.handleMail m] })

/-- `handle_line` up to its first `.await` (interact.rs:82-172). -/
def dispatch (D : Slow L S U) (w : World L S U) (line : Bytes) : State L S U :=
  match (Command.parse line : Except ParseErr (Command L)) with
  | .ok (.mail from_ _) =>
    if w.mail.isSome then (reply (D.replies.alreadyInMail w.cfg) .next, w) else (.newMail from_ w.cfg 0, w)
  | .ok (.rcpt to _) =>
    match w.mail with
    | some m => (.filterTo to m w.cfg w.conn 0, w)
    | none => (reply (D.replies.rcptBeforeMail w.cfg) .next, w)
  | .ok .data =>
    match w.mail with
    | some m =>
      if m.to.isEmpty then (reply (D.replies.dataBeforeRcpt w.cfg) (.setMail (some m)), { w with mail := none })
      else (.filterData m w.cfg w.conn 0, { w with mail := none })
    | none => (reply (D.replies.dataBeforeMail w.cfg) .next, w)
  | .ok _ => (reply (D.replies.commandUnimplemented w.cfg) .next, w)
  | .error _ => (reply (D.replies.commandUnrecognized w.cfg) .next, w)

/-- One answer of the awaited operation, and the code up to the next `.await`. -/
def step (D : Slow L S U) : State L S U → State L S U
  | (.read buf, w) =>
    match w.reader.pollNext with
    | (.pending, s) => (.read buf, { w with reader := s })
    | (.ready (some pkt), s) =>
      match findCrlf (buf ++ pkt) with
      | some pos =>
        match s.prepend ((buf ++ pkt).drop (pos + 2)) with
        | some s' =>
          dispatch D { w with reader := s', trace := w.trace ++ [.line ((buf ++ pkt).take (pos + 2))] } ((buf ++ pkt).take (pos + 2))
        | none => (.over (.panic .prependUnwrap), w)
      | none => (.read (buf ++ pkt), { w with reader := s })
    | (.ready none, s) =>
      match s.prepend buf with
      | some s' => (.over (.ok ()), { w with reader := s' })
      | none => (.over (.panic .prependUnwrap), w)
  | (.send r [] after, w) =>
    match Server.flush w with
    | (.ok _, w') => resume { w' with trace := w'.trace ++ [.reply r] } after
    | (.err, w') => (.over .err, w')
    | (.panic p, w') => (.over (.panic p), w')
    | (.running, w') => (.over .running, w')
  | (.send r (t :: ts) after, w) =>
    match ReplyLine.build r.1 (if ts.isEmpty then .yes else .no) t with
    | .error _ => (.over (.panic .buildUnwrap), w)
    | .ok l =>
      match Server.writeLine l w with
      | (.ok _, w') => (.send r ts after, w')
      | (.err, w') => (.over .err, w')
      | (.panic p, w') => (.over (.panic p), w')
      | (.running, w') => (.over .running, w')
  | (.newMail f s0 n, w) =>
    match D.newMail s0 n with
    | (s, .pending) => (.newMail f s0 (n + 1), { w with cfg := s })
    | (s, .panicked) => (.unwound, { w with cfg := s })
    | (s, .ready _) => (.filterFrom f s w.conn 0, { w with cfg := s, trace := w.trace ++ [.newMail] })
  | (.filterFrom f s0 u0 n, w) =>
    match D.filterFrom s0 u0 f n with
    | ((s, u), .pending) => (.filterFrom f s0 u0 (n + 1), { w with cfg := s, conn := u })
    | ((s, u), .panicked) => (.unwound, { w with cfg := s, conn := u })
    | ((s, u), .ready (.accept, f')) => (reply (D.replies.mailOkay s) (.setMail (some ⟨f', []⟩)),
        { w with cfg := s, conn := u, trace := w.trace ++ [.filterFrom f f' .accept] })
    | ((s, u), .ready (.reject r, f')) => (reply (r.code, r.msg) .next,
        { w with cfg := s, conn := u, trace := w.trace ++ [.filterFrom f f' (.reject r)] })
  | (.filterTo t m s0 u0 n, w) =>
    match D.filterTo s0 u0 t m n with
    | ((s, u, m'), .pending) => (.filterTo t m s0 u0 (n + 1), { w with cfg := s, conn := u, mail := some m' })
    | ((s, u, m'), .panicked) => (.unwound, { w with cfg := s, conn := u, mail := some m' })
    | ((s, u, m'), .ready (.accept, t')) => (reply (D.replies.rcptOkay s) .next,
        { w with cfg := s, conn := u, mail := some { m' with to := m'.to ++ [t'] }, trace := w.trace ++ [.filterTo t t' m m' .accept] })
    | ((s, u, m'), .ready (.reject r, t')) => (reply (r.code, r.msg) .next,
        { w with cfg := s, conn := u, mail := some m', trace := w.trace ++ [.filterTo t t' m m' (.reject r)] })
  | (.filterData m s0 u0 n, w) =>
    match D.filterData s0 u0 m n with
    | ((s, u), .pending) => (.filterData m s0 u0 (n + 1), { w with cfg := s, conn := u })
    | ((s, u), .panicked) => (.unwound, { w with cfg := s, conn := u })
    | ((s, u), .ready (.accept, m')) => (reply (D.replies.dataOkay s) (.handle m'),
        { w with cfg := s, conn := u, trace := w.trace ++ [.filterData m m' .accept] })
    | ((s, u), .ready (.reject r, m')) => (reply (r.code, r.msg) (.setMail (some m')),
        { w with cfg := s, conn := u, trace := w.trace ++ [.filterData m m' (.reject r)] })
  | (.handle m s0 u0 h n d, w) =>
    match D.handleMail s0 u0 m h n with
    | ((s, u), .pending) => (.handle m s0 u0 h (n + 1) d, { w with cfg := s, conn := u })
    | ((s, u), .panicked) => (.unwound, { w with cfg := s, conn := u })
    | ((s, u), .ready .poll) =>
      (.handle m s0 u0 (h ++ [.polled d.pollNext.1]) 0 d.pollNext.2, { w with cfg := s, conn := u })
    | ((s, u), .ready .complete) =>
      match d.complete with
      | .error p => (.over (.panic p), { w with cfg := s, conn := u })
      | .ok (ok, d') => (.handle m s0 u0 (h ++ [.completed ok]) 0 d', { w with cfg := s, conn := u })
    | ((s, u), .ready (.done dec)) =>
      if d.wasCompleted then
        (reply (match dec with | .accept => D.replies.mailAccepted s | .reject r => (r.code, r.msg)) .next,
          { w with cfg := s, conn := u, reader := d.source, trace := w.trace ++ [.handled dec] })
      else (.over (.panic .notCompleted), { w with cfg := s, conn := u })
  | (.over r, w) => (.over r, w)
  | (.unwound, w) => (.unwound, w)

/-- `interact` up to its first `.await` (interact.rs:29-49). -/
def init (D : Slow L S U) (incoming : List (SrcEv Bytes)) (outgoing : BSink) (s : S) (u : U) : State L S U :=
  (reply (D.replies.welcomeBanner s) .next, Server.start incoming outgoing s u)

/-- The future after `n` answers. -/
def steps (D : Slow L S U) : Nat → State L S U → State L S U
  | 0, x => x
  | n + 1, x => steps D n (step D x)

/-- The future returned by `interact` after `n` answers. -/
def after (D : Slow L S U) (incoming : List (SrcEv Bytes)) (outgoing : BSink) (s : S) (u : U) (n : Nat) : State L S U :=
  steps D n (init D incoming outgoing s u)

/-- Where the future reads next: while a message is being handled the reader is lent to its stream. -/
def input (x : State L S U) : Prep Bytes :=
  match x.1 with
  | .handle _ _ _ _ _ d => d.source
  | _ => x.2.reader

end Verif.Callbacks
