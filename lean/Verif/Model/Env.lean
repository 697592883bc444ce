import Verif.Model.AnySource
import Verif.Model.Callbacks
import Verif.Spec.Hooks
/-
`interact` once more as a state machine, as in Model/Task.lean, this time alone: nothing is assumed of all the code that is not in
this project. The connection, the writer, the callbacks and the methods that word the replies are the environment, which answers
whatever is asked of it in any way it likes, at any time, each time differently, with side effects of any kind, or never, or by a
panic. (In the other models the configuration is a value on which its methods work. What they make of it has an effect on the session
only by what they answer.)
-/
namespace Verif.Env
open Spec (Hook)
open AnySource (Source Reader DS)
open Callbacks (Ans Want)
variable {L : IpLib}

/-- What `writer` answers: it takes the line (or has flushed), or not yet, or it fails, having taken the line or not. -/
inductive WriterAns where
  | pending
  | ok
  | err (taken : Bool)

/-- All that can be observed of the environment. `source` is what the polls of the connection answer, in order. The others are what an
operation answers that is polled in step number `t` of the session. `filterTo` also has a mutable reference to the envelope, and
may change it in each poll; the others get a value that is seen by the session when they return. `handleMail` says what the handler
does next: it polls its stream, calls `complete()`, or returns. `say` are the methods that word the replies (config.rs:57-129): the
reply, or `none` for a panic. The configuration and the connection data are part of the environment: this project only passes
references to them on. -/
structure Environment (L : IpLib) where
  source : Source
  write : Nat → WriterAns
  newMail : Nat → Ans Unit
  filterFrom : Nat → Ans (Decision × Option (Email L))
  filterTo : Nat → MailMeta L × Ans (Decision × Email L)
  filterData : Nat → Ans (Decision × MailMeta L)
  handleMail : Nat → Ans Want
  say : Hook → Nat → Option Reply

/-- The places at which the future can be suspended. -/
inductive PC (L : IpLib) where
  /-- `s.next().await` (crlflines.rs:11) -/
  | read (buf : Bytes)
  /-- `writer.send_all(..).await` (sendreply.rs:31) -/
  | send (r : Reply) (left : List Bytes) (after : Task.After L)
  /-- `cfg.new_mail().await` (interact.rs:93) -/
  | newMail (from_ : Option (Email L))
  /-- `cfg.filter_from(..).await` (interact.rs:94) -/
  | filterFrom (from_ : Option (Email L))
  /-- `cfg.filter_to(..).await` (interact.rs:111), called with the envelope `m` -/
  | filterTo (to : Email L) (m : MailMeta L)
  /-- `cfg.filter_data(..).await` (interact.rs:127) -/
  | filterData (m : MailMeta L)
  /-- `cfg.handle_mail(..).await` (interact.rs:131-133): what the handler has seen, and its stream -/
  | handle (h : List HObs) (d : DS)
  /-- the same, while the handler polls the stream -/
  | polling (h : List HObs) (d : DS)
  /-- the future is ready, or has panicked by itself -/
  | over (r : Res Unit)
  /-- the environment has panicked, and the future with it -/
  | unwound

/-- A state of the future, with what it has: the connection (interact.rs:46), the open transaction (interact.rs:51), what it has
written, and the ghost record. -/
structure State (L : IpLib) where
  pc : PC L
  reader : Reader
  mail : Option (MailMeta L)
  out : List Bytes
  trace : List (Ev L)

/-- `send_reply` up to its first `.await` (sendreply.rs:18-29). -/
def reply (r : Reply) (after : Task.After L) : PC L :=
  match byteChunks r.2 ReplyLine.maxLen with
  | none => .over (.panic .divZero)
  | some chunks => .send r chunks after

/-- `send_reply(writer, cfg.h())` up to its first `.await` (interact.rs:49, 90, 97, 114, 117, 130, 138, 158, 162, 167, 170;
sendreply.rs:18-29), in step number `t`. -/
def speak (E : Environment L) (t : Nat) (h : Hook) (after : Task.After L) (x : State L) : State L :=
  match E.say h t with
  | some r => { x with pc := reply r after }
  | none => { x with pc := .unwound }

/-- The code after `send_reply`, up to the next `.await` (interact.rs:97-98, 130-133, 153-159). -/
def resume (x : State L) : Task.After L → State L
  | .next => { x with pc := .read [] }
  | .setMail m => { x with pc := .read [], mail := m }
  | .handle m => { x with pc := .handle [] (DS.new x.reader), trace := x.trace ++ [.handleMail m] }

/-- `handle_line` up to its first `.await` (interact.rs:82-172). -/
def dispatch (E : Environment L) (t : Nat) (x : State L) (line : Bytes) : State L :=
  match (Command.parse line : Except ParseErr (Command L)) with
  | .ok (.mail from_ _) =>
    if x.mail.isSome then speak E t .alreadyInMail .next x else { x with pc := .newMail from_ }
  | .ok (.rcpt to _) =>
    match x.mail with
    | some m => { x with pc := .filterTo to m }
    | none => speak E t .rcptBeforeMail .next x
  | .ok .data =>
    match x.mail with
    | some m =>
      if m.to.isEmpty then speak E t .dataBeforeRcpt (.setMail (some m)) { x with mail := none }
      else { x with pc := .filterData m, mail := none }
    | none => speak E t .dataBeforeMail .next x
  | .ok _ => speak E t .commandUnimplemented .next x
  | .error _ => speak E t .commandUnrecognized .next x

/-- Step number `t`: one poll of the awaited operation, and, if it answers, the code up to the next `.await`. -/
def step (E : Environment L) (t : Nat) : State L → State L
  -- `next_crlf_line` (crlflines.rs:10-34)
  | ⟨.read buf, r, m, o, tr⟩ =>
    match r.poll E.source with
    | (.pending, r) => ⟨.read buf, r, m, o, tr⟩
    | (.ready (some pkt), r) =>
      match findCrlf (buf ++ pkt) with
      | some pos =>
        match r.prepend ((buf ++ pkt).drop (pos + 2)) with
        | some r => dispatch E t ⟨.read [], r, m, o, tr ++ [.line ((buf ++ pkt).take (pos + 2))]⟩ ((buf ++ pkt).take (pos + 2))
        | none => ⟨.over (.panic .prependUnwrap), r, m, o, tr⟩
      | none => ⟨.read (buf ++ pkt), r, m, o, tr⟩
    | (.ready none, r) =>
      match r.prepend buf with
      | some r => ⟨.over (.ok ()), r, m, o, tr⟩
      | none => ⟨.over (.panic .prependUnwrap), r, m, o, tr⟩
  -- the flush at the end of `send_all`
  | ⟨.send rp [] a, r, m, o, tr⟩ =>
    match E.write t with
    | .pending => ⟨.send rp [] a, r, m, o, tr⟩
    | .ok => resume ⟨.read [], r, m, o, tr ++ [.reply rp]⟩ a
    | .err _ => ⟨.over .err, r, m, o, tr ++ [.writeError]⟩
  -- the next line (sendreply.rs:20-29, interact.rs:31-43)
  | ⟨.send rp (c :: cs) a, r, m, o, tr⟩ =>
    match ReplyLine.build rp.1 (if cs.isEmpty then .yes else .no) c with
    | .error _ => ⟨.over (.panic .buildUnwrap), r, m, o, tr⟩
    | .ok l =>
      if l.byteLen < l.sendTo.length then ⟨.over (.panic .writeUnwrap), r, m, o, tr⟩
      else
        match E.write t with
        | .pending => ⟨.send rp (c :: cs) a, r, m, o, tr⟩
        | .ok => ⟨.send rp cs a, r, m, o ++ [l.sendTo], tr⟩
        | .err taken => ⟨.over .err, r, m, if taken then o ++ [l.sendTo] else o, tr ++ [.writeError]⟩
  | ⟨.newMail f, r, m, o, tr⟩ =>
    match E.newMail t with
    | .pending => ⟨.newMail f, r, m, o, tr⟩
    | .panicked => ⟨.unwound, r, m, o, tr⟩
    | .ready _ => ⟨.filterFrom f, r, m, o, tr ++ [.newMail]⟩
  | ⟨.filterFrom f, r, m, o, tr⟩ =>
    match E.filterFrom t with
    | .pending => ⟨.filterFrom f, r, m, o, tr⟩
    | .panicked => ⟨.unwound, r, m, o, tr⟩
    | .ready (.accept, f') => speak E t .mailOkay (.setMail (some ⟨f', []⟩)) ⟨.read [], r, m, o, tr ++ [.filterFrom f f' .accept]⟩
    | .ready (.reject e, f') => ⟨reply (e.code, e.msg) .next, r, m, o, tr ++ [.filterFrom f f' (.reject e)]⟩
  | ⟨.filterTo to mi, r, _, o, tr⟩ =>
    match E.filterTo t with
    | (m', .pending) => ⟨.filterTo to mi, r, some m', o, tr⟩
    | (m', .panicked) => ⟨.unwound, r, some m', o, tr⟩
    | (m', .ready (.accept, to')) =>
      speak E t .rcptOkay .next
        ⟨.read [], r, some { m' with to := m'.to ++ [to'] }, o, tr ++ [.filterTo to to' mi m' .accept]⟩
    | (m', .ready (.reject e, to')) => ⟨reply (e.code, e.msg) .next, r, some m', o, tr ++ [.filterTo to to' mi m' (.reject e)]⟩
  | ⟨.filterData mi, r, m, o, tr⟩ =>
    match E.filterData t with
    | .pending => ⟨.filterData mi, r, m, o, tr⟩
    | .panicked => ⟨.unwound, r, m, o, tr⟩
    | .ready (.accept, m') => speak E t .dataOkay (.handle m') ⟨.read [], r, m, o, tr ++ [.filterData mi m' .accept]⟩
    | .ready (.reject e, m') => ⟨reply (e.code, e.msg) (.setMail (some m')), r, m, o, tr ++ [.filterData mi m' (.reject e)]⟩
  -- `handle_mail` (interact.rs:130-139); `poll_next` begins at data/stream.rs:94-100
  | ⟨.handle h d, r, m, o, tr⟩ =>
    match E.handleMail t with
    | .pending => ⟨.handle h d, r, m, o, tr⟩
    | .panicked => ⟨.unwound, d.reader, m, o, tr⟩
    | .ready .poll =>
      if d.state = .finished then ⟨.handle (h ++ [.polled (.ready none)]) d, r, m, o, tr⟩ else ⟨.polling h d, r, m, o, tr⟩
    | .ready .complete =>
      match d.complete with
      | .error p => ⟨.over (.panic p), d.reader, m, o, tr⟩
      | .ok (ok, d) => ⟨.handle (h ++ [.completed ok]) d, r, m, o, tr⟩
    | .ready (.done dec) =>
      if d.state = .completed then
        match dec with
        | .accept => speak E t .mailAccepted .next ⟨.read [], d.reader, m, o, tr ++ [.handled .accept]⟩
        | .reject e => ⟨reply (e.code, e.msg) .next, d.reader, m, o, tr ++ [.handled (.reject e)]⟩
      else ⟨.over (.panic .notCompleted), d.reader, m, o, tr⟩
  -- one turn of the loop in `poll_next` (data/stream.rs:101-221)
  | ⟨.polling h d, r, m, o, tr⟩ =>
    match d.turn E.source with
    | (some a, d) => ⟨.handle (h ++ [.polled a]) d, r, m, o, tr⟩
    | (none, d) => ⟨.polling h d, r, m, o, tr⟩
  | ⟨.over e, r, m, o, tr⟩ => ⟨.over e, r, m, o, tr⟩
  | ⟨.unwound, r, m, o, tr⟩ => ⟨.unwound, r, m, o, tr⟩

/-- `interact` up to its first `.await` (interact.rs:29-49), in step number 0; `out` is what was written before. -/
def init (E : Environment L) (out : List Bytes) : State L :=
  speak E 0 .welcomeBanner .next ⟨.read [], ⟨0, none⟩, none, out, []⟩

/-- The future after `n` more steps, numbered from 1. -/
def after (E : Environment L) (out : List Bytes) : Nat → State L
  | 0 => init E out
  | n + 1 => step E (n + 1) (after E out n)

/-- Where the session reads next: while a message is being handled the reader is lent to its stream. -/
def State.input (x : State L) : Reader :=
  match x.pc with
  | .handle _ d => d.reader
  | .polling _ d => d.reader
  | _ => x.reader

end Verif.Env
