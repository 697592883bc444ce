import Verif.Model.Task
import Verif.Spec.Hooks
/-
`interact` once more as a state machine, as in Model/Task.lean, with a configuration whose synchronous methods, which word the
replies, may do more than that: they borrow the configuration as `&self`, and can still change it (a `Cell`, a counter, a lock,
a clock that is read, a log that is written), and they can panic. (In the other models they are functions of the configuration.)
-/
namespace Verif.Wording
open Spec (Hook)
variable {L : IpLib} {S U : Type}

/-- `trait Config<U>` (config.rs:14-130). `say` stands for the methods that word the replies (config.rs:57-129): the reply, or
`none` if the method panics, and the configuration it leaves behind, with everything the configuration can reach (what time it is,
for example). `callbacks` provides the asynchronous methods (config.rs:15-55); its replies are not used. -/
structure Wordy (L : IpLib) (S U : Type) where
  callbacks : Config L S U
  say : Hook → S → Option Reply × S

/-- The places at which the future can be suspended, those of Model/Task.lean, or a method that words a reply has panicked, and
the future with it. -/
inductive PC (L : IpLib) (S U : Type) where
  | at (p : Task.PC L S U)
  | unwound

/-- A state of the future, with everything it refers to. -/
abbrev State (L : IpLib) (S U : Type) := PC L S U × World L S U

/-- A state of Model/Task.lean. -/
def here (x : Task.State L S U) : State L S U := (.at x.1, x.2)

/-- `send_reply(writer, cfg.h())` up to its first `.await` (interact.rs:49, 90, 97, 114, 117, 130, 138, 158, 162, 167, 170;
sendreply.rs:18-29): the argument is evaluated first. -/
def speak (E : Wordy L S U) (h : Hook) (after : Task.After L) (w : World L S U) : State L S U :=
  match E.say h w.cfg with
  | (some r, s) => (.at (Task.reply r after), { w with cfg := s })
  | (none, s) => (.unwound, { w with cfg := s })

/-- `handle_line` up to its first `.await` (interact.rs:82-172). -/
def dispatch (E : Wordy L S U) (w : World L S U) (line : Bytes) : State L S U :=
  match (Command.parse line : Except ParseErr (Command L)) with
  | .ok (.mail from_ _) =>
    if w.mail.isSome then speak E .alreadyInMail .next w else (.at (.newMail from_), w)
  | .ok (.rcpt to _) =>
    match w.mail with
    | some m => (.at (.filterTo to m), w)
    | none => speak E .rcptBeforeMail .next w
  | .ok .data =>
    match w.mail with
    | some m =>
      if m.to.isEmpty then speak E .dataBeforeRcpt (.setMail (some m)) { w with mail := none }
      else (.at (.filterData m), { w with mail := none })
    | none => speak E .dataBeforeMail .next w
  | .ok _ => speak E .commandUnimplemented .next w
  | .error _ => speak E .commandUnrecognized .next w

/-- One answer of the awaited operation, and the code up to the next `.await`. Sending a reply that was worded, and `new_mail`,
are as in Model/Task.lean. -/
def step (E : Wordy L S U) : State L S U → State L S U
  | (.at (.read buf), w) =>
    match w.reader.pollNext with
    | (.pending, s) => (.at (.read buf), { w with reader := s })
    | (.ready (some pkt), s) =>
      match findCrlf (buf ++ pkt) with
      | some pos =>
        match s.prepend ((buf ++ pkt).drop (pos + 2)) with
        | some s' =>
          dispatch E { w with reader := s', trace := w.trace ++ [.line ((buf ++ pkt).take (pos + 2))] } ((buf ++ pkt).take (pos + 2))
        | none => (.at (.over (.panic .prependUnwrap)), w)
      | none => (.at (.read (buf ++ pkt)), { w with reader := s })
    | (.ready none, s) =>
      match s.prepend buf with
      | some s' => (.at (.over (.ok ())), { w with reader := s' })
      | none => (.at (.over (.panic .prependUnwrap)), w)
  | (.at (.send r left after), w) => here (Task.step E.callbacks (.send r left after, w))
  | (.at (.newMail f), w) => here (Task.step E.callbacks (.newMail f, w))
  | (.at (.filterFrom f), w) =>
    match E.callbacks.filterFrom w.cfg w.conn f with
    | (.accept, f', s, u) => speak E .mailOkay (.setMail (some ⟨f', []⟩))
        { w with cfg := s, conn := u, trace := w.trace ++ [.filterFrom f f' .accept] }
    | (.reject r, f', s, u) => (.at (Task.reply (r.code, r.msg) .next),
        { w with cfg := s, conn := u, trace := w.trace ++ [.filterFrom f f' (.reject r)] })
  | (.at (.filterTo t m), w) =>
    match E.callbacks.filterTo w.cfg w.conn t m with
    | (.accept, t', m', s, u) => speak E .rcptOkay .next
        { w with cfg := s, conn := u, mail := some { m' with to := m'.to ++ [t'] }, trace := w.trace ++ [.filterTo t t' m m' .accept] }
    | (.reject r, t', m', s, u) => (.at (Task.reply (r.code, r.msg) .next),
        { w with cfg := s, conn := u, mail := some m', trace := w.trace ++ [.filterTo t t' m m' (.reject r)] })
  | (.at (.filterData m), w) =>
    match E.callbacks.filterData w.cfg w.conn m with
    | (.accept, m', s, u) => speak E .dataOkay (.handle m')
        { w with cfg := s, conn := u, trace := w.trace ++ [.filterData m m' .accept] }
    | (.reject r, m', s, u) => (.at (Task.reply (r.code, r.msg) (.setMail (some m'))),
        { w with cfg := s, conn := u, trace := w.trace ++ [.filterData m m' (.reject r)] })
  | (.at (.handle act h d), w) =>
    match act h with
    | .poll => (.at (.handle act (h ++ [.polled d.pollNext.1]) d.pollNext.2), w)
    | .complete =>
      match d.complete with
      | .error p => (.at (.over (.panic p)), w)
      | .ok (ok, d') => (.at (.handle act (h ++ [.completed ok]) d'), w)
    | .done dec s u =>
      if d.wasCompleted then
        match dec with
        | .accept => speak E .mailAccepted .next
            { w with cfg := s, conn := u, reader := d.source, trace := w.trace ++ [.handled .accept] }
        | .reject r => (.at (Task.reply (r.code, r.msg) .next),
            { w with cfg := s, conn := u, reader := d.source, trace := w.trace ++ [.handled (.reject r)] })
      else (.at (.over (.panic .notCompleted)), w)
  | (.at (.over r), w) => (.at (.over r), w)
  | (.unwound, w) => (.unwound, w)

/-- `interact` up to its first `.await` (interact.rs:29-49). -/
def init (E : Wordy L S U) (incoming : List (SrcEv Bytes)) (outgoing : BSink) (s : S) (u : U) : State L S U :=
  speak E .welcomeBanner .next (Server.start incoming outgoing s u)

/-- The future returned by `interact` after `n` answers. -/
def after (E : Wordy L S U) (incoming : List (SrcEv Bytes)) (outgoing : BSink) (s : S) (u : U) : Nat → State L S U
  | 0 => init E incoming outgoing s u
  | n + 1 => step E (after E incoming outgoing s u n)

end Verif.Wording
