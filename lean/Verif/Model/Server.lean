import Verif.Model.Data
import Verif.Model.Reply
import Verif.Model.Command
/-
Model of smtp-server: metadata.rs, decision.rs, config.rs, sendreply.rs and interact.rs.

An execution is a function of everything the environment does: the packets and not-ready polls of the
incoming stream, the results of the operations of the outgoing sink, and the user's configuration. Two
things may go on for ever, a mail handler that keeps polling and the loop over the input; both are cut
after `fuel` rounds, with the result `running`. So "for every `fuel`" means "at every point of the
execution".

Not modelled: wakers and scheduling inside one session (a session is one task: what another task does
between two polls is not visible to it except through the answers of its environment); callbacks that panic
or never return (mail handlers that never return *are* modelled); interior mutability behind the `&self` of
the reply methods.
-/
namespace Verif

/-- `MailMetadata` (metadata.rs:4-7). -/
structure MailMeta (L : IpLib) where
  from_ : Option (Email L)
  to : List (Email L)

/-- `Refusal` (decision.rs:4-7). -/
structure Refusal where
  code : ReplyCode
  msg : Bytes
  deriving DecidableEq, Repr

/-- `Decision` (decision.rs:10-14). -/
inductive Decision where
  | accept
  | reject (r : Refusal)
  deriving DecidableEq, Repr

/-- A reply as the methods of `Config` give it: `(ReplyCode, SmtpString)`. -/
abbrev Reply := ReplyCode × Bytes

/-- What a mail handler learns from one operation on its `DataStream`: the result of `poll_next`, or of
`complete()` (`true` is `Ok`). -/
inductive HObs where
  | polled (r : Poll (Option Bytes))
  | completed (ok : Bool)
  deriving DecidableEq, Repr

/-- What a mail handler does next: poll the stream, call `complete()`, or return a decision, having changed
the configuration's state and the connection's user data. -/
inductive HAct (S U : Type) where
  | poll
  | complete
  | done (d : Decision) (s : S) (u : U)

/-- `trait Config<U>` (config.rs:14-130). `S` is the type of the implementing object, `U` the user's
connection data (`ConnectionMetadata::user`). `&mut` arguments are returned with their new value. A mail
handler is any function from the history of its observations to its next action; `was_completed()`, the only
other public method of `DataStream`, is a function of that history. -/
structure Config (L : IpLib) (S U : Type) where
  newMail : S → S
  filterFrom : S → U → Option (Email L) → Decision × Option (Email L) × S × U
  filterTo : S → U → Email L → MailMeta L → Decision × Email L × MailMeta L × S × U
  filterData : S → U → MailMeta L → Decision × MailMeta L × S × U
  handleMail : S → U → MailMeta L → List HObs → HAct S U
  welcomeBanner : S → Reply
  mailOkay : S → Reply
  rcptOkay : S → Reply
  dataOkay : S → Reply
  mailAccepted : S → Reply
  alreadyInMail : S → Reply
  rcptBeforeMail : S → Reply
  dataBeforeRcpt : S → Reply
  dataBeforeMail : S → Reply
  commandUnimplemented : S → Reply
  commandUnrecognized : S → Reply

/-- The codes of reply.rs:18-43 used by the default replies. -/
def ReplyCode.serviceReady : ReplyCode := ⟨220⟩
def ReplyCode.okay : ReplyCode := ⟨250⟩
def ReplyCode.startMailInput : ReplyCode := ⟨354⟩
def ReplyCode.commandUnrecognized : ReplyCode := ⟨500⟩
def ReplyCode.commandUnimplemented : ReplyCode := ⟨502⟩
def ReplyCode.badSequence : ReplyCode := ⟨503⟩

/-- The required methods of `Config` (config.rs:19-29, 42-55). -/
structure Required (L : IpLib) (S U : Type) where
  filterFrom : S → U → Option (Email L) → Decision × Option (Email L) × S × U
  filterTo : S → U → Email L → MailMeta L → Decision × Email L × MailMeta L × S × U
  handleMail : S → U → MailMeta L → List HObs → HAct S U
  hostname : S → Bytes

/-- A configuration that overrides none of the provided methods (config.rs:15-17, 31-40, 57-129). -/
def Required.toConfig {L : IpLib} {S U : Type} (R : Required L S U) : Config L S U where
  newMail s := s
  filterFrom := R.filterFrom
  filterTo := R.filterTo
  filterData s u m := (.accept, m, s, u)
  handleMail := R.handleMail
  welcomeBanner s := (.serviceReady, R.hostname s ++ b!" " ++ b!"Service ready")
  mailOkay _ := (.okay, b!"Okay")
  rcptOkay _ := (.okay, b!"Okay")
  dataOkay _ := (.startMailInput, b!"Start mail input; end with <CRLF>.<CRLF>")
  mailAccepted _ := (.okay, b!"Okay")
  alreadyInMail _ := (.badSequence, b!"Bad sequence of commands")
  rcptBeforeMail _ := (.badSequence, b!"Bad sequence of commands")
  dataBeforeRcpt _ := (.badSequence, b!"Bad sequence of commands")
  dataBeforeMail _ := (.badSequence, b!"Bad sequence of commands")
  commandUnimplemented _ := (.commandUnimplemented, b!"Command not implemented")
  commandUnrecognized _ := (.commandUnrecognized, b!"Command not recognized")

/-- The observable events of a session (ghost: the code keeps no such record). Callbacks are recorded with
their arguments, the new value of their `&mut` arguments and their decision. -/
inductive Ev (L : IpLib) where
  /-- `next_crlf_line` returned a line, which is now treated -/
  | line (l : Bytes)
  | newMail
  | filterFrom (arg res : Option (Email L)) (d : Decision)
  | filterTo (arg res : Email L) (metaIn metaOut : MailMeta L) (d : Decision)
  | filterData (metaIn metaOut : MailMeta L) (d : Decision)
  /-- `handle_mail` was called -/
  | handleMail (m : MailMeta L)
  /-- `handle_mail` returned, and the assertion after it held -/
  | handled (d : Decision)
  /-- `send_reply` succeeded -/
  | reply (r : Reply)
  /-- the outgoing sink reported an error -/
  | writeError

/-- Everything `handle_line` has a mutable reference to (interact.rs:70-77), and the ghost record. -/
structure World (L : IpLib) (S U : Type) where
  reader : Prep Bytes
  writer : BSink
  cfg : S
  conn : U
  mail : Option (MailMeta L)
  trace : List (Ev L)

/-- How a piece of a session ends: normally, with the `?` of a write error, by a panic, or not yet. -/
inductive Res (α : Type) where
  | ok (a : α)
  | err
  | panic (p : Panic)
  | running
  deriving DecidableEq, Repr

/-- Session programs. -/
def SM (W α : Type) := W → Res α × W

namespace SM
variable {W α β : Type}

def pure (a : α) : SM W α := fun w => (.ok a, w)

def bind (m : SM W α) (f : α → SM W β) : SM W β := fun w =>
  match m w with
  | (.ok a, w') => f a w'
  | (.err, w') => (.err, w')
  | (.panic p, w') => (.panic p, w')
  | (.running, w') => (.running, w')

instance : Monad (SM W) where
  pure := pure
  bind := bind

/-- The current state. -/
def get : SM W W := fun w => (.ok w, w)
/-- Changes the state. -/
def modify (f : W → W) : SM W Unit := fun w => (.ok (), f w)
/-- `return Err(..)` -/
def throw : SM W α := fun w => (.err, w)
def panic (p : Panic) : SM W α := fun w => (.panic p, w)
def running : SM W α := fun w => (.running, w)

end SM

namespace Server
variable {L : IpLib} {S U : Type}

abbrev M (L : IpLib) (S U : Type) := SM (World L S U)

/-- Records an event. -/
def emit (e : Ev L) : M L S U Unit := SM.modify fun w => { w with trace := w.trace ++ [e] }

/-! ### sendreply.rs -/

/-- The closure of `outgoing.with(..)` (interact.rs:31-43) and the send of its result: the line is written
to a `BytesMut` of capacity `byte_len()`, whose writer fails when it is full. -/
def writeLine (l : ReplyLine) : M L S U Unit := fun w =>
  if l.byteLen < l.sendTo.length then (.panic .writeUnwrap, w)
  else
    let (ok, s) := w.writer.send l.sendTo
    if ok then (.ok (), { w with writer := s })
    else (.err, { w with writer := s, trace := w.trace ++ [.writeError] })

/-- The flush at the end of `send_all`: it may fail like a send, but hands nothing over. -/
def flush : M L S U Unit := fun w =>
  match w.writer.plan with
  | [] => (.ok (), w)
  | .ok :: p => (.ok (), { w with writer := { w.writer with plan := p } })
  | _ :: p => (.err, { w with writer := { w.writer with plan := p }, trace := w.trace ++ [.writeError] })

/-- `writer.send_all(&mut reply_stream)` (sendreply.rs:18-31) over the chunks of the text: each line is
built (or panics) only after the lines before it were given to the writer. Simplification: a line counts as
written once `send_all` has handed it to the `With` adaptor; when a later line panics, the last one may in
reality still be in that adaptor. (C112 relates this to the adaptor and the future `SendAll` themselves, Model/SinkPoll.lean.) -/
def sendChunks (code : ReplyCode) : List Bytes → M L S U Unit
  | [] => flush
  | t :: ts => do
    match ReplyLine.build code (if ts.isEmpty then .yes else .no) t with
    | .error _ => SM.panic .buildUnwrap
    | .ok l =>
      writeLine l
      sendChunks code ts

/-- `send_reply` (sendreply.rs:11-34). -/
def sendReply (r : Reply) : M L S U Unit := do
  match byteChunks r.2 ReplyLine.maxLen with
  | none => SM.panic .divZero
  | some chunks =>
    sendChunks r.1 chunks
    emit (.reply r)

/-! ### interact.rs -/

/-- `next_crlf_line(&mut reader).await` (interact.rs:53). -/
def nextLine : M L S U (Option Bytes) := fun w =>
  match nextCrlfLine w.reader with
  | .error p => (.panic p, w)
  | .ok (l, r) => (.ok l, { w with reader := r })

/-- How a mail handler's execution ends. -/
inductive HRes (S U : Type) where
  | returned (d : Decision) (s : S) (u : U) (stream : DStream)
  | panicked (p : Panic)
  | running

/-- The execution of a mail handler on its stream, up to `n` operations. -/
def runHandler (act : List HObs → HAct S U) : Nat → List HObs → DStream → HRes S U
  | 0, _, _ => .running
  | n + 1, h, d =>
    match act h with
    | .done dec s u => .returned dec s u d
    | .poll => runHandler act n (h ++ [.polled d.pollNext.1]) d.pollNext.2
    | .complete =>
      match d.complete with
      | .error p => .panicked p
      | .ok (ok, d') => runHandler act n (h ++ [.completed ok]) d'

variable (C : Config L S U)

/-- `cfg.new_mail().await` (interact.rs:93). -/
def callNewMail : M L S U Unit := do
  SM.modify fun w => { w with cfg := C.newMail w.cfg }
  emit .newMail

/-- `cfg.filter_from(&mut from, conn_meta).await` (interact.rs:94): the decision and the new `from`. -/
def callFilterFrom (from_ : Option (Email L)) : M L S U (Decision × Option (Email L)) := do
  let w ← SM.get
  let (d, from', s, u) := C.filterFrom w.cfg w.conn from_
  SM.modify fun w => { w with cfg := s, conn := u }
  emit (.filterFrom from_ from' d)
  return (d, from')

/-- `cfg.filter_to(&mut to, mail_meta_unw, conn_meta).await` (interact.rs:111), `mail_meta_unw` being a
reference into `mail_meta`: the decision, the new `to` and the new envelope. -/
def callFilterTo (to : Email L) (m : MailMeta L) : M L S U (Decision × Email L × MailMeta L) := do
  let w ← SM.get
  let (d, to', m', s, u) := C.filterTo w.cfg w.conn to m
  SM.modify fun w => { w with cfg := s, conn := u, mail := some m' }
  emit (.filterTo to to' m m' d)
  return (d, to', m')

/-- `cfg.filter_data(&mut mail_meta_unw, conn_meta).await` (interact.rs:127). -/
def callFilterData (m : MailMeta L) : M L S U (Decision × MailMeta L) := do
  let w ← SM.get
  let (d, m', s, u) := C.filterData w.cfg w.conn m
  SM.modify fun w => { w with cfg := s, conn := u }
  emit (.filterData m m' d)
  return (d, m')

/-- `DataStream::new(reader)`, `cfg.handle_mail(..).await` and `assert!(data_stream.was_completed())`
(interact.rs:130-135). -/
def callHandleMail (fuel : Nat) (m : MailMeta L) : M L S U Decision := do
  emit (.handleMail m)
  let w ← SM.get
  match runHandler (C.handleMail w.cfg w.conn m) fuel [] (DStream.new w.reader) with
  | .running => SM.running
  | .panicked p => SM.panic p
  | .returned d s u stream =>
    if stream.wasCompleted then
      SM.modify fun w => { w with cfg := s, conn := u, reader := stream.source }
      emit (.handled d)
      return d
    else SM.panic .notCompleted

/-- `*mail_meta = m` -/
def setMail (m : Option (MailMeta L)) : M L S U Unit := SM.modify fun w => { w with mail := m }

/-- Sends the reply a method of the configuration gives in its current state:
`send_reply(writer, cfg.xxx()).await?` -/
def sendCfg (f : S → Reply) : M L S U Unit := do
  let w ← SM.get
  sendReply (f w.cfg)

/-- The arm for MAIL (interact.rs:84-106). -/
def handleMailCmd (from_ : Option (Email L)) : M L S U Unit := do
  if (← SM.get).mail.isSome then
    sendCfg C.alreadyInMail
  else
    callNewMail C
    match ← callFilterFrom C from_ with
    | (.accept, from') =>
      sendCfg C.mailOkay
      setMail (some { from_ := from', to := [] })
    | (.reject r, _) => sendReply (r.code, r.msg)

/-- The arm for RCPT (interact.rs:107-123). -/
def handleRcptCmd (to : Email L) : M L S U Unit := do
  match (← SM.get).mail with
  | some m =>
    match ← callFilterTo C to m with
    | (.accept, to', m') =>
      setMail (some { m' with to := m'.to ++ [to'] })
      sendCfg C.rcptOkay
    | (.reject r, _, _) => sendReply (r.code, r.msg)
  | none => sendCfg C.rcptBeforeMail

/-- The arm for DATA (interact.rs:124-164). -/
def handleDataCmd (fuel : Nat) : M L S U Unit := do
  match (← SM.get).mail with
  | some m =>
    setMail none
    if m.to.isEmpty then
      sendCfg C.dataBeforeRcpt
      setMail (some m)
    else
      match ← callFilterData C m with
      | (.accept, m') =>
        sendCfg C.dataOkay
        match ← callHandleMail C fuel m' with
        | .accept => sendCfg C.mailAccepted
        | .reject r => sendReply (r.code, r.msg)
      | (.reject r, m') =>
        sendReply (r.code, r.msg)
        setMail (some m')
  | none => sendCfg C.dataBeforeMail

/-- `handle_line` (interact.rs:70-174). -/
def handleLine (fuel : Nat) (line : Bytes) : M L S U Unit := do
  match (Command.parse line : Except ParseErr (Command L)) with
  | .ok (.mail from_ _) => handleMailCmd C from_
  | .ok (.rcpt to _) => handleRcptCmd C to
  | .ok .data => handleDataCmd C fuel
  | .ok _ => sendCfg C.commandUnimplemented
  | .error _ => sendCfg C.commandUnrecognized

/-- The loop of `interact` (interact.rs:53-63), up to `n` rounds. -/
def loop (fuel : Nat) : Nat → M L S U Unit
  | 0 => SM.running
  | n + 1 => do
    match ← nextLine with
    | none => return ()
    | some l =>
      emit (.line l)
      handleLine C fuel l
      loop fuel n

/-- The body of `interact` (interact.rs:49-66). -/
def session (fuel : Nat) : M L S U Unit := do
  sendCfg C.welcomeBanner
  loop C fuel fuel

/-- The initial state of `interact` (interact.rs:29-47). -/
def start (incoming : List (SrcEv Bytes)) (outgoing : BSink) (cfg : S) (user : U) : World L S U :=
  { reader := Prep.new incoming, writer := outgoing, cfg := cfg, conn := user, mail := none, trace := [] }

/-- `interact` (interact.rs:19-67). -/
def interact (fuel : Nat) (incoming : List (SrcEv Bytes)) (outgoing : BSink) (cfg : S) (user : U) :
    Res Unit × World L S U :=
  session C fuel (start incoming outgoing cfg user)

end Server
end Verif
