import Verif.Model.Command
import Verif.Model.Reply
/-
The writing side of smtp-message at the level of `std::io::Write`: every `send_to` as the sequence of `write_all` calls it
makes, on a writer that may take only part of what it is given, be interrupted, or fail. The `sendTo` functions of
Model/Command.lean and Model/Reply.lean are the bytes of the whole sequence.
-/
namespace Verif

/-- The answer of one call `w.write(buf)`: `Ok(n)`, an error of kind `Interrupted`, another error. -/
inductive WAns where
  | wrote (n : Nat)
  | interrupted
  | failed
  deriving DecidableEq, Repr

/-- A `std::io::Write`, as a machine with states `σ`. `le` is the contract of `write`: it takes at most what it is given. -/
structure IoWriter (σ : Type) where
  write : σ → Bytes → WAns × σ
  le : ∀ s b n s', write s b = (.wrote n, s') → n ≤ b.length

/-- A writer in some state, and (ghost) what it has taken so far. -/
structure WState (σ : Type) where
  st : σ
  out : Bytes

/-- How a call ends: `Ok(())`, `Err(..)`, or not within the given number of steps. -/
inductive WRes where
  | ok
  | err
  | running
  deriving DecidableEq, Repr

section
variable {σ : Type} (W : IoWriter σ)

/-- One call of `write`, recording what was taken. -/
def writeOnce (w : WState σ) (buf : Bytes) : WAns × WState σ :=
  match W.write w.st buf with
  | (.wrote n, s) => (.wrote n, ⟨s, w.out ++ buf.take n⟩)
  | (a, s) => (a, ⟨s, w.out⟩)

/-- `Write::write_all` (std::io, the provided method), up to a number of calls of `write`: `Ok(0)` is the error `WriteZero`,
`Interrupted` is tried again. -/
def writeAll : Nat → WState σ → Bytes → WRes × WState σ
  | _, w, [] => (.ok, w)
  | 0, w, _ => (.running, w)
  | fuel + 1, w, buf =>
    match writeOnce W w buf with
    | (.wrote 0, w') => (.err, w')
    | (.wrote n, w') => writeAll fuel w' (buf.drop n)
    | (.interrupted, w') => writeAll fuel w' buf
    | (.failed, w') => (.err, w')

/-- `w.write_all(p1)?; w.write_all(p2)?; ..; Ok(())` -/
def writePieces (fuel : Nat) (w : WState σ) : List Bytes → WRes × WState σ
  | [] => (.ok, w)
  | p :: ps =>
    match writeAll W fuel w p with
    | (.ok, w') => writePieces fuel w' ps
    | r => r

end

section
variable {L : IpLib}

/-- How the formatting machinery cuts the text of an address into `write_str` calls is not specified. -/
structure Cutter where
  cut : Bytes → List Bytes
  flatten : ∀ b, (cut b).flatten = b

variable (F : Cutter)

/-- The calls of `<Domain as Sendable>::send_to` (domain.rs:32-41). -/
def Domain.pieces : Domain L → List Bytes
  | .host s => [s]
  | .v4 a => [b!"["] ++ F.cut (L.show4 a) ++ [b!"]"]
  | .v6 a => [b!"[IPv6:"] ++ F.cut (L.show6 a) ++ [b!"]"]

/-- The calls of `<Email as Sendable>::send_to` (email.rs:84-94). -/
def Email.pieces (e : Email L) : List Bytes :=
  [e.localpart] ++ (match e.hostname with | some h => [b!"@"] ++ h.pieces F | none => [])

/-- The calls of `<Option<Email> as Sendable>::send_to` (email.rs:96-104). -/
def optEmailPieces : Option (Email L) → List Bytes
  | some e => e.pieces F
  | none => []

/-- The calls of `<Parameters as Sendable>::send_to` (parameters.rs:17-29). -/
def Params.pieces (m : Params) : List Bytes :=
  m.flatMap fun e => [b!" ", e.1] ++ (match e.2 with | some v => [b!"=", v] | none => [])

/-- The calls of `Command::send_to` (command.rs:46-60 and the `send_to` of the eleven command modules, cited at
`Command.sendTo`). -/
def Command.pieces : Command L → List Bytes
  | .data => [b!"DATA\r\n"]
  | .ehlo d => [b!"EHLO "] ++ d.pieces F ++ [b!"\r\n"]
  | .expn n => [b!"EXPN ", n, b!"\r\n"]
  | .helo d => [b!"HELO "] ++ d.pieces F ++ [b!"\r\n"]
  | .help s => [b!"HELP ", s, b!"\r\n"]
  | .mail f p => [b!"MAIL FROM:<"] ++ optEmailPieces F f ++ [b!">"] ++ p.pieces ++ [b!"\r\n"]
  | .noop s => [b!"NOOP ", s, b!"\r\n"]
  | .quit => [b!"QUIT\r\n"]
  | .rcpt t p => [b!"RCPT TO:<"] ++ t.pieces F ++ [b!">"] ++ p.pieces ++ [b!"\r\n"]
  | .rset => [b!"RSET\r\n"]
  | .vrfy n => [b!"VRFY ", n, b!"\r\n"]

/-- The calls of `ReplyLine::send_to` (reply.rs:114-129). -/
def ReplyLine.pieces (r : ReplyLine) : List Bytes :=
  [[((r.code.code % 1000) / 100).toUInt8 + 48, ((r.code.code % 100) / 10).toUInt8 + 48,
      (r.code.code % 10).toUInt8 + 48],
    if r.isLast = .yes then b!" " else b!"-", r.line, b!"\r\n"]

end

/-- `Vec<u8>` as a writer (std): takes everything. The state is its contents. -/
def vecWriter : IoWriter Bytes where
  write s b := (.wrote b.length, s ++ b)
  le := by intro s b n s' h; simp at h; omega

/-- `SmtpString::from_sendable` (smtpstring.rs:41-45): `none` is the error of `send_to`, or no end. -/
def fromSendable (fuel : Nat) (pieces : List Bytes) : Option Bytes :=
  match writePieces vecWriter fuel ⟨[], []⟩ pieces with
  | (.ok, w) => some w.st
  | _ => none

/-- `BytesMut::with_capacity(cap).writer()` (bytes 0.4, as used in interact.rs:34): `write` takes
`min(buf.remaining_mut(), src.len())` bytes and never grows the buffer. The state is the contents. -/
def capWriter (cap : Nat) : IoWriter Bytes where
  write s b := (.wrote (min (cap - s.length) b.length), s ++ b.take (cap - s.length))
  le := by intro s b n s' h; simp at h; omega

end Verif
