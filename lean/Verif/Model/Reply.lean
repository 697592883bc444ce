import Verif.Model.Streams
import Verif.Model.Nom
/-
Model of smtp-message/src/reply.rs, of SmtpString::byte_chunks and of smtp-server/src/sendreply.rs.
-/
namespace Verif

/-- `ReplyCode` (reply.rs:11-15). -/
structure ReplyCode where
  code : UInt16
deriving DecidableEq, Repr

/-- `IsLastLine` (reply.rs:57-61). -/
inductive IsLast where
  | yes
  | no
deriving DecidableEq, Repr

/-- `ReplyLine` (reply.rs:65-71). -/
structure ReplyLine where
  code : ReplyCode
  isLast : IsLast
  line : Bytes
deriving DecidableEq, Repr

/-- `BuildError` (builderror.rs:4-8); `ContainsNewLine` is never constructed. -/
inductive BuildErr where
  | disallowedByte (b : UInt8) (pos : Nat)
  | lineTooLong (length limit : Nat)
deriving DecidableEq, Repr

/-- `ReplyCode::custom` (reply.rs:46-49): `none` is the failed assertion. -/
def ReplyCode.custom (code : UInt16) : Option ReplyCode :=
  if code < 1000 then some ⟨code⟩ else none

namespace ReplyLine

/-- `ReplyLine::MAX_LEN` (reply.rs:75) -/
def maxLen : Nat := 506

/-- The byte test of `build` (reply.rs:90): TAB or 32..126. -/
def allowed (x : UInt8) : Bool := x == 9 || (32 ≤ x && x ≤ 126)

/-- `ReplyLine::build` (reply.rs:77-103). `line.byte(p)` cannot be out of range at the position that
`iter_bytes().position` returned; the model reads it with default 0. -/
def build (code : ReplyCode) (isLast : IsLast) (line : Bytes) : Except BuildErr ReplyLine :=
  if line.length > maxLen then .error (.lineTooLong line.length maxLen)
  else
    match line.findIdx? (fun x => !allowed x) with
    | some p => .error (.disallowedByte (line.getD p 0) p)
    | none => .ok ⟨code, isLast, line⟩

/-- `ReplyLine::byte_len` (reply.rs:110-112) -/
def byteLen (r : ReplyLine) : Nat := 6 + r.line.length

/-- What `ReplyLine::send_to` writes (reply.rs:114-129). `as u8` keeps the low byte; the quotients are
below 10, so it loses nothing. -/
def sendTo (r : ReplyLine) : Bytes :=
  [((r.code.code % 1000) / 100).toUInt8 + 48, ((r.code.code % 100) / 10).toUInt8 + 48,
    (r.code.code % 10).toUInt8 + 48] ++
  (if r.isLast = .yes then b!" " else b!"-") ++ r.line ++ b!"\r\n"

/-- An optional leading `+` is skipped by `u16::from_str`. -/
def stripPlus (s : Bytes) : Bytes := if s.head? = some 43 then s.tail else s

/-- `u16::from_str` on the bytes of a `&str` (reply.rs:138): an optional leading `+`, then at least one
digit and only digits; `none` also on overflow. -/
def u16FromStr (s : Bytes) : Option UInt16 :=
  let d := stripPlus s
  if d = [] ∨ ¬ d.all (fun c => 48 ≤ c && c ≤ 57) then none
  else
    let v : Nat := d.foldl (fun n c => n * 10 + (c.toNat - 48)) 0
    if v < 65536 then some v.toUInt16 else none

/-- The parser `reply` (reply.rs:132-149). `into_utf8` followed by `u16::from_str` is one function here:
an invalid UTF-8 string holds a byte above 127, which `u16FromStr` refuses too, and both failures are the
same `Error`. `ReplyCode::custom` is reached only with a code below 1000, so its assertion is not modelled
at this place. -/
def parser : Nom.Parser ReplyLine := do
  let code ← Nom.mapP (Nom.verify (Nom.mapRes (Nom.take 3) u16FromStr) (fun x => x < 1000)) ReplyCode.mk
  let isLast ← Nom.mapP (Nom.alt (Nom.tag b!"-") (Nom.tag b!" "))
    (fun b => if b.length = 1 ∧ b.head? = some 32 then IsLast.yes else IsLast.no)
  let line ← Nom.takeUntilAndConsume b!"\r\n"
  return ⟨code, isLast, line⟩

/-- `ReplyLine::parse` (reply.rs:106-108) -/
def parse (arg : Bytes) : Except ParseErr ReplyLine := nomToResult (parser arg)

end ReplyLine

/-- `SmtpString::byte_chunks` (smtpstring.rs:63-67): `none` is the division by zero (in a release build
`byte_len() + 0 - 1` may wrap first; the division panics all the same). -/
def byteChunks (s : Bytes) (n : Nat) : Option (List Bytes) :=
  if n = 0 then none
  else some ((List.range ((s.length + n - 1) / n)).map fun i =>
    (s.take (min s.length ((i + 1) * n))).drop (i * n))

/-- `itertools::with_position` followed by the match of sendreply.rs:22-28: every chunk but the last is a
`First` or `Middle` (continued line), the last one a `Last` or `Only` (final line). `none` is the panic of
`build(..).unwrap()`. -/
def replyLines (code : ReplyCode) : List Bytes → Option (List ReplyLine)
  | [] => some []
  | [t] => (ReplyLine.build code .yes t).toOption.map fun l => [l]
  | t :: ts =>
    match (ReplyLine.build code .no t).toOption with
    | none => none
    | some l => (replyLines code ts).map (l :: ·)

/-- The lines `send_reply` hands to the writer (sendreply.rs:12-31); `none` is a panic. `send_all` takes
the lines lazily one by one, so a panic may come after some lines were written; the server model
(Model/Server.lean) keeps that order. -/
def sendReply (code : ReplyCode) (text : Bytes) : Option (List ReplyLine) :=
  (byteChunks text ReplyLine.maxLen).bind (replyLines code)

end Verif
