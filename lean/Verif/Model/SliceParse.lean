import Verif.Model.ByteSlice
import Verif.Model.Command
import Verif.Model.Reply
/-
The parsers of smtp-message once more, as they really run: on `ByteSlice`s, with every operation that can panic
(`slice`, `promote`, `demote`, indexing, the assertion of `ReplyCode::custom`). `none` is a panic or a loop that
never ends. Model/Command.lean and Model/Reply.lean are the same parsers on plain bytes.
-/
namespace Verif.SliceParse
open ByteSlice

/-- A nom parser on slices. -/
def BP (α : Type) := ByteSlice → Option (BRes α)

variable {α β : Type}

/-- `do_parse!`: one step. -/
def BP.bind (p : BP α) (f : α → BP β) : BP β := fun s =>
  (p s).bind fun
    | .done r a => f a r
    | .error => some .error
    | .incomplete => some .incomplete

/-- The value at the end of `do_parse!`. -/
def BP.pure (a : α) : BP α := fun s => some (.done s a)

instance : Monad BP where
  pure := BP.pure
  bind := BP.bind

/-- An expression of an action that may panic. -/
def eval (x : Option α) : BP α := fun s => x.map fun a => .done s a

/-- `tag!` -/
def tag (t : Bytes) : BP ByteSlice := ByteSlice.tagBy (· == ·) t

/-- `tag_no_case!` -/
def tagNoCase (t : Bytes) : BP ByteSlice := ByteSlice.tagBy (fun a b => Nom.lower a == Nom.lower b) t

/-- `nom::crlf` -/
def crlfP : BP ByteSlice := tag b!"\r\n"

/-- `one_of!` -/
def oneOf (set : Bytes) : BP UInt8 := ByteSlice.oneOf set

/-- `is_a!` -/
def isA (set : Bytes) : BP ByteSlice := ByteSlice.isA set

/-- `take!` -/
def take (n : Nat) : BP ByteSlice := ByteSlice.take n

/-- `take_until!` -/
def takeUntil (t : Bytes) : BP ByteSlice := ByteSlice.takeUntil t

/-- `take_until_and_consume!` -/
def takeUntilAndConsume (t : Bytes) : BP ByteSlice := ByteSlice.takeUntilAndConsume t

/-- `recognize!` -/
def recognize (p : BP α) : BP ByteSlice := ByteSlice.recognize p

/-- `map!` with a function that may panic. -/
def mapP (p : BP α) (f : α → Option β) : BP β := p.bind fun a => eval (f a)

/-- `map_res!`: the function may panic, or return `Err` (here `some none`). -/
def mapRes (p : BP α) (f : α → Option (Option β)) : BP β := p.bind fun a => fun s =>
  (f a).bind fun
    | some b => some (.done s b)
    | none => some .error

/-- `verify!` with a test that may panic. -/
def verify (p : BP α) (f : α → Option Bool) : BP α := p.bind fun a => fun s =>
  (f a).bind fun ok => if ok then some (.done s a) else some .error

/-- `opt!`: on `Error` the input is unchanged. -/
def opt (p : BP α) : BP (Option α) := fun s =>
  (p s).bind fun
    | .done r a => some (.done r (some a))
    | .error => some (.done s none)
    | .incomplete => some .incomplete

/-- `complete!` -/
def complete (p : BP α) : BP α := fun s =>
  (p s).bind fun
    | .incomplete => some .error
    | x => some x

/-- One `|` of `alt!`. -/
def alt (p q : BP α) : BP α := fun s =>
  (p s).bind fun
    | .error => q s
    | x => some x

/-- `preceded!` -/
def preceded (p : BP α) (q : BP β) : BP β := p.bind fun _ => q

/-- `many0!`: the loop compares the rest with the input of the turn by `==` of `ByteSlice`
(byteslice.rs:54-59). -/
def many0 (p : BP α) (s : ByteSlice) : Option (BRes (List α)) := do
  let l ← s.len
  if l = 0 then some (.done s [])
  else
    let x ← p s
    match x with
    | .error => some (.done s [])
    | .incomplete => some .incomplete
    | .done r a =>
      if r.beq s then some .error
      else
        let y ← many0 p r
        match y with
        | .done r' as => some (.done r' (a :: as))
        | .error => some .error
        | .incomplete => some .incomplete
partial_fixpoint

/-- The loop of the `separated_*list!` macros after the first element; here nom compares `input_len()`s. -/
def sepLoop (sep : BP β) (p : BP α) (s : ByteSlice) : Option (BRes (List α)) := do
  let x ← sep s
  match x with
  | .error => some (.done s [])
  | .incomplete => some .incomplete
  | .done s2 _ =>
    let l ← s.len
    let l2 ← s2.len
    if l2 = l then some (.done s [])
    else
      let y ← p s2
      match y with
      | .error => some (.done s [])
      | .incomplete => some .incomplete
      | .done s3 a =>
        let l3 ← s3.len
        if l3 = l2 then some (.done s [])
        else
          let z ← sepLoop sep p s3
          match z with
          | .done r as => some (.done r (a :: as))
          | .error => some .error
          | .incomplete => some .incomplete
partial_fixpoint

/-- The first element of a list and the loop. -/
def sepRest (sep : BP β) (p : BP α) (s r : ByteSlice) (a : α) : Option (BRes (List α)) :=
  s.len.bind fun l => r.len.bind fun l' =>
    if l' = l then some .error
    else (sepLoop sep p r).bind fun
      | .done r' as => some (.done r' (a :: as))
      | .error => some .error
      | .incomplete => some .incomplete

/-- `separated_nonempty_list!` -/
def separatedNonemptyList (sep : BP β) (p : BP α) : BP (List α) := fun s =>
  (p s).bind fun
    | .error => some .error
    | .incomplete => some .incomplete
    | .done r a => sepRest sep p s r a

/-- `separated_nonempty_list_complete!` -/
def separatedNonemptyListComplete (sep : BP β) (p : BP α) : BP (List α) :=
  separatedNonemptyList (complete sep) (complete p)

/-- `separated_list!` -/
def separatedList (sep : BP β) (p : BP α) : BP (List α) := fun s =>
  (p s).bind fun
    | .error => some (.done s [])
    | .incomplete => some .incomplete
    | .done r a => sepRest sep p s r a

/-- `nom_to_result` (parseresult.rs:13-25): `rem.len()` subtracts. -/
def nomToResult : Option (BRes α) → Option (Except ParseErr α)
  | none => none
  | some (.done rem res) => rem.len.map fun n => if n = 0 then .ok res else .error (.didNotConsumeEverything n)
  | some .error => some (.error .parseError)
  | some .incomplete => some (.error .incompleteString)

/-- `ByteSlice::promote` (byteslice.rs:31-33): `Bytes::slice` panics outside of the buffer. -/
def promote (s : ByteSlice) : Option Bytes := s.demote

/-- `x[0]` (byteslice.rs:44-50 and slice indexing). -/
def index0 (s : ByteSlice) : Option UInt8 := s.demote.bind (·.head?)

/-! ### UTF-8 -/

/-- A continuation byte. -/
def cont (b : UInt8) : Bool := 128 ≤ b && b ≤ 191

/-- What `str::from_utf8` accepts: well-formed UTF-8 (RFC 3629, section 4). -/
def utf8 : Bytes → Bool
  | [] => true
  | a :: r =>
    if a < 128 then utf8 r
    else match r with
      | b :: r1 =>
        if 194 ≤ a && a ≤ 223 && cont b then utf8 r1
        else match r1 with
          | c :: r2 =>
            if cont c && ((a == 224 && 160 ≤ b && b ≤ 191) || (225 ≤ a && a ≤ 236 && cont b) ||
                (a == 237 && 128 ≤ b && b ≤ 159) || (238 ≤ a && a ≤ 239 && cont b)) then utf8 r2
            else match r2 with
              | d :: r3 =>
                if cont c && cont d && ((a == 240 && 144 ≤ b && b ≤ 191) || (241 ≤ a && a ≤ 243 && cont b) ||
                    (a == 244 && 128 ≤ b && b ≤ 143)) then utf8 r3
                else false
              | [] => false
          | [] => false
      | [] => false

/-- `ByteSlice::into_utf8` (byteslice.rs:39-41): `none` a panic, `some none` the `Utf8Error`. -/
def intoUtf8 (s : ByteSlice) : Option (Option Bytes) := s.demote.map fun b => if utf8 b then some b else none

/-! ### domain.rs, email.rs, parameters.rs -/

variable {L : IpLib}

/-- domain.rs:47-48 -/
def labelP : BP (Option ByteSlice) := preceded (oneOf alnumC) (opt (isA alnumdashC))

/-- `map_res!(map_res!(.., ByteSlice::into_utf8), |x| ..from_str(x)..)` (domain.rs:50-58) -/
def literalP (p : BP ByteSlice) (parse : Bytes → Option (Domain L)) : BP (Domain L) :=
  mapRes (mapRes p intoUtf8) fun x => some (parse x)

/-- `hostname` (domain.rs:43-60) -/
def hostnameP : BP (Domain L) :=
  alt (mapP (recognize (separatedNonemptyListComplete (tag b!".") labelP)) fun x => (promote x).map .host)
    (alt (literalP (preceded (tag b!"[IPv6:") (takeUntilAndConsume b!"]")) fun x => (L.parse6 x).map .v6)
      (literalP (preceded (tag b!"[") (takeUntilAndConsume b!"]")) fun x => (L.parse4 x).map .v4))

/-- `Domain::parse` (domain.rs:22-24) -/
def domainParse (s : ByteSlice) : Option (Except ParseErr (Domain L)) := nomToResult (hostnameP s)

/-- `dot_string` (email.rs:106-108) -/
def dotStringP : BP ByteSlice := recognize (separatedNonemptyListComplete (tag b!".") (isA atextC))

/-- email.rs:114-115, with the indexing `x[0]` -/
def quotedItemP : BP ByteSlice :=
  alt (preceded (tag b!"\\") (verify (take 1) fun x => (index0 x).map fun c => 32 ≤ c && c ≤ 126))
    (verify (take 1) fun x => (index0 x).map fun c => 32 ≤ c && c != 34 && c != 92 && c ≤ 126)

/-- `quoted_string` (email.rs:111-119) -/
def quotedStringP : BP ByteSlice := recognize (do
  let _ ← tag b!"\""
  let _ ← (many0 quotedItemP : BP _)
  let _ ← tag b!"\""
  return ())

/-- `localpart` (email.rs:121) -/
def localpartP : BP ByteSlice := alt quotedStringP dotStringP

/-- `email` (email.rs:123-127) -/
def emailP : BP (Email L) := do
  let loc ← localpartP
  let host ← opt (complete (preceded (tag b!"@") hostnameP))
  let loc ← eval (promote loc)
  return ⟨loc, host⟩

/-- `Email::parse` (email.rs:27-29) -/
def emailParse (s : ByteSlice) : Option (Except ParseErr (Email L)) := nomToResult (emailP s)

/-- email.rs:131 -/
def hopP (L : IpLib) : BP Unit := do
  let _ ← tag b!"@"
  let _ ← (hostnameP : BP (Domain L))
  return ()

/-- email.rs:130-134 -/
def routeP (L : IpLib) : BP Unit := do
  let _ ← separatedList (tag b!",") (hopP L)
  let _ ← tag b!":"
  return ()

/-- `address_in_path` (email.rs:129-136) -/
def addressInPathP : BP (Email L) := preceded (opt (routeP L)) emailP

/-- `address_in_maybe_bracketed_path` (email.rs:138-148) -/
def maybeBracketedP : BP (Email L) :=
  alt (do
      let _ ← tag b!"<"
      let addr ← addressInPathP
      let _ ← tag b!">"
      return addr)
    addressInPathP

/-- `eat_spaces` (stupidparsers.rs:49) -/
def eatSpaces : BP ByteSlice := ByteSlice.eatSeparator spacesC

/-- `value.map(|x| x.promote().into())` (parameters.rs:38) -/
def promoteOpt : Option ByteSlice → Option (Option Bytes)
  | none => some none
  | some x => (promote x).map some

/-- parameters.rs:33-38 -/
def paramP : BP (Bytes × Option Bytes) := do
  let _ ← oneOf spacesC
  let _ ← eatSpaces
  let key ← recognize (preceded (oneOf alnumC) (opt (isA alnumdashC)))
  let value ← opt (complete (preceded (tag b!"=") (isA graphExceptEquC)))
  let key ← eval (promote key)
  let value ← eval (promoteOpt value)
  return (key, value)

/-- `parse_parameters` (parameters.rs:31-41) -/
def parametersP : BP Params := do
  let params ← (many0 paramP : BP _)
  return Params.collect params

/-! ### The commands -/

/-- `command_data_args` (data/mod.rs:32-35) -/
def dataArgs : BP (Command L) := do
  let _ ← tagNoCase b!"DATA"
  let _ ← eatSpaces
  let _ ← crlfP
  return .data

/-- `command_ehlo_args` (ehlo/mod.rs:32-41) -/
def ehloArgs : BP (Command L) := do
  let _ ← eatSpaces
  let _ ← tagNoCase b!"EHLO"
  let _ ← eatSpaces
  let domain ← hostnameP
  let _ ← eatSpaces
  let _ ← tag b!"\r\n"
  return .ehlo domain

/-- `command_expn_args` (expn/mod.rs:27-34) -/
def expnArgs : BP (Command L) := do
  let _ ← tagNoCase b!"EXPN"
  let _ ← oneOf spacesC
  let res ← takeUntil b!"\r\n"
  let _ ← tag b!"\r\n"
  let res ← eval (promote res)
  return .expn res

/-- `command_helo_args` (helo/mod.rs:32-41) -/
def heloArgs : BP (Command L) := do
  let _ ← eatSpaces
  let _ ← tagNoCase b!"HELO"
  let _ ← eatSpaces
  let domain ← hostnameP
  let _ ← eatSpaces
  let _ ← tag b!"\r\n"
  return .helo domain

/-- `command_help_args` (help/mod.rs:28-35) -/
def helpArgs : BP (Command L) := do
  let _ ← tagNoCase b!"HELP"
  let _ ← opt (oneOf spacesC)
  let res ← takeUntil b!"\r\n"
  let _ ← tag b!"\r\n"
  let res ← eval (promote res)
  return .help res

/-- `command_mail_args` (mail/mod.rs:44-55) -/
def mailArgs : BP (Command L) := do
  let _ ← tagNoCase b!"MAIL FROM:"
  let _ ← eatSpaces
  let from_ ← alt (mapP (tag b!"<>") fun _ => some none) (mapP maybeBracketedP fun x => some (some x))
  let params ← parametersP
  let _ ← eatSpaces
  let _ ← crlfP
  return .mail from_ params

/-- `command_noop_args` (noop/mod.rs:27-34) -/
def noopArgs : BP (Command L) := do
  let _ ← tagNoCase b!"NOOP"
  let _ ← opt (oneOf spacesC)
  let res ← takeUntil b!"\r\n"
  let _ ← tag b!"\r\n"
  let res ← eval (promote res)
  return .noop res

/-- `command_quit_args` (quit/mod.rs:26-33) -/
def quitArgs : BP (Command L) := do
  let _ ← tagNoCase b!"QUIT"
  let _ ← eatSpaces
  let _ ← crlfP
  return .quit

/-- `command_rcpt_args` (rcpt/mod.rs:35-43) -/
def rcptArgs : BP (Command L) := do
  let _ ← tagNoCase b!"RCPT TO:"
  let _ ← eatSpaces
  let to ← maybeBracketedP
  let params ← parametersP
  let _ ← eatSpaces
  let _ ← crlfP
  return .rcpt to params

/-- `command_rset_args` (rset/mod.rs:26-33) -/
def rsetArgs : BP (Command L) := do
  let _ ← tagNoCase b!"RSET"
  let _ ← eatSpaces
  let _ ← crlfP
  return .rset

/-- `command_vrfy_args` (vrfy/mod.rs:27-34) -/
def vrfyArgs : BP (Command L) := do
  let _ ← tagNoCase b!"VRFY"
  let _ ← oneOf spacesC
  let res ← takeUntil b!"\r\n"
  let _ ← tag b!"\r\n"
  let res ← eval (promote res)
  return .vrfy res

/-- `command` (command.rs:63-75) -/
def commandP : BP (Command L) :=
  alt dataArgs <| alt ehloArgs <| alt expnArgs <| alt heloArgs <| alt helpArgs <| alt mailArgs <|
    alt noopArgs <| alt quitArgs <| alt rcptArgs <| alt rsetArgs vrfyArgs

/-- `Command::parse` (command.rs:42-44): `arg` lives at address `ptr`. -/
def commandParse (ptr : Nat) (arg : Bytes) : Option (Except ParseErr (Command L)) :=
  nomToResult (commandP (ofBytes ptr arg))

/-- `Domain::parse_slice` (domain.rs:26-29) -/
def domainParseSlice (ptr : Nat) (b : Bytes) : Option (Except ParseErr (Domain L)) :=
  nomToResult (hostnameP (ofBytes ptr b))

/-- `Email::parse_slice` (email.rs:31-34) -/
def emailParseSlice (ptr : Nat) (b : Bytes) : Option (Except ParseErr (Email L)) :=
  nomToResult (emailP (ofBytes ptr b))

/-! ### reply.rs -/

/-- `reply` (reply.rs:132-149), with `ReplyCode::custom` and its assertion. -/
def replyP : BP ReplyLine := do
  let code ← mapP (verify (mapRes (mapRes (take 3) intoUtf8) fun x => some (ReplyLine.u16FromStr x))
    fun x => some (decide (x < 1000))) ReplyCode.custom
  let isLast ← mapP (alt (tag b!"-") (tag b!" ")) fun b => do
    let n ← b.len
    if n = 1 then
      let c ← index0 b
      if c = 32 then some IsLast.yes else some IsLast.no
    else some IsLast.no
  let line ← takeUntilAndConsume b!"\r\n"
  let line ← eval (promote line)
  return ⟨code, isLast, line⟩

/-- `ReplyLine::parse` (reply.rs:106-108) -/
def replyParse (ptr : Nat) (arg : Bytes) : Option (Except ParseErr ReplyLine) :=
  nomToResult (replyP (ofBytes ptr arg))

end Verif.SliceParse
