import Verif.Model.Server
/-
Other readings of nom 3.2. Model/Nom.lean is written from memory of the library; some of its details, above all what a combinator
does at the end of its input, no test of the project pins down. A `Reading` fixes each of these details one way or the other; the
parsers of smtp-message and the server are then defined for every reading. The reading `Reading.std` gives the parsers of
Model/Command.lean and Model/Reply.lean (`c110_standard`).
-/
namespace Verif
open Nom

/-- The two ways a parser can fail. -/
inductive Fails where
  | error
  | incomplete
  deriving DecidableEq, Repr

/-- The failure as an outcome. -/
def Fails.res {α : Type} : Fails → IRes α
  | .error => .error
  | .incomplete => .incomplete

/-- A way to read the library. -/
structure Reading where
  /-- `tag!` and `tag_no_case!` on an input that is a proper beginning of the tag -/
  tagShort : Fails
  /-- `one_of!` on the empty input -/
  oneOfEnd : Fails
  /-- `take!` on too short an input -/
  takeShort : Fails
  /-- `take_until!` and `take_until_and_consume!` on an input shorter than what is looked for -/
  untilShort : Fails
  /-- the same on an input in which it does not occur -/
  untilMissing : Fails
  /-- `is_a!` on the empty input: `none` is `Done` with nothing consumed -/
  isAEnd : Option Fails
  /-- `many0!` on the empty input: `none` runs the parser, `some none` is `Done` with nothing, or else a failure -/
  many0End : Option (Option Fails)
  /-- `many0!` when a turn consumes nothing: a failure, or `none`, the end of the loop -/
  many0Stuck : Option Fails
  /-- the list combinators when the first element consumes nothing: a failure, or `none`, the list of this element -/
  firstStuck : Option Fails
  /-- the list combinators when a separator or a later element consumes nothing: a failure, or `none`, the end of the loop -/
  sepStuck : Option Fails
  /-- whether `sep!` also eats blanks after the last part -/
  sepAfter : Bool
  /-- whether `alt!` tries the next alternative after `Incomplete` too -/
  altOn : Bool
  /-- whether `opt!` is `None` on `Incomplete` too -/
  optNone : Bool
  /-- whether `many0!` and the list combinators end on `Incomplete` too -/
  loopEnds : Bool

/-- The reading of Model/Nom.lean. -/
def Reading.std : Reading :=
  ⟨.incomplete, .incomplete, .incomplete, .incomplete, .error, none, some none, some .error, some .error, none, false,
    false, false, false⟩

namespace Reading
variable (R : Reading) {α β : Type} {L : IpLib}

/-! ### The library -/

/-- `tag!`, `tag_no_case!` -/
def tagBy (eq : UInt8 → UInt8 → Bool) (t : Bytes) : Parser Bytes := fun i =>
  match compareBy eq i t with
  | .ok r => .done r (i.take t.length)
  | .error => .error
  | .incomplete => R.tagShort.res

/-- `tag!` -/
def tag (t : Bytes) : Parser Bytes := R.tagBy (· == ·) t

/-- `tag_no_case!` -/
def tagNoCase (t : Bytes) : Parser Bytes := R.tagBy (fun a b => lower a == lower b) t

/-- `one_of!` -/
def oneOf (s : Bytes) : Parser UInt8 := fun i =>
  match i with
  | [] => R.oneOfEnd.res
  | c :: r => if s.contains c then .done r c else .error

/-- `is_a!` -/
def isA (s : Bytes) : Parser Bytes := fun i =>
  match i with
  | [] => match R.isAEnd with | none => .done [] [] | some f => f.res
  | c :: _ =>
    if s.contains c then .done (i.dropWhile s.contains) (i.takeWhile s.contains) else .error

/-- `take!` -/
def take (n : Nat) : Parser Bytes := fun i =>
  if i.length < n then R.takeShort.res else .done (i.drop n) (i.take n)

/-- `take_until!` -/
def takeUntil (t : Bytes) : Parser Bytes := fun i =>
  if i.length < t.length then R.untilShort.res
  else
    match findSubstring t i with
    | none => R.untilMissing.res
    | some n => .done (i.drop n) (i.take n)

/-- `take_until_and_consume!` -/
def takeUntilAndConsume (t : Bytes) : Parser Bytes := fun i =>
  if i.length < t.length then R.untilShort.res
  else
    match findSubstring t i with
    | none => R.untilMissing.res
    | some n => .done (i.drop (n + t.length)) (i.take n)

/-- One `|` of `alt!` -/
def alt (p q : Parser α) : Parser α := fun i =>
  match p i with
  | .error => q i
  | .incomplete => if R.altOn then q i else .incomplete
  | .done r a => .done r a

/-- `opt!` -/
def opt (p : Parser α) : Parser (Option α) := fun i =>
  match p i with
  | .done r a => .done r (some a)
  | .error => .done i none
  | .incomplete => if R.optNone then .done i none else .incomplete

/-- How a loop ends whose element is incomplete. -/
def loopInc (i : Bytes) : IRes (List α) := if R.loopEnds then .done i [] else .incomplete

/-- One turn of `many0!` and the rest of its loop `next`. -/
def many0Turn (p : Parser α) (next : Parser (List α)) : Parser (List α) := fun i =>
  match p i with
  | .error => .done i []
  | .incomplete => R.loopInc i
  | .done r a =>
    if r.length < i.length then
      match next r with
      | .done r' as => .done r' (a :: as)
      | .error => .error
      | .incomplete => .incomplete
    else
      match R.many0Stuck with
      | none => .done i []
      | some f => f.res

/-- `many0!`, up to `n` turns: a turn that goes on consumes something, so the length of the input is enough. -/
def many0N (p : Parser α) : Nat → Parser (List α)
  | 0 => fun i => .done i []
  | n + 1 => fun i =>
    if i = [] then
      match R.many0End with
      | none => R.many0Turn p (many0N p n) i
      | some none => .done [] []
      | some (some f) => f.res
    else R.many0Turn p (many0N p n) i

/-- `many0!` -/
def many0 (p : Parser α) : Parser (List α) := fun i => R.many0N p (i.length + 1) i

/-- The loop of the list combinators, up to `n` turns. -/
def sepLoopN (sep : Parser β) (p : Parser α) : Nat → Parser (List α)
  | 0 => fun i => .done i []
  | n + 1 => fun i =>
    match sep i with
    | .error => .done i []
    | .incomplete => R.loopInc i
    | .done i2 _ =>
      if i2.length < i.length then
        match p i2 with
        | .error => .done i []
        | .incomplete => R.loopInc i
        | .done i3 a =>
          if i3.length < i2.length then
            match sepLoopN sep p n i3 with
            | .done r as => .done r (a :: as)
            | .error => .error
            | .incomplete => .incomplete
          else
            match R.sepStuck with
            | none => .done i []
            | some f => f.res
      else
        match R.sepStuck with
        | none => .done i []
        | some f => f.res

/-- The list combinators after their first element. -/
def sepRest (sep : Parser β) (p : Parser α) (i : Bytes) (a : α) : Parser (List α) := fun r =>
  if r.length < i.length then
    match R.sepLoopN sep p (r.length + 1) r with
    | .done r' as => .done r' (a :: as)
    | .error => .error
    | .incomplete => .incomplete
  else
    match R.firstStuck with
    | none => .done r [a]
    | some f => f.res

/-- `separated_nonempty_list_complete!` -/
def separatedNonemptyListComplete (sep : Parser β) (p : Parser α) : Parser (List α) := fun i =>
  match complete p i with
  | .error => .error
  | .incomplete => .incomplete
  | .done r a => R.sepRest (complete sep) (complete p) i a r

/-- `separated_list!` -/
def separatedList (sep : Parser β) (p : Parser α) : Parser (List α) := fun i =>
  match p i with
  | .error => .done i []
  | .incomplete => R.loopInc i
  | .done r a => R.sepRest sep p i a r

/-! ### smtp-message (as in Model/Command.lean and Model/Reply.lean) -/

/-- domain.rs:47-48 -/
def labelP : Parser (Option Bytes) := preceded (R.oneOf alnumC) (R.opt (R.isA alnumdashC))

/-- `hostname` (domain.rs:43-60) -/
def hostnameP : Parser (Domain L) :=
  R.alt (mapP (recognize (R.separatedNonemptyListComplete (R.tag b!".") R.labelP)) .host)
    (R.alt (mapP (mapRes (preceded (R.tag b!"[IPv6:") (R.takeUntilAndConsume b!"]")) L.parse6) .v6)
      (mapP (mapRes (preceded (R.tag b!"[") (R.takeUntilAndConsume b!"]")) L.parse4) .v4))

/-- `dot_string` (email.rs:106-108) -/
def dotStringP : Parser Bytes := recognize (R.separatedNonemptyListComplete (R.tag b!".") (R.isA atextC))

/-- email.rs:114-115 -/
def quotedItemP : Parser Bytes :=
  R.alt (preceded (R.tag b!"\\") (verify (R.take 1) (fun x => x.all fun c => 32 ≤ c && c ≤ 126)))
    (verify (R.take 1) (fun x => x.all fun c => 32 ≤ c && c != 34 && c != 92 && c ≤ 126))

/-- `quoted_string` (email.rs:111-119) -/
def quotedStringP : Parser Bytes := recognize (do
  let _ ← R.tag b!"\""
  let _ ← R.many0 R.quotedItemP
  let _ ← R.tag b!"\""
  return ())

/-- `localpart` (email.rs:121) -/
def localpartP : Parser Bytes := R.alt R.quotedStringP R.dotStringP

/-- `email` (email.rs:123-127) -/
def emailP : Parser (Email L) := do
  let loc ← R.localpartP
  let host ← R.opt (complete (preceded (R.tag b!"@") R.hostnameP))
  return ⟨loc, host⟩

/-- email.rs:131 -/
def hopP (L : IpLib) : Parser Unit := do
  let _ ← R.tag b!"@"
  let _ ← (R.hostnameP : Parser (Domain L))
  return ()

/-- email.rs:130-134 -/
def routeP (L : IpLib) : Parser Unit := do
  let _ ← R.separatedList (R.tag b!",") (R.hopP L)
  let _ ← R.tag b!":"
  return ()

/-- `address_in_path` (email.rs:129-136) -/
def addressInPathP : Parser (Email L) := preceded (R.opt (R.routeP L)) R.emailP

/-- `address_in_maybe_bracketed_path` (email.rs:138-148) -/
def maybeBracketedP : Parser (Email L) :=
  R.alt (do
      let _ ← R.tag b!"<"
      let addr ← R.addressInPathP
      let _ ← R.tag b!">"
      return addr)
    R.addressInPathP

/-- parameters.rs:33-38 -/
def paramP : Parser (Bytes × Option Bytes) := do
  let _ ← R.oneOf spacesC
  let _ ← eatSpaces
  let key ← recognize (preceded (R.oneOf alnumC) (R.opt (R.isA alnumdashC)))
  let value ← R.opt (complete (preceded (R.tag b!"=") (R.isA graphExceptEquC)))
  return (key, value)

/-- `parse_parameters` (parameters.rs:31-41) -/
def parametersP : Parser Params := do
  let params ← R.many0 R.paramP
  return Params.collect params

/-- DATA, QUIT, RSET (data/mod.rs:32-35, quit/mod.rs:26-33, rset/mod.rs:26-33) -/
def bareArgs (verb : Bytes) (c : Command L) : Parser (Command L) := do
  let _ ← R.tagNoCase verb
  let _ ← eatSpaces
  let _ ← R.tag b!"\r\n"
  return c

/-- EHLO, HELO (ehlo/mod.rs:32-41, helo/mod.rs:32-41) -/
def helloArgs (verb : Bytes) (f : Domain L → Command L) : Parser (Command L) := do
  let _ ← eatSpaces
  let _ ← R.tagNoCase verb
  let _ ← eatSpaces
  let domain ← R.hostnameP
  let _ ← eatSpaces
  let _ ← R.tag b!"\r\n"
  let _ ← if R.sepAfter then eatSpaces else (return [])
  return f domain

/-- EXPN, VRFY (expn/mod.rs:27-34, vrfy/mod.rs:27-34) -/
def textArgs (verb : Bytes) (f : Bytes → Command L) : Parser (Command L) := do
  let _ ← R.tagNoCase verb
  let _ ← R.oneOf spacesC
  let res ← R.takeUntil b!"\r\n"
  let _ ← R.tag b!"\r\n"
  return f res

/-- HELP, NOOP (help/mod.rs:28-35, noop/mod.rs:27-34) -/
def optTextArgs (verb : Bytes) (f : Bytes → Command L) : Parser (Command L) := do
  let _ ← R.tagNoCase verb
  let _ ← R.opt (R.oneOf spacesC)
  let res ← R.takeUntil b!"\r\n"
  let _ ← R.tag b!"\r\n"
  return f res

/-- `command_mail_args` (mail/mod.rs:44-55) -/
def mailArgs : Parser (Command L) := do
  let _ ← R.tagNoCase b!"MAIL FROM:"
  let _ ← eatSpaces
  let from_ ← R.alt (mapP (R.tag b!"<>") (fun _ => none)) (mapP R.maybeBracketedP some)
  let params ← R.parametersP
  let _ ← eatSpaces
  let _ ← R.tag b!"\r\n"
  return .mail from_ params

/-- `command_rcpt_args` (rcpt/mod.rs:35-43) -/
def rcptArgs : Parser (Command L) := do
  let _ ← R.tagNoCase b!"RCPT TO:"
  let _ ← eatSpaces
  let to ← R.maybeBracketedP
  let params ← R.parametersP
  let _ ← eatSpaces
  let _ ← R.tag b!"\r\n"
  return .rcpt to params

/-- The alternatives of `command` (command.rs:63-75), in order. -/
def alternatives (L : IpLib) : List (Parser (Command L)) :=
  [R.bareArgs b!"DATA" .data, R.helloArgs b!"EHLO" .ehlo, R.textArgs b!"EXPN" .expn, R.helloArgs b!"HELO" .helo,
    R.optTextArgs b!"HELP" .help, R.mailArgs, R.optTextArgs b!"NOOP" .noop, R.bareArgs b!"QUIT" .quit, R.rcptArgs,
    R.bareArgs b!"RSET" .rset, R.textArgs b!"VRFY" .vrfy]

/-- `command` (command.rs:63-75) -/
def commandP : Parser (Command L) := (R.alternatives L).foldr R.alt Parser.fail

/-- `Command::parse` (command.rs:42-44) -/
def parse (arg : Bytes) : Except ParseErr (Command L) := nomToResult (R.commandP arg)

/-- `Domain::parse` (domain.rs:22-24) -/
def domainParse (b : Bytes) : Except ParseErr (Domain L) := nomToResult (R.hostnameP b)

/-- `Email::parse` (email.rs:27-29) -/
def emailParse (b : Bytes) : Except ParseErr (Email L) := nomToResult (R.emailP b)

/-- `reply` (reply.rs:132-149) -/
def replyP : Parser ReplyLine := do
  let code ← mapP (verify (mapRes (R.take 3) ReplyLine.u16FromStr) (fun x => x < 1000)) ReplyCode.mk
  let isLast ← mapP (R.alt (R.tag b!"-") (R.tag b!" "))
    (fun b => if b.length = 1 ∧ b.head? = some 32 then IsLast.yes else IsLast.no)
  let line ← R.takeUntilAndConsume b!"\r\n"
  return ⟨code, isLast, line⟩

/-- `ReplyLine::parse` (reply.rs:104-106) -/
def replyParse (arg : Bytes) : Except ParseErr ReplyLine := nomToResult (R.replyP arg)

/-! ### smtp-server (as in Model/Server.lean) -/

variable {S U : Type} (C : Config L S U)

/-- `handle_line` (interact.rs:70-174) -/
def handleLine (fuel : Nat) (line : Bytes) : Server.M L S U Unit := do
  match (R.parse line : Except ParseErr (Command L)) with
  | .ok (.mail from_ _) => Server.handleMailCmd C from_
  | .ok (.rcpt to _) => Server.handleRcptCmd C to
  | .ok .data => Server.handleDataCmd C fuel
  | .ok _ => Server.sendCfg C.commandUnimplemented
  | .error _ => Server.sendCfg C.commandUnrecognized

/-- The loop of `interact` (interact.rs:53-63) -/
def loop (fuel : Nat) : Nat → Server.M L S U Unit
  | 0 => SM.running
  | n + 1 => do
    match ← Server.nextLine with
    | none => return ()
    | some l =>
      Server.emit (.line l)
      R.handleLine C fuel l
      loop fuel n

/-- `interact` (interact.rs:19-67) -/
def interact (fuel : Nat) (incoming : List (SrcEv Bytes)) (outgoing : BSink) (cfg : S) (user : U) :
    Res Unit × World L S U :=
  (do Server.sendCfg C.welcomeBanner; R.loop C fuel fuel : Server.M L S U Unit) (Server.start incoming outgoing cfg user)

end Reading
end Verif
