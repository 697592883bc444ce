import Verif.Model.Command
import Verif.Model.Reply
/-
The parsers of Model/Nom.lean, Model/Command.lean and Model/Reply.lean with a counter of the work they do. `Props/ParseWork.lean`
proves that the counter changes nothing else. Unit of the count: a look at one byte of the input, and one call of an elementary
parser; one turn of a loop. Slicing and `promote()` of a `ByteSlice` are free (they copy no bytes). Of a hash table, hashing the
key counts. Of the parsers of IP addresses of the standard library, this model assumes that they look at each byte once.
-/
namespace Verif.ParseWork
open Nom (IRes)

/-- A parser with a counter. -/
def CP (α : Type) := Bytes → Nat × IRes α

variable {α β : Type}

/-- `do_parse!`: the work of the parts adds up. -/
def CP.bind (p : CP α) (f : α → CP β) : CP β := fun i =>
  match p i with
  | (n, .done r a) => (n + (f a r).1, (f a r).2)
  | (n, .error) => (n, .error)
  | (n, .incomplete) => (n, .incomplete)

/-- The value at the end of `do_parse!`. -/
def CP.pure (a : α) : CP α := fun i => (0, .done i a)

instance : Monad CP where
  pure := CP.pure
  bind := CP.bind

/-- An action that costs `n`. -/
def tick (n : Nat) : CP Unit := fun i => (n, .done i ())

/-- `tag!`: compares as many bytes as both have. -/
def tag (t : Bytes) : CP Bytes := fun i => (1 + min i.length t.length, Nom.tag t i)

/-- `tag_no_case!` -/
def tagNoCase (t : Bytes) : CP Bytes := fun i => (1 + min i.length t.length, Nom.tagNoCase t i)

/-- `nom::crlf` -/
def crlfP : CP Bytes := tag b!"\r\n"

/-- `one_of!` -/
def oneOf (s : Bytes) : CP UInt8 := fun i => (1, Nom.oneOf s i)

/-- `is_a!`: looks at the run and at the byte that ends it. -/
def isA (s : Bytes) : CP Bytes := fun i => (1 + (i.takeWhile s.contains).length, Nom.isA s i)

/-- `eat_separator!` -/
def eatSeparator (s : Bytes) : CP Bytes := fun i => (1 + (i.takeWhile s.contains).length, Nom.eatSeparator s i)

/-- `take!` -/
def take (n : Nat) : CP Bytes := fun i => (1, Nom.take n i)

/-- `FindSubstring::find_substring` compares `t` at every position up to the first occurrence. -/
def findWork (t i : Bytes) : Nat :=
  match Nom.findSubstring t i with
  | some n => t.length * (n + 1)
  | none => t.length * i.length

/-- `take_until!` -/
def takeUntil (t : Bytes) : CP Bytes := fun i => (1 + findWork t i, Nom.takeUntil t i)

/-- `take_until_and_consume!` -/
def takeUntilAndConsume (t : Bytes) : CP Bytes := fun i => (1 + findWork t i, Nom.takeUntilAndConsume t i)

/-- `map!` with a function that costs nothing. -/
def mapP (p : CP α) (f : α → β) : CP β := p.bind fun a => CP.pure (f a)

/-- `map_res!` with a function that costs `w`. -/
def mapRes (p : CP α) (w : α → Nat) (f : α → Option β) : CP β := p.bind fun a => fun i =>
  (w a, match f a with
    | some b => .done i b
    | none => .error)

/-- `verify!` with a test of one unit. -/
def verify (p : CP α) (f : α → Bool) : CP α := p.bind fun a => fun i => (1, if f a then .done i a else .error)

/-- `opt!` -/
def opt (p : CP α) : CP (Option α) := fun i =>
  match p i with
  | (n, .done r a) => (n, .done r (some a))
  | (n, .error) => (n, .done i none)
  | (n, .incomplete) => (n, .incomplete)

/-- `complete!` -/
def complete (p : CP α) : CP α := fun i =>
  match p i with
  | (n, .incomplete) => (n, .error)
  | x => x

/-- One `|` of `alt!`: after an `Error` the work of the first alternative is lost. -/
def alt (p q : CP α) : CP α := fun i =>
  match p i with
  | (n, .error) => (n + (q i).1, (q i).2)
  | x => x

/-- `preceded!` -/
def preceded (p : CP α) (q : CP β) : CP β := p.bind fun _ => q

/-- `recognize!` -/
def recognize (p : CP α) : CP Bytes := fun i =>
  match p i with
  | (n, .done r _) => (n, .done r (i.take (i.length - r.length)))
  | (n, .error) => (n, .error)
  | (n, .incomplete) => (n, .incomplete)

/-- `many0!`; a turn costs one unit. -/
def many0 (p : CP α) : CP (List α) := fun i =>
  if i = [] then (1, .done [] [])
  else
    match p i with
    | (n, .error) => (1 + n, .done i [])
    | (n, .incomplete) => (1 + n, .incomplete)
    | (n, .done r a) =>
      if _h : r.length < i.length then
        match many0 p r with
        | (m, .done r' as) => (1 + n + m, .done r' (a :: as))
        | (m, .error) => (1 + n + m, .error)
        | (m, .incomplete) => (1 + n + m, .incomplete)
      else (1 + n, .error)
termination_by i => i.length

/-- The loop of the `separated_*list!` macros; a turn costs one unit. -/
def sepLoop (sep : CP β) (p : CP α) : CP (List α) := fun i =>
  match sep i with
  | (n, .error) => (1 + n, .done i [])
  | (n, .incomplete) => (1 + n, .incomplete)
  | (n, .done i2 _) =>
    if _h2 : i2.length < i.length then
      match p i2 with
      | (m, .error) => (1 + n + m, .done i [])
      | (m, .incomplete) => (1 + n + m, .incomplete)
      | (m, .done i3 a) =>
        if _h3 : i3.length < i2.length then
          match sepLoop sep p i3 with
          | (k, .done r as) => (1 + n + m + k, .done r (a :: as))
          | (k, .error) => (1 + n + m + k, .error)
          | (k, .incomplete) => (1 + n + m + k, .incomplete)
        else (1 + n + m, .done i [])
    else (1 + n, .done i [])
termination_by i => i.length

/-- The first element of a list and the loop. -/
def sepRest (sep : CP β) (p : CP α) (n : Nat) (i r : Bytes) (a : α) : Nat × IRes (List α) :=
  if r.length < i.length then
    match sepLoop sep p r with
    | (m, .done r' as) => (n + m, .done r' (a :: as))
    | (m, .error) => (n + m, .error)
    | (m, .incomplete) => (n + m, .incomplete)
  else (n, .error)

/-- `separated_nonempty_list!` -/
def separatedNonemptyList (sep : CP β) (p : CP α) : CP (List α) := fun i =>
  match p i with
  | (n, .error) => (n, .error)
  | (n, .incomplete) => (n, .incomplete)
  | (n, .done r a) => sepRest sep p n i r a

/-- `separated_nonempty_list_complete!` -/
def separatedNonemptyListComplete (sep : CP β) (p : CP α) : CP (List α) :=
  separatedNonemptyList (complete sep) (complete p)

/-- `separated_list!` -/
def separatedList (sep : CP β) (p : CP α) : CP (List α) := fun i =>
  match p i with
  | (n, .error) => (n, .done i [])
  | (n, .incomplete) => (n, .incomplete)
  | (n, .done r a) => sepRest sep p n i r a

/-- `nom_to_result` (parseresult.rs:13-25) -/
def result (x : Nat × IRes α) : Nat × Except ParseErr α := (x.1, nomToResult x.2)

/-! ### domain.rs, email.rs, parameters.rs -/

variable {L : IpLib}

/-- domain.rs:47-48 -/
def labelP : CP (Option Bytes) := preceded (oneOf alnumC) (opt (isA alnumdashC))

/-- `into_utf8` and `from_str` (domain.rs:50-58): each looks at every byte. -/
def literalWork (x : Bytes) : Nat := 2 * x.length + 1

/-- `hostname` (domain.rs:43-60) -/
def hostnameP : CP (Domain L) :=
  alt (mapP (recognize (separatedNonemptyListComplete (tag b!".") labelP)) .host)
    (alt (mapP (mapRes (preceded (tag b!"[IPv6:") (takeUntilAndConsume b!"]")) literalWork L.parse6) .v6)
      (mapP (mapRes (preceded (tag b!"[") (takeUntilAndConsume b!"]")) literalWork L.parse4) .v4))

/-- `Domain::parse` (domain.rs:22-24) -/
def domainParse (b : Bytes) : Nat × Except ParseErr (Domain L) := result (hostnameP b)

/-- `dot_string` (email.rs:106-108) -/
def dotStringP : CP Bytes := recognize (separatedNonemptyListComplete (tag b!".") (isA atextC))

/-- email.rs:114-115 -/
def quotedItemP : CP Bytes :=
  alt (preceded (tag b!"\\") (verify (take 1) (fun x => x.all fun c => 32 ≤ c && c ≤ 126)))
    (verify (take 1) (fun x => x.all fun c => 32 ≤ c && c != 34 && c != 92 && c ≤ 126))

/-- `quoted_string` (email.rs:111-119) -/
def quotedStringP : CP Bytes := recognize (do
  let _ ← tag b!"\""
  let _ ← many0 quotedItemP
  let _ ← tag b!"\""
  return ())

/-- `localpart` (email.rs:121) -/
def localpartP : CP Bytes := alt quotedStringP dotStringP

/-- `email` (email.rs:123-127) -/
def emailP : CP (Email L) := do
  let loc ← localpartP
  let host ← opt (complete (preceded (tag b!"@") hostnameP))
  return ⟨loc, host⟩

/-- `Email::parse` (email.rs:27-29) -/
def emailParse (b : Bytes) : Nat × Except ParseErr (Email L) := result (emailP b)

/-- email.rs:131 -/
def hopP (L : IpLib) : CP Unit := do
  let _ ← tag b!"@"
  let _ ← (hostnameP : CP (Domain L))
  return ()

/-- email.rs:130-134 -/
def routeP (L : IpLib) : CP Unit := do
  let _ ← separatedList (tag b!",") (hopP L)
  let _ ← tag b!":"
  return ()

/-- `address_in_path` (email.rs:129-136) -/
def addressInPathP : CP (Email L) := preceded (opt (routeP L)) emailP

/-- `address_in_maybe_bracketed_path` (email.rs:138-148) -/
def maybeBracketedP : CP (Email L) :=
  alt (do
      let _ ← tag b!"<"
      let addr ← addressInPathP
      let _ ← tag b!">"
      return addr)
    addressInPathP

/-- `eat_spaces` (stupidparsers.rs:49) -/
def eatSpaces : CP Bytes := eatSeparator spacesC

/-- parameters.rs:33-38 -/
def paramP : CP (Bytes × Option Bytes) := do
  let _ ← oneOf spacesC
  let _ ← eatSpaces
  let key ← recognize (preceded (oneOf alnumC) (opt (isA alnumdashC)))
  let value ← opt (complete (preceded (tag b!"=") (isA graphExceptEquC)))
  return (key, value)

/-- Filling the hash table: every key is hashed (parameters.rs:40). -/
def collectWork (ps : List (Bytes × Option Bytes)) : Nat := (ps.map fun p => p.1.length + 1).sum

/-- `parse_parameters` (parameters.rs:31-41) -/
def parametersP : CP Params := do
  let params ← many0 paramP
  let _ ← tick (collectWork params)
  return Params.collect params

/-! ### The commands -/

/-- `command_data_args` (data/mod.rs:32-35) -/
def dataArgs : CP (Command L) := do
  let _ ← tagNoCase b!"DATA"
  let _ ← eatSpaces
  let _ ← crlfP
  return .data

/-- `command_ehlo_args` (ehlo/mod.rs:32-41) -/
def ehloArgs : CP (Command L) := do
  let _ ← eatSpaces
  let _ ← tagNoCase b!"EHLO"
  let _ ← eatSpaces
  let domain ← hostnameP
  let _ ← eatSpaces
  let _ ← tag b!"\r\n"
  return .ehlo domain

/-- `command_expn_args` (expn/mod.rs:27-34) -/
def expnArgs : CP (Command L) := do
  let _ ← tagNoCase b!"EXPN"
  let _ ← oneOf spacesC
  let res ← takeUntil b!"\r\n"
  let _ ← tag b!"\r\n"
  return .expn res

/-- `command_helo_args` (helo/mod.rs:32-41) -/
def heloArgs : CP (Command L) := do
  let _ ← eatSpaces
  let _ ← tagNoCase b!"HELO"
  let _ ← eatSpaces
  let domain ← hostnameP
  let _ ← eatSpaces
  let _ ← tag b!"\r\n"
  return .helo domain

/-- `command_help_args` (help/mod.rs:28-35) -/
def helpArgs : CP (Command L) := do
  let _ ← tagNoCase b!"HELP"
  let _ ← opt (oneOf spacesC)
  let res ← takeUntil b!"\r\n"
  let _ ← tag b!"\r\n"
  return .help res

/-- `command_mail_args` (mail/mod.rs:44-55) -/
def mailArgs : CP (Command L) := do
  let _ ← tagNoCase b!"MAIL FROM:"
  let _ ← eatSpaces
  let from_ ← alt (mapP (tag b!"<>") (fun _ => none)) (mapP maybeBracketedP some)
  let params ← parametersP
  let _ ← eatSpaces
  let _ ← crlfP
  return .mail from_ params

/-- `command_noop_args` (noop/mod.rs:27-34) -/
def noopArgs : CP (Command L) := do
  let _ ← tagNoCase b!"NOOP"
  let _ ← opt (oneOf spacesC)
  let res ← takeUntil b!"\r\n"
  let _ ← tag b!"\r\n"
  return .noop res

/-- `command_quit_args` (quit/mod.rs:26-33) -/
def quitArgs : CP (Command L) := do
  let _ ← tagNoCase b!"QUIT"
  let _ ← eatSpaces
  let _ ← crlfP
  return .quit

/-- `command_rcpt_args` (rcpt/mod.rs:35-43) -/
def rcptArgs : CP (Command L) := do
  let _ ← tagNoCase b!"RCPT TO:"
  let _ ← eatSpaces
  let to ← maybeBracketedP
  let params ← parametersP
  let _ ← eatSpaces
  let _ ← crlfP
  return .rcpt to params

/-- `command_rset_args` (rset/mod.rs:26-33) -/
def rsetArgs : CP (Command L) := do
  let _ ← tagNoCase b!"RSET"
  let _ ← eatSpaces
  let _ ← crlfP
  return .rset

/-- `command_vrfy_args` (vrfy/mod.rs:27-34) -/
def vrfyArgs : CP (Command L) := do
  let _ ← tagNoCase b!"VRFY"
  let _ ← oneOf spacesC
  let res ← takeUntil b!"\r\n"
  let _ ← tag b!"\r\n"
  return .vrfy res

/-- `command` (command.rs:63-75) -/
def commandP : CP (Command L) :=
  alt dataArgs <| alt ehloArgs <| alt expnArgs <| alt heloArgs <| alt helpArgs <| alt mailArgs <|
    alt noopArgs <| alt quitArgs <| alt rcptArgs <| alt rsetArgs vrfyArgs

/-- `Command::parse` (command.rs:42-44) -/
def commandParse (arg : Bytes) : Nat × Except ParseErr (Command L) := result (commandP arg)

/-! ### reply.rs -/

/-- `reply` (reply.rs:132-149) -/
def replyP : CP ReplyLine := do
  let code ← mapP (verify (mapRes (take 3) literalWork ReplyLine.u16FromStr) (fun x => x < 1000)) ReplyCode.mk
  let isLast ← mapP (alt (tag b!"-") (tag b!" "))
    (fun b => if b.length = 1 ∧ b.head? = some 32 then IsLast.yes else IsLast.no)
  let line ← takeUntilAndConsume b!"\r\n"
  return ⟨code, isLast, line⟩

/-- `ReplyLine::parse` (reply.rs:106-108) -/
def replyParse (arg : Bytes) : Nat × Except ParseErr ReplyLine := result (replyP arg)

end Verif.ParseWork
