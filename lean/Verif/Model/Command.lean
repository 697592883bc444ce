import Verif.Model.Nom
/-
Model of the command grammar of smtp-message: domain.rs, email.rs, parameters.rs, command.rs and the
eleven command modules.
-/
namespace Verif
open Nom

/-- What is used of `std::net::{Ipv4Addr, Ipv6Addr}`: `FromStr` and `Display` (domain.rs:37-38, 52, 57).
The standard library is not modelled; theorems that need facts about it take `IpLib.Laws` as hypothesis.
`parse4`/`parse6` stand for `ByteSlice::into_utf8` followed by `from_str`: both failures are the same
`Error` of the parser. -/
structure IpLib where
  V4 : Type
  V6 : Type
  parse4 : Bytes → Option V4
  show4 : V4 → Bytes
  parse6 : Bytes → Option V6
  show6 : V6 → Bytes

/-- `Domain` (domain.rs:16-19). -/
inductive Domain (L : IpLib) where
  | host (s : Bytes)
  | v4 (a : L.V4)
  | v6 (a : L.V6)

/-- `Email` (email.rs:13-17). -/
structure Email (L : IpLib) where
  localpart : Bytes
  hostname : Option (Domain L)

/-- `Parameters` (parameters.rs:9): the entries of the `HashMap`, in its iteration order. The order of a
`HashMap` is arbitrary, so two lists with the same entries stand for the same map; the theorems hold for
every order. -/
abbrev Params := List (Bytes × Option Bytes)

/-- `Command` (command.rs:27-39) with the fields of the eleven command structs. -/
inductive Command (L : IpLib) where
  | data
  | ehlo (domain : Domain L)
  | expn (name : Bytes)
  | helo (domain : Domain L)
  | help (subject : Bytes)
  | mail (from_ : Option (Email L)) (params : Params)
  | noop (string : Bytes)
  | quit
  | rcpt (to : Email L) (params : Params)
  | rset
  | vrfy (name : Bytes)

section
variable {L : IpLib}

/-- `HashMap::insert`: overwrites the value of an existing key. -/
def Params.insert (m : Params) (k : Bytes) (v : Option Bytes) : Params :=
  if m.any (·.1 == k) then m.map (fun e => if e.1 == k then (k, v) else e) else m ++ [(k, v)]

/-- `params.into_iter().collect::<HashMap>()` (parameters.rs:40). -/
def Params.collect (l : List (Bytes × Option Bytes)) : Params :=
  l.foldl (fun m e => m.insert e.1 e.2) []

/-- `HashMap::get`. -/
def Params.get (m : Params) (k : Bytes) : Option (Option Bytes) := m.lookup k

/-! ### Printing -/

/-- `<Domain as Sendable>::send_to` (domain.rs:32-41). -/
def Domain.sendTo : Domain L → Bytes
  | .host s => s
  | .v4 a => b!"[" ++ L.show4 a ++ b!"]"
  | .v6 a => b!"[IPv6:" ++ L.show6 a ++ b!"]"

/-- `<Email as Sendable>::send_to` (email.rs:84-94). -/
def Email.sendTo (e : Email L) : Bytes :=
  e.localpart ++ (match e.hostname with | some h => b!"@" ++ h.sendTo | none => [])

/-- `<Option<Email> as Sendable>::send_to` (email.rs:96-104). -/
def optEmailSendTo : Option (Email L) → Bytes
  | some e => e.sendTo
  | none => []

/-- `<Parameters as Sendable>::send_to` (parameters.rs:17-29). -/
def Params.sendTo (m : Params) : Bytes :=
  m.flatMap fun e => b!" " ++ e.1 ++ (match e.2 with | some v => b!"=" ++ v | none => [])

/-- `Command::send_to` (command.rs:46-60) and the `send_to` of data/mod.rs:23-25, ehlo/mod.rs:25-29,
expn/mod.rs:20-24, helo/mod.rs:25-29, help/mod.rs:20-24, mail/mod.rs:25-33, noop/mod.rs:20-24,
quit/mod.rs:17-19, rcpt/mod.rs:25-33, rset/mod.rs:17-19, vrfy/mod.rs:20-24. The writer is not modelled
here: this is the concatenation of what `write_all` is called with. -/
def Command.sendTo : Command L → Bytes
  | .data => b!"DATA\r\n"
  | .ehlo d => b!"EHLO " ++ d.sendTo ++ b!"\r\n"
  | .expn n => b!"EXPN " ++ n ++ b!"\r\n"
  | .helo d => b!"HELO " ++ d.sendTo ++ b!"\r\n"
  | .help s => b!"HELP " ++ s ++ b!"\r\n"
  | .mail f p => b!"MAIL FROM:<" ++ optEmailSendTo f ++ b!">" ++ p.sendTo ++ b!"\r\n"
  | .noop s => b!"NOOP " ++ s ++ b!"\r\n"
  | .quit => b!"QUIT\r\n"
  | .rcpt t p => b!"RCPT TO:<" ++ t.sendTo ++ b!">" ++ p.sendTo ++ b!"\r\n"
  | .rset => b!"RSET\r\n"
  | .vrfy n => b!"VRFY " ++ n ++ b!"\r\n"

/-! ### Domains -/

/-- One label of a host name (domain.rs:47-48). -/
def labelP : Parser (Option Bytes) := preceded (oneOf alnumC) (opt (isA alnumdashC))

/-- `hostname` (domain.rs:43-60). -/
def hostnameP : Parser (Domain L) :=
  alt (mapP (recognize (separatedNonemptyListComplete (tag b!".") labelP)) .host)
    (alt (mapP (mapRes (preceded (tag b!"[IPv6:") (takeUntilAndConsume b!"]")) L.parse6) .v6)
      (mapP (mapRes (preceded (tag b!"[") (takeUntilAndConsume b!"]")) L.parse4) .v4))

/-- `Domain::parse` and `Domain::parse_slice` (domain.rs:22-29). -/
def Domain.parse (b : Bytes) : Except ParseErr (Domain L) := nomToResult (hostnameP b)

/-! ### Addresses -/

/-- `dot_string` (email.rs:106-108). -/
def dotStringP : Parser Bytes := recognize (separatedNonemptyListComplete (tag b!".") (isA atextC))

/-- One element of a quoted string (email.rs:114-115). The closures test `x[0]` of a slice of one byte; here
all bytes of it. -/
def quotedItemP : Parser Bytes :=
  alt (preceded (tag b!"\\") (verify (take 1) (fun x => x.all fun c => 32 ≤ c && c ≤ 126)))
    (verify (take 1) (fun x => x.all fun c => 32 ≤ c && c != 34 && c != 92 && c ≤ 126))

/-- `quoted_string` (email.rs:111-119). -/
def quotedStringP : Parser Bytes := recognize (do
  let _ ← tag b!"\""
  let _ ← many0 quotedItemP
  let _ ← tag b!"\""
  return ())

/-- `localpart` (email.rs:121). -/
def localpartP : Parser Bytes := alt quotedStringP dotStringP

/-- `email` (email.rs:123-127). -/
def emailP : Parser (Email L) := do
  let loc ← localpartP
  let host ← opt (complete (preceded (tag b!"@") hostnameP))
  return ⟨loc, host⟩

/-- `Email::parse` and `Email::parse_slice` (email.rs:27-34). -/
def Email.parse (b : Bytes) : Except ParseErr (Email L) := nomToResult (emailP b)

/-- One hop of a source route (email.rs:131): its value is thrown away. -/
def hopP (L : IpLib) : Parser Unit := do
  let _ ← tag b!"@"
  let _ ← (hostnameP : Parser (Domain L))
  return ()

/-- The source route with its colon (email.rs:130-134). -/
def routeP (L : IpLib) : Parser Unit := do
  let _ ← separatedList (tag b!",") (hopP L)
  let _ ← tag b!":"
  return ()

/-- `address_in_path` (email.rs:129-136). -/
def addressInPathP : Parser (Email L) := preceded (opt (routeP L)) emailP

/-- `address_in_maybe_bracketed_path` (email.rs:138-148). -/
def maybeBracketedP : Parser (Email L) :=
  alt (do
      let _ ← tag b!"<"
      let addr ← addressInPathP
      let _ ← tag b!">"
      return addr)
    addressInPathP

/-- The unescaping state machine of `Email::localpart` (email.rs:53-69), `esc` being the state
`Backslash`. -/
def unescape : Bool → Bytes → Bytes
  | _, [] => []
  | true, c :: r => c :: unescape false r
  | false, c :: r => if c = 92 then unescape true r else c :: unescape false r

/-- `Email::localpart()` (email.rs:44-75): `none` is a panic (index 0 of an empty string, `unwrap` of an
empty result, or the assertion that the last byte is a quote). -/
def Email.localpartFn (e : Email L) : Option Bytes :=
  match e.localpart with
  | [] => none
  | c :: r =>
    if c ≠ 34 then some e.localpart
    else
      let res := unescape false r
      if res.getLast? = some 34 then some res.dropLast else none

/-! ### Parameters -/

/-- One parameter (parameters.rs:33-38). -/
def paramP : Parser (Bytes × Option Bytes) := do
  let _ ← oneOf spacesC
  let _ ← eatSpaces
  let key ← recognize (preceded (oneOf alnumC) (opt (isA alnumdashC)))
  let value ← opt (complete (preceded (tag b!"=") (isA graphExceptEquC)))
  return (key, value)

/-- `parse_parameters` (parameters.rs:31-41). -/
def parametersP : Parser Params := do
  let params ← many0 paramP
  return Params.collect params

/-! ### Commands -/

/-- `command_data_args` (data/mod.rs:32-35). -/
def dataArgs : Parser (Command L) := do
  let _ ← tagNoCase b!"DATA"
  let _ ← eatSpaces
  let _ ← crlfP
  return .data

/-- `command_ehlo_args` (ehlo/mod.rs:32-41): `sep!(eat_spaces, ..)` eats blanks before each part. -/
def ehloArgs : Parser (Command L) := do
  let _ ← eatSpaces
  let _ ← tagNoCase b!"EHLO"
  let _ ← eatSpaces
  let domain ← hostnameP
  let _ ← eatSpaces
  let _ ← tag b!"\r\n"
  return .ehlo domain

/-- `command_expn_args` (expn/mod.rs:27-34). -/
def expnArgs : Parser (Command L) := do
  let _ ← tagNoCase b!"EXPN"
  let _ ← oneOf spacesC
  let res ← takeUntil b!"\r\n"
  let _ ← tag b!"\r\n"
  return .expn res

/-- `command_helo_args` (helo/mod.rs:32-41). -/
def heloArgs : Parser (Command L) := do
  let _ ← eatSpaces
  let _ ← tagNoCase b!"HELO"
  let _ ← eatSpaces
  let domain ← hostnameP
  let _ ← eatSpaces
  let _ ← tag b!"\r\n"
  return .helo domain

/-- `command_help_args` (help/mod.rs:28-35). -/
def helpArgs : Parser (Command L) := do
  let _ ← tagNoCase b!"HELP"
  let _ ← opt (oneOf spacesC)
  let res ← takeUntil b!"\r\n"
  let _ ← tag b!"\r\n"
  return .help res

/-- `command_mail_args` (mail/mod.rs:44-55). -/
def mailArgs : Parser (Command L) := do
  let _ ← tagNoCase b!"MAIL FROM:"
  let _ ← eatSpaces
  let from_ ← alt (mapP (tag b!"<>") (fun _ => none)) (mapP maybeBracketedP some)
  let params ← parametersP
  let _ ← eatSpaces
  let _ ← crlfP
  return .mail from_ params

/-- `command_noop_args` (noop/mod.rs:27-34). -/
def noopArgs : Parser (Command L) := do
  let _ ← tagNoCase b!"NOOP"
  let _ ← opt (oneOf spacesC)
  let res ← takeUntil b!"\r\n"
  let _ ← tag b!"\r\n"
  return .noop res

/-- `command_quit_args` (quit/mod.rs:26-33). -/
def quitArgs : Parser (Command L) := do
  let _ ← tagNoCase b!"QUIT"
  let _ ← eatSpaces
  let _ ← crlfP
  return .quit

/-- `command_rcpt_args` (rcpt/mod.rs:35-43). -/
def rcptArgs : Parser (Command L) := do
  let _ ← tagNoCase b!"RCPT TO:"
  let _ ← eatSpaces
  let to ← maybeBracketedP
  let params ← parametersP
  let _ ← eatSpaces
  let _ ← crlfP
  return .rcpt to params

/-- `command_rset_args` (rset/mod.rs:26-33). -/
def rsetArgs : Parser (Command L) := do
  let _ ← tagNoCase b!"RSET"
  let _ ← eatSpaces
  let _ ← crlfP
  return .rset

/-- `command_vrfy_args` (vrfy/mod.rs:27-34). -/
def vrfyArgs : Parser (Command L) := do
  let _ ← tagNoCase b!"VRFY"
  let _ ← oneOf spacesC
  let res ← takeUntil b!"\r\n"
  let _ ← tag b!"\r\n"
  return .vrfy res

/-- `command` (command.rs:63-75). -/
def commandP : Parser (Command L) :=
  alt dataArgs <| alt ehloArgs <| alt expnArgs <| alt heloArgs <| alt helpArgs <| alt mailArgs <|
    alt noopArgs <| alt quitArgs <| alt rcptArgs <| alt rsetArgs vrfyArgs

/-- `Command::parse` (command.rs:42-44). -/
def Command.parse (arg : Bytes) : Except ParseErr (Command L) := nomToResult (commandP arg)

end
end Verif
