import Verif.Model.Data
import Verif.Model.Command
import Verif.Model.Reply
import Verif.Model.SliceParse
import Verif.Model.Ip
/-
The unit tests of smtp-message and smtp-server, replayed on the model by evaluation in the kernel. They prove nothing about
the properties; they check that the model is a model of this code: every value below is copied from a `#[test]` of /repo.
(The session tests of smtp-server/src/interact.rs are in Props/TestSuite.lean, the quickcheck tests in Props/Quickcheck.lean.)
-/
namespace Verif.Conformance
open Nom Ip

abbrev L : IpLib := stdIp 1

instance : DecidableEq L.V4 := inferInstanceAs (DecidableEq V4)
instance : DecidableEq L.V6 := inferInstanceAs (DecidableEq V6)

/-- `PartialEq` of `Domain` (domain.rs:15, derived). -/
def domEq : Domain L → Domain L → Bool
  | .host a, .host b => a == b
  | .v4 a, .v4 b => a == b
  | .v6 a, .v6 b => a == b
  | _, _ => false

/-- `PartialEq` of `Option<Domain>`. -/
def optDomEq : Option (Domain L) → Option (Domain L) → Bool
  | none, none => true
  | some a, some b => domEq a b
  | _, _ => false

/-- `PartialEq` of `Email` (email.rs:12, derived). -/
def emailEq (a b : Email L) : Bool := a.localpart == b.localpart && optDomEq a.hostname b.hostname

/-- `PartialEq` of `Option<Email>`. -/
def optEmailEq : Option (Email L) → Option (Email L) → Bool
  | none, none => true
  | some a, some b => emailEq a b
  | _, _ => false

/-- `Domain::parse_slice(b).unwrap()`, as an option. -/
def dom (b : Bytes) : Option (Domain L) :=
  match Domain.parse b with
  | .ok d => some d
  | .error _ => none

/-- `Email::parse_slice(b).unwrap()`, as an option. -/
def em (b : Bytes) : Option (Email L) :=
  match Email.parse b with
  | .ok d => some d
  | .error _ => none

/-- The parser is done, with nothing left, and the value passes `f`. -/
def all {α : Type} (p : Parser α) (i : Bytes) (f : α → Bool) : Bool :=
  match p i with
  | .done r a => r.isEmpty && f a
  | _ => false

/-- The parser is done and the value passes `f` (`.unwrap().1`). -/
def some' {α : Type} (p : Parser α) (i : Bytes) (f : α → Bool) : Bool :=
  match p i with
  | .done _ a => f a
  | _ => false

def isErr {α : Type} (p : Parser α) (i : Bytes) : Bool :=
  match p i with
  | .error => true
  | _ => false

def isIncomplete {α : Type} (p : Parser α) (i : Bytes) : Bool :=
  match p i with
  | .incomplete => true
  | _ => false

def isHost (s : Bytes) (d : Domain L) : Bool := domEq d (.host s)

set_option maxRecDepth 100000

/-! ### domain.rs:66-128 -/

/-- valid_hostnames -/
example : all hostnameP b!"foo--bar" (isHost b!"foo--bar") = true := by decide +kernel
example : all hostnameP b!"foo.bar.baz" (isHost b!"foo.bar.baz") = true := by decide +kernel
example : all hostnameP b!"1.2.3.4" (isHost b!"1.2.3.4") = true := by decide +kernel
example : all hostnameP b!"[123.255.37.2]" (fun d => domEq d (.v4 ⟨123, 255, 37, 2⟩)) = true := by decide +kernel
example : all hostnameP b!"[IPv6:0::ffff:8.7.6.5]"
    (fun d => match L.parse6 b!"0::ffff:8.7.6.5" with | some a => domEq d (.v6 a) | none => false) = true := by
  decide +kernel
/-- partial_hostnames -/
example : some' hostnameP b!"foo.-bar.baz" (isHost b!"foo") = true := by decide +kernel
example : some' hostnameP b!"foo.bar.-baz" (isHost b!"foo.bar") = true := by decide +kernel
/-- invalid_hostnames -/
example : isErr (hostnameP (L := L)) b!"-foo.bar" = true := by decide +kernel

/-! ### email.rs:130-285 -/

/-- valid_dot_strings -/
example : all dotStringP b!"helloooo" (· == b!"helloooo") = true := by decide +kernel
example : all dotStringP b!"test.ing" (· == b!"test.ing") = true := by decide +kernel
/-- valid_quoted_strings -/
def q1 : Bytes := b!"\"hello\""
def q2 : Bytes := b!"\"hello world. This |$ a g#eat place to experiment !\""
def q3 : Bytes := b!"\"\\\"escapes\\\", useless like h\\ere, except for quotes and \\\\backslashes\""
example : all quotedStringP q1 (· == q1) = true := by decide +kernel
example : all quotedStringP q2 (· == q2) = true := by decide +kernel
example : all quotedStringP q3 (· == q3) = true := by decide +kernel
/-- valid_emails -/
def mkEmail (l : Bytes) (h : Option Bytes) : Option (Email L) :=
  match h with
  | none => some ⟨l, none⟩
  | some h => (dom h).map fun d => ⟨l, some d⟩
def isEmail (l : Bytes) (h : Option Bytes) (e : Email L) : Bool := optEmailEq (some e) (mkEmail l h)
example : all emailP b!"t+e-s.t_i+n-g@foo.bar.baz" (isEmail b!"t+e-s.t_i+n-g" (some b!"foo.bar.baz")) = true := by
  decide +kernel
example : all emailP b!"\"quoted\\\"example\"@example.org"
    (isEmail b!"\"quoted\\\"example\"" (some b!"example.org")) = true := by decide +kernel
example : all emailP b!"postmaster" (isEmail b!"postmaster" none) = true := by decide +kernel
example : all emailP b!"test" (isEmail b!"test" none) = true := by decide +kernel
/-- nice_localpart -/
example : some' (emailP (L := L)) b!"t+e-s.t_i+n-g@foo.bar.baz " (·.localpartFn == some b!"t+e-s.t_i+n-g") = true := by
  decide +kernel
example : some' (emailP (L := L)) b!"\"quoted\\\"example\"@example.org " (·.localpartFn == some b!"quoted\"example") = true := by
  decide +kernel
example : some' (emailP (L := L)) b!"\"escaped\\\\exa\\mple\"@example.org "
    (·.localpartFn == some b!"escaped\\example") = true := by
  decide +kernel
/-- invalid_localpart -/
example : isErr (emailP (L := L)) b!"@foo.bar" = true := by decide +kernel
/-- valid_addresses_in_paths -/
example : all addressInPathP b!"@foo.bar,@baz.quux:test@example.org" (isEmail b!"test" (some b!"example.org")) = true := by
  decide +kernel
example : all addressInPathP b!"foo.bar@baz.quux" (isEmail b!"foo.bar" (some b!"baz.quux")) = true := by decide +kernel
/-- valid_addresses_in_maybe_bracketed_paths -/
example : all maybeBracketedP b!"@foo.bar,@baz.quux:test@example.org" (isEmail b!"test" (some b!"example.org")) = true := by
  decide +kernel
example : all maybeBracketedP b!"<@foo.bar,@baz.quux:test@example.org>" (isEmail b!"test" (some b!"example.org")) = true := by
  decide +kernel
example : all maybeBracketedP b!"<foo@bar.baz>" (isEmail b!"foo" (some b!"bar.baz")) = true := by decide +kernel
example : all maybeBracketedP b!"foo@bar.baz" (isEmail b!"foo" (some b!"bar.baz")) = true := by decide +kernel
example : all maybeBracketedP b!"foobar" (isEmail b!"foobar" none) = true := by decide +kernel

/-! ### parameters.rs:46-82 -/

/-- valid_parameters -/
example : all parametersP b!" key=value" (· == [(b!"key", some b!"value")]) = true := by decide +kernel
example : all parametersP b!"\tkey=value\tkey2=value2"
    (· == [(b!"key", some b!"value"), (b!"key2", some b!"value2")]) = true := by decide +kernel
example : all parametersP b!" KeY2=V4\"l\\u@e.z\t0tterkeyz=very_muchWh4t3ver"
    (· == [(b!"KeY2", some b!"V4\"l\\u@e.z"), (b!"0tterkeyz", some b!"very_muchWh4t3ver")]) = true := by decide +kernel
example : all parametersP b!" NoValueKey" (· == [(b!"NoValueKey", none)]) = true := by decide +kernel
example : all parametersP b!" A B" (· == [(b!"A", none), (b!"B", none)]) = true := by decide +kernel
example : all parametersP b!" A=B C D=SP" (· == [(b!"A", some b!"B"), (b!"C", none), (b!"D", some b!"SP")]) = true := by
  decide +kernel

/-! ### the eleven command modules -/

/-- `PartialEq` of `Command`; the parameters are compared in the order of the text. -/
def cmdEq : Command L → Command L → Bool
  | .data, .data => true
  | .ehlo a, .ehlo b => domEq a b
  | .expn a, .expn b => a == b
  | .helo a, .helo b => domEq a b
  | .help a, .help b => a == b
  | .mail a p, .mail b q => optEmailEq a b && p == q
  | .noop a, .noop b => a == b
  | .quit, .quit => true
  | .rcpt a p, .rcpt b q => emailEq a b && p == q
  | .rset, .rset => true
  | .vrfy a, .vrfy b => a == b
  | _, _ => false

/-- data/mod.rs valid_command_data_args, valid_command_data_build -/
example : all dataArgs b!"DATA \t  \t \r\n" (cmdEq .data) = true := by decide +kernel
example : all dataArgs b!"daTa\r\n" (cmdEq .data) = true := by decide +kernel
example : (Command.data (L := L)).sendTo = b!"DATA\r\n" := by decide +kernel
/-- ehlo/mod.rs valid_command_ehlo_args, valid_builds -/
example : all ehloArgs b!"eHlO \t hello.world \t \r\n" (cmdEq (.ehlo (.host b!"hello.world"))) = true := by decide +kernel
example : all ehloArgs b!"EHLO hello.world\r\n" (cmdEq (.ehlo (.host b!"hello.world"))) = true := by decide +kernel
example : (dom b!"test.foo.bar").map (fun d => (Command.ehlo d).sendTo) = some b!"EHLO test.foo.bar\r\n" := by
  decide +kernel
example : (dom b!"test.").isNone ∧ (dom b!"test.foo.bar ").isNone ∧ (dom b!"-test.foo.bar").isNone := by decide +kernel
/-- expn/mod.rs valid_command_expn_args, valid_build -/
example : all expnArgs b!"EXpN \t hello.world \t \r\n" (cmdEq (.expn b!"\t hello.world \t ")) = true := by decide +kernel
example : (Command.expn (L := L) b!"foobar").sendTo = b!"EXPN foobar\r\n" := by decide +kernel
/-- helo/mod.rs valid_command_helo_args, valid_build -/
example : all heloArgs b!"hElO\t hello.world \t \r\n" (cmdEq (.helo (.host b!"hello.world"))) = true := by decide +kernel
example : all heloArgs b!"HELO hello.world\r\n" (cmdEq (.helo (.host b!"hello.world"))) = true := by decide +kernel
example : (dom b!"test.example.org").map (fun d => (Command.helo d).sendTo) = some b!"HELO test.example.org\r\n" := by
  decide +kernel
/-- help/mod.rs valid_command_help_args, valid_build -/
example : all helpArgs b!"help \t hello.world \t \r\n" (cmdEq (.help b!"\t hello.world \t ")) = true := by decide +kernel
example : all helpArgs b!"HELP\r\n" (cmdEq (.help b!"")) = true := by decide +kernel
example : all helpArgs b!"hElP \r\n" (cmdEq (.help b!"")) = true := by decide +kernel
example : (Command.help (L := L) b!"topic").sendTo = b!"HELP topic\r\n" := by decide +kernel
/-- mail/mod.rs valid_command_mail_args, incomplete_args, valid_send_to -/
example : all mailArgs b!"Mail FROM:<@one,@two:foo@bar.baz>\r\n"
    (fun c => (em b!"foo@bar.baz").isSome && cmdEq c (.mail (em b!"foo@bar.baz") [])) = true := by decide +kernel
example : all mailArgs b!"MaiL FrOm: quux@example.net  \t \r\n"
    (fun c => (em b!"quux@example.net").isSome && cmdEq c (.mail (em b!"quux@example.net") [])) = true := by decide +kernel
example : all mailArgs b!"mail FROM:<>\r\n" (cmdEq (.mail none [])) = true := by decide +kernel
example : all mailArgs b!"MAIL FROM:<> hello=world foo\r\n"
    (cmdEq (.mail none [(b!"hello", some b!"world"), (b!"foo", none)])) = true := by decide +kernel
example : isIncomplete (mailArgs (L := L)) b!"MAIL FROM:<foo@bar.com" = true := by decide +kernel
example : isIncomplete (mailArgs (L := L)) b!"mail from:foo@bar.com" = true := by decide +kernel
example : (em b!"foo@bar.baz").map (fun e => (Command.mail (some e) []).sendTo) = some b!"MAIL FROM:<foo@bar.baz>\r\n" := by
  decide +kernel
example : (Command.mail (L := L) none []).sendTo = b!"MAIL FROM:<>\r\n" := by decide +kernel
def c3 : Option (Command L) := (em b!"hello@world.example.org").map fun e =>
  .mail (some e) [(b!"foo", some b!"bar"), (b!"baz", none), (b!"helloworld", some b!"bleh")]
example : c3.map (·.sendTo) = some b!"MAIL FROM:<hello@world.example.org> foo=bar baz helloworld=bleh\r\n" := by
  decide +kernel
example : c3.map (fun c => all mailArgs c.sendTo (cmdEq c)) = some true := by decide +kernel
/-- noop/mod.rs valid_command_noop_args, valid_send_to -/
example : all noopArgs b!"NOOP \t hello.world \t \r\n" (cmdEq (.noop b!"\t hello.world \t ")) = true := by decide +kernel
example : all noopArgs b!"nOoP\r\n" (cmdEq (.noop b!"")) = true := by decide +kernel
example : all noopArgs b!"noop \r\n" (cmdEq (.noop b!"")) = true := by decide +kernel
example : (Command.noop (L := L) b!"useless string").sendTo = b!"NOOP useless string\r\n" := by decide +kernel
/-- quit/mod.rs valid_command_quit_args, valid_build -/
example : all quitArgs b!"QUIT \t  \t \r\n" (cmdEq .quit) = true := by decide +kernel
example : all quitArgs b!"quit\r\n" (cmdEq .quit) = true := by decide +kernel
example : (Command.quit (L := L)).sendTo = b!"QUIT\r\n" := by decide +kernel
/-- rcpt/mod.rs valid_command_rcpt_args, valid_build -/
def isRcpt (l : Bytes) (h : Option Bytes) : Command L → Bool
  | .rcpt e _ => isEmail l h e
  | _ => false
example : some' rcptArgs b!"RCPT TO:<@one,@two:foo@bar.baz>\r\n" (isRcpt b!"foo" (some b!"bar.baz")) = true := by
  decide +kernel
example : some' rcptArgs b!"Rcpt tO: quux@example.net  \t \r\n" (isRcpt b!"quux" (some b!"example.net")) = true := by
  decide +kernel
example : some' rcptArgs b!"rcpt TO:<Postmaster>\r\n" (isRcpt b!"Postmaster" none) = true := by decide +kernel
example : some' rcptArgs b!"RcPt TO: \t poStmaster\r\n" (isRcpt b!"poStmaster" none) = true := by decide +kernel
example : (mkEmail b!"foo" (some b!"bar.com")).map (fun e => (Command.rcpt e []).sendTo) =
    some b!"RCPT TO:<foo@bar.com>\r\n" := by decide +kernel
example : (Command.rcpt (L := L) ⟨b!"Postmaster", none⟩ []).sendTo = b!"RCPT TO:<Postmaster>\r\n" := by decide +kernel
/-- rset/mod.rs valid_command_rset_args, valid_send_to -/
example : all rsetArgs b!"RSET \t  \t \r\n" (cmdEq .rset) = true := by decide +kernel
example : all rsetArgs b!"rSet\r\n" (cmdEq .rset) = true := by decide +kernel
example : (Command.rset (L := L)).sendTo = b!"RSET\r\n" := by decide +kernel
/-- vrfy/mod.rs valid_command_vrfy_args, valid_send_to -/
example : all vrfyArgs b!"VrFY \t hello.world \t \r\n" (cmdEq (.vrfy b!"\t hello.world \t ")) = true := by decide +kernel
example : (Command.vrfy (L := L) b!"postmaster").sendTo = b!"VRFY postmaster\r\n" := by decide +kernel

/-! ### command.rs:105-259 -/

/-- valid_command -/
example : some' commandP b!"DATA\r\n" (cmdEq .data) = true := by decide +kernel
example : some' commandP b!"EHLO foo.bar.baz\r\n" (cmdEq (.ehlo (.host b!"foo.bar.baz"))) = true := by decide +kernel
example : some' commandP b!"EXPN mailing.list \r\n" (cmdEq (.expn b!"mailing.list ")) = true := by decide +kernel
example : some' commandP b!"HELO foo.bar.baz\r\n" (cmdEq (.helo (.host b!"foo.bar.baz"))) = true := by decide +kernel
example : some' commandP b!"HELP foo.bar.baz\r\n" (cmdEq (.help b!"foo.bar.baz")) = true := by decide +kernel
example : some' commandP b!"HELP \r\n" (cmdEq (.help b!"")) = true := by decide +kernel
example : some' commandP b!"HELP\r\n" (cmdEq (.help b!"")) = true := by decide +kernel
example : some' commandP b!"MAIL FROM:<hello@world.example>\r\n"
    (fun c => (mkEmail b!"hello" (some b!"world.example")).isSome &&
      cmdEq c (.mail (mkEmail b!"hello" (some b!"world.example")) [])) = true := by decide +kernel
example : some' commandP b!"NOOP\r\n" (cmdEq (.noop b!"")) = true := by decide +kernel
example : some' commandP b!"QUIT\r\n" (cmdEq .quit) = true := by decide +kernel
example : some' commandP b!"rCpT To: foo@bar.baz\r\n" (isRcpt b!"foo" (some b!"bar.baz")) = true := by decide +kernel
example : some' commandP b!"RCPT to:<@foo.bar,@bar.baz:baz@quux.foo>\r\n" (isRcpt b!"baz" (some b!"quux.foo")) = true := by
  decide +kernel
example : some' commandP b!"RSET\r\n" (cmdEq .rset) = true := by decide +kernel
example : some' commandP b!"RsEt \t \r\n" (cmdEq .rset) = true := by decide +kernel
example : some' commandP b!"VRFY  root\r\n" (cmdEq (.vrfy b!" root")) = true := by decide +kernel
/-- do_send_ok -/
example : (Command.vrfy (L := L) b!"fubar").sendTo = b!"VRFY fubar\r\n" := by decide +kernel
/-- benches/benches.rs:11-38: all of them parse. -/
example : ([b!"DATA\r\n", b!"EHLO example.org\r\n", b!"EXPN test\r\n", b!"HELO example.org\r\n", b!"HELP stuff\r\n",
    b!"MAIL FROM:<@example.com,@example.org:test@example.net> FOO=BAR BAZ\r\n", b!"NOOP things\r\n", b!"QUIT\r\n",
    b!"RCPT TO:<@example.org,@example.com:foo@example.net> THINGS=DONE MAYBE\r\n", b!"RSET\r\n", b!"VRFY root\r\n"].all
    fun l => all (commandP (L := L)) l fun _ => true) = true := by decide +kernel

/-! ### reply.rs:155-248 -/

/-- reply_not_last, reply_last -/
example : ReplyLine.build ⟨220⟩ .no b!"hello world!" = .ok ⟨⟨220⟩, .no, b!"hello world!"⟩ := by rfl
example : (⟨⟨220⟩, .no, b!"hello world!"⟩ : ReplyLine).sendTo = b!"220-hello world!\r\n" := by decide +kernel
example : ReplyLine.build ⟨502⟩ .yes b!"test" = .ok ⟨⟨502⟩, .yes, b!"test"⟩ := by rfl
example : (⟨⟨502⟩, .yes, b!"test"⟩ : ReplyLine).sendTo = b!"502 test\r\n" := by decide +kernel
/-- refuse_build -/
example : (ReplyLine.build ⟨552⟩ .yes (List.replicate 1000 97)).toOption = none := by decide +kernel
example : (ReplyLine.build ⟨552⟩ .no b!"\r").toOption = none := by decide +kernel
/-- parse_ok -/
example : ReplyLine.parser b!"250 All is well\r\n" = .done [] ⟨⟨250⟩, .yes, b!"All is well"⟩ := by decide +kernel
example : ReplyLine.parser b!"450-Temporary\r\n" = .done [] ⟨⟨450⟩, .no, b!"Temporary"⟩ := by decide +kernel
example : ReplyLine.parser b!"354-Please do start input now\r\n" =
    .done [] ⟨⟨354⟩, .no, b!"Please do start input now"⟩ := by decide +kernel
example : ReplyLine.parser b!"550 Something is really very wrong!\r\n" =
    .done [] ⟨⟨550⟩, .yes, b!"Something is really very wrong!"⟩ := by decide +kernel

/-! ### data/sink.rs:77-107, data/stream.rs:206-277, crlflines.rs:37-72 -/

/-- valid_data_sink -/
def onWire (v : List Bytes) : Option Bytes := (DSink.sendMessage ⟨[], []⟩ v).map (·.2.out.flatten)
example : onWire [b!"foo", b!" bar"] = some b!"foo bar\r\n.\r\n" := by decide +kernel
example : onWire [b!""] = some b!".\r\n" := by decide +kernel
example : onWire [b!"."] = some b!"..\r\n.\r\n" := by decide +kernel
example : onWire [b!"foo\r"] = some b!"foo\r\r\n.\r\n" := by decide +kernel
example : onWire [b!"foo bar\r", b!"\n"] = some b!"foo bar\r\n.\r\n" := by decide +kernel

/-- `readAll` with a number of polls, so that it can be evaluated. -/
def readN : Nat → DStream → Option (List Bytes × DStream)
  | 0, _ => none
  | n + 1, d =>
    match d.pollNext with
    | (.ready none, d') => some ([], d')
    | (.ready (some o), d') => (readN n d').map fun x => (o :: x.1, x.2)
    | (.pending, d') => readN n d'

theorem readN_spec : ∀ (n : Nat) (d : DStream) (r : List Bytes × DStream), readN n d = some r → d.readAll = r
  | 0, _, _, h => by cases h
  | n + 1, d, r, h => by
    rw [DStream.readAll]
    unfold readN at h
    split <;> rename_i h'
    · rw [h'] at h; simpa using h
    · rw [h'] at h
      dsimp only at h
      cases h2 : readN n _ with
      | none => rw [h2] at h; cases h
      | some x =>
        rw [h2] at h
        have := readN_spec n _ x h2
        rw [this]
        simpa using h
    · rw [h'] at h
      exact readN_spec n _ r h

/-- What valid_data_stream computes: the text, and what is left for the next reader after `complete().unwrap()`. -/
def decodeTest (inp : List Bytes) : Option (Bytes × Bytes) := do
  let (out, d) ← readN 50 (DStream.new (Prep.new (inp.map .pkt)))
  match d.complete with
  | .ok (true, d) => some (out.flatten, d.source.items.flatten)
  | _ => none
example : decodeTest [b!"foo", b!" bar", b!"\r\n", b!".\r", b!"\n"] = some (b!"foo bar\r\n", b!"") := by decide +kernel
example : decodeTest [b!"\r\n.\r\n", b!"\r\n"] = some (b!"\r\n", b!"\r\n") := by decide +kernel
example : decodeTest [b!".baz\r\n", b!".\r\n", b!"foo"] = some (b!"baz\r\n", b!"foo") := by decide +kernel
example : decodeTest [b!" .baz", b!"\r\n.", b!"\r\nfoo"] = some (b!" .baz\r\n", b!"foo") := by decide +kernel
example : decodeTest [b!".\r\n", b!"MAIL FROM"] = some (b!"", b!"MAIL FROM") := by decide +kernel
example : decodeTest [b!"..\r\n.\r\n"] = some (b!".\r\n", b!"") := by decide +kernel
example : decodeTest [b!"foo\r\n. ", b!"bar\r\n.\r\n"] = some (b!"foo\r\n bar\r\n", b!"") := by decide +kernel

/-- crlflines_looks_good (the test reads the stream itself; so do we, and line by line). -/
def session : List (SrcEv Bytes) := [b!"MAIL FROM:<foo@bar.example.org>\r\n", b!"RCPT TO:<baz@quux.example.org>\r\n",
  b!"RCPT TO:<foo2@bar.example.org>\r\n", b!"DATA\r\n", b!"Hello World\r\n", b!".\r\n", b!"QUIT\r\n"].map .pkt
example : (Prep.new session).items = [b!"MAIL FROM:<foo@bar.example.org>\r\n", b!"RCPT TO:<baz@quux.example.org>\r\n",
  b!"RCPT TO:<foo2@bar.example.org>\r\n", b!"DATA\r\n", b!"Hello World\r\n", b!".\r\n", b!"QUIT\r\n"] := by decide +kernel
def lineOf (s : List (SrcEv Bytes)) : Option (Option Bytes × List Bytes) :=
  match nextCrlfLine (Prep.new s) with
  | .ok (l, p) => some (l, p.items)
  | .error _ => none
example : lineOf (session.take 2) = some (some b!"MAIL FROM:<foo@bar.example.org>\r\n",
    [b!"", b!"RCPT TO:<baz@quux.example.org>\r\n"]) := by decide +kernel

/-! ### the same parsers on byte slices (Model/SliceParse.lean); C72 says they agree with the ones above on all inputs -/

def sliceOk (x : Option (Except ParseErr (Command L))) (f : Command L → Bool) : Bool :=
  match x with
  | some (.ok c) => f c
  | _ => false
example : sliceOk (SliceParse.commandParse 7 b!"VRFY  root\r\n") (cmdEq (.vrfy b!" root")) = true := by decide +kernel

/-! ### benches/benches.rs: its inputs, with what the benchmarked calls return -/

/-- parse_command: the commands of benches.rs:12-27, and what they are. -/
def benchCommands : List (Bytes × (Command L → Bool)) := [
  (b!"DATA\r\n", fun c => match c with | .data => true | _ => false),
  (b!"EHLO example.org\r\n", fun c => match c with | .ehlo d => isHost b!"example.org" d | _ => false),
  (b!"EXPN test\r\n", cmdEq (.expn b!"test")),
  (b!"HELO example.org\r\n", fun c => match c with | .helo d => isHost b!"example.org" d | _ => false),
  (b!"HELP stuff\r\n", cmdEq (.help b!"stuff")),
  (b!"MAIL FROM:<@example.com,@example.org:test@example.net> FOO=BAR BAZ\r\n", fun c => match c with
    | .mail e ps => optEmailEq e (em b!"test@example.net") && ps == [(b!"FOO", some b!"BAR"), (b!"BAZ", none)]
    | _ => false),
  (b!"NOOP things\r\n", cmdEq (.noop b!"things")),
  (b!"QUIT\r\n", fun c => match c with | .quit => true | _ => false),
  (b!"RCPT TO:<@example.org,@example.com:foo@example.net> THINGS=DONE MAYBE\r\n", fun c => match c with
    | .rcpt e ps => optEmailEq (some e) (em b!"foo@example.net") && ps == [(b!"THINGS", some b!"DONE"), (b!"MAYBE", none)]
    | _ => false),
  (b!"RSET\r\n", fun c => match c with | .rset => true | _ => false),
  (b!"VRFY root\r\n", cmdEq (.vrfy b!"root"))]
example : benchCommands.all (fun b => match Command.parse b.1 with | .ok c => b.2 c | .error _ => false) = true := by
  decide +kernel
/-- parse_data_stream: one packet, two items. -/
example : (readN 50 (DStream.new (Prep.new [.pkt b!"Blah blah blah...\r\n...etc. etc. etc.\r\n.\r\n"]))).map (·.1) =
    some [b!"Blah blah blah...\r\n", b!"..etc. etc. etc.\r\n"] := by decide +kernel
/-- output_data_sink -/
example : onWire [b!"Blah blah blah...\r\n..etc. etc. etc.\r\n"] =
    some b!"Blah blah blah...\r\n...etc. etc. etc.\r\n.\r\n" := by decide +kernel

end Verif.Conformance
