import Verif.Model.Server
/-
The configuration of the project's own session tests (smtp-server/src/interact.rs:192-262): the only implementation of
`Config` in the repository that compiles against the current trait.
-/
namespace Verif
variable {L : IpLib}

/-- `mails` of `TestConfig` (interact.rs:192-194): sender, recipients and text of each stored message. The mutex around
it is not modelled: nobody else holds it during a session. -/
abbrev MailBox (L : IpLib) := List (Option (Email L) × List (Email L) × Bytes)

/-- `*addr == Some(Email::parse_slice(b"bad@quux.example.org").unwrap())` (interact.rs:206), the equality being the
derived one. -/
def isBadSender : Option (Email L) → Bool
  | some ⟨l, some (.host h)⟩ => l = b!"bad" && h = b!"quux.example.org"
  | _ => false

/-- `mail_text.windows(5).position(|x| x == b"World").is_some()` (interact.rs:250). -/
def saysWorld : Bytes → Bool
  | [] => false
  | c :: r => (c :: r).take 5 = b!"World" || saysWorld r

/-- The result of `reader.concat().await` (interact.rs:244): the chunks of all polls, in order. -/
def concatOf : List HObs → Bytes
  | [] => []
  | .polled (.ready (some c)) :: h => c ++ concatOf h
  | _ :: h => concatOf h

/-- `TestConfig::handle_mail` (interact.rs:234-262) as a function of what it has seen: `concat` polls until the end of
the stream, then `complete()` is called, then the decision is taken. -/
def testHandle (box : MailBox L) (m : MailMeta L) (h : List HObs) : HAct (MailBox L) Unit :=
  match h.getLast? with
  | some (.completed false) => .done (.reject ⟨⟨503⟩, b!"Closed the channel before end of message"⟩) box ()
  | some (.completed true) =>
    if saysWorld (concatOf h) then .done (.reject ⟨⟨550⟩, b!"Don't you dare say 'World'!"⟩) box ()
    else .done .accept (box ++ [(m.from_, m.to, concatOf h)]) ()
  | some (.polled (.ready none)) => .complete
  | _ => .poll

/-- `TestConfig` (interact.rs:196-262). `email.localpart()` in `filter_to` panics when the model's `localpartFn` is
`none`; the model compares with `some`, and C73 shows that `none` does not occur. -/
def testRequired (L : IpLib) : Required L (MailBox L) Unit where
  hostname _ := b!"test.example.org"
  filterFrom s u a := (if isBadSender a then .reject ⟨⟨550⟩, b!"User 'bad' banned"⟩ else .accept, a, s, u)
  filterTo s u e m := (if e.localpartFn = some b!"baz" then .reject ⟨⟨550⟩, b!"No user 'baz'"⟩ else .accept, e, m, s, u)
  handleMail s _ m h := testHandle s m h

/-- The configuration with the default methods of the trait. -/
abbrev testConfig (L : IpLib) : Config L (MailBox L) Unit := (testRequired L).toConfig

end Verif
