import Verif.Model.Server
/-
The configuration of the fuzz target smtp-server/fuzz/fuzz_targets/fuzz_interact.rs. The target is written for an older
version of the trait (callbacks that take and return everything) and does not compile at this commit; this is its port to
the present trait: `&mut` arguments instead of returned ones, and `complete()` in place of `concat_and_recover` and
`into_inner`.
-/
namespace Verif
variable {L : IpLib}

/-- `loc.bytes()`, `locb.len() >= 2 && locb[0] > locb[1]` (fuzz_interact.rs:38-40, 65-67). `localpart()` panics when the model's
`localpartFn` is `none`; C102 shows that this does not occur. -/
def fuzzLikes (a : Email L) : Bool :=
  match a.localpartFn with
  | some (x :: y :: _) => y < x
  | _ => false

/-- `handle_mail` (fuzz_interact.rs:84-121): read to the end, then decide by the number of recipients. -/
def fuzzHandle (m : MailMeta L) (h : List HObs) : HAct Unit Unit :=
  match h.getLast? with
  | some (.completed _) =>
    .done (if m.to.length > 3 then .reject ⟨⟨550⟩, b!"Too many recipients!"⟩ else .accept) () ()
  | some (.polled (.ready none)) => .complete
  | _ => .poll

/-- `FuzzConfig` (fuzz_interact.rs:25-122). -/
def fuzzRequired (L : IpLib) : Required L Unit Unit where
  hostname _ := b!"test.example.org"
  filterFrom s u a := (match a with
    | some a => if fuzzLikes a then .accept else .reject ⟨⟨550⟩, b!"forbidden user"⟩
    | none => .accept, a, s, u)
  filterTo s u e m := (if fuzzLikes e then .accept else .reject ⟨⟨550⟩, b!"forbidden user"⟩, e, m, s, u)
  handleMail _ _ m h := fuzzHandle m h

/-- The configuration with the default methods of the trait. -/
abbrev fuzzConfig (L : IpLib) : Config L Unit Unit := (fuzzRequired L).toConfig

/-- The body of the fuzz target (fuzz_interact.rs:124-137): one packet after the other, all of them ready, and a sink that takes
everything. -/
def fuzzInteract (L : IpLib) (fuel : Nat) (data : List Bytes) : Res Unit × World L Unit Unit :=
  Server.interact (fuzzConfig L) fuel (data.map .pkt) ⟨[], []⟩ () ()

end Verif
