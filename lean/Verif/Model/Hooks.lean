import Verif.Model.Server
/-
Model of the provided methods of `trait Config` (smtp-server/src/config.rs): an implementation gives the
required methods and overrides any of the provided ones; a provided method that is not overridden has the
body written in the trait, which may call other methods of the same object.
-/
namespace Verif

/-- An `impl Config<U> for S` (config.rs:14-130): the required methods, and for each provided method the
override, if there is one. -/
structure Impl (L : IpLib) (S U : Type) extends Required L S U where
  newMail? : Option (S → S) := none
  filterData? : Option (S → U → MailMeta L → Decision × MailMeta L × S × U) := none
  banner? : Option (S → Bytes) := none
  welcomeBanner? : Option (S → Reply) := none
  okay? : Option (S → Reply) := none
  mailOkay? : Option (S → Reply) := none
  rcptOkay? : Option (S → Reply) := none
  dataOkay? : Option (S → Reply) := none
  mailAccepted? : Option (S → Reply) := none
  badSequence? : Option (S → Reply) := none
  alreadyInMail? : Option (S → Reply) := none
  rcptBeforeMail? : Option (S → Reply) := none
  dataBeforeRcpt? : Option (S → Reply) := none
  dataBeforeMail? : Option (S → Reply) := none
  commandUnimplemented? : Option (S → Reply) := none
  commandUnrecognized? : Option (S → Reply) := none

namespace Impl
variable {L : IpLib} {S U : Type} (I : Impl L S U)

/-- `banner` (config.rs:57-59) -/
def banner (s : S) : Bytes := match I.banner? with
  | some f => f s
  | none => b!"Service ready"

/-- `okay` (config.rs:71-73) -/
def okay (s : S) : Reply := match I.okay? with
  | some f => f s
  | none => (.okay, b!"Okay")

/-- `bad_sequence` (config.rs:94-99) -/
def badSequence (s : S) : Reply := match I.badSequence? with
  | some f => f s
  | none => (.badSequence, b!"Bad sequence of commands")

/-- The methods `interact` calls, after the resolution of the provided ones: `new_mail` (config.rs:15-17),
`filter_data` (config.rs:31-38), `welcome_banner` (config.rs:63-68), `mail_okay`, `rcpt_okay` (config.rs:75-81),
`data_okay` (config.rs:83-88), `mail_accepted` (config.rs:90-92), the four sequence errors
(config.rs:101-115), `command_unimplemented` and `command_unrecognized` (config.rs:117-129). -/
def toConfig : Config L S U where
  newMail := match I.newMail? with
    | some f => f
    | none => fun s => s
  filterFrom := I.filterFrom
  filterTo := I.filterTo
  filterData := match I.filterData? with
    | some f => f
    | none => fun s u m => (.accept, m, s, u)
  handleMail := I.handleMail
  welcomeBanner := match I.welcomeBanner? with
    | some f => f
    | none => fun s => (.serviceReady, I.hostname s ++ b!" " ++ I.banner s)
  mailOkay := match I.mailOkay? with
    | some f => f
    | none => fun s => I.okay s
  rcptOkay := match I.rcptOkay? with
    | some f => f
    | none => fun s => I.okay s
  dataOkay := match I.dataOkay? with
    | some f => f
    | none => fun _ => (.startMailInput, b!"Start mail input; end with <CRLF>.<CRLF>")
  mailAccepted := match I.mailAccepted? with
    | some f => f
    | none => fun s => I.okay s
  alreadyInMail := match I.alreadyInMail? with
    | some f => f
    | none => fun s => I.badSequence s
  rcptBeforeMail := match I.rcptBeforeMail? with
    | some f => f
    | none => fun s => I.badSequence s
  dataBeforeRcpt := match I.dataBeforeRcpt? with
    | some f => f
    | none => fun s => I.badSequence s
  dataBeforeMail := match I.dataBeforeMail? with
    | some f => f
    | none => fun s => I.badSequence s
  commandUnimplemented := match I.commandUnimplemented? with
    | some f => f
    | none => fun _ => (.commandUnimplemented, b!"Command not implemented")
  commandUnrecognized := match I.commandUnrecognized? with
    | some f => f
    | none => fun _ => (.commandUnrecognized, b!"Command not recognized")

end Impl
end Verif
