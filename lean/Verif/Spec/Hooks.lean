import Verif.Model.Hooks
import Verif.Spec.Server
/-
Specification for C92: which replies a configuration words, when two configurations differ in their wording
only, and when two records of a session tell the same story.
-/
namespace Verif.Spec
variable {L : IpLib} {S U : Type}

/-- The occasions on which the server says something the configuration words. -/
inductive Hook where
  | welcomeBanner | mailOkay | rcptOkay | dataOkay | mailAccepted
  | alreadyInMail | rcptBeforeMail | dataBeforeRcpt | dataBeforeMail
  | commandUnimplemented | commandUnrecognized
  deriving DecidableEq, Repr

/-- The reply of a configuration on an occasion. -/
def says (C : Config L S U) : Hook → S → Reply
  | .welcomeBanner => C.welcomeBanner
  | .mailOkay => C.mailOkay
  | .rcptOkay => C.rcptOkay
  | .dataOkay => C.dataOkay
  | .mailAccepted => C.mailAccepted
  | .alreadyInMail => C.alreadyInMail
  | .rcptBeforeMail => C.rcptBeforeMail
  | .dataBeforeRcpt => C.dataBeforeRcpt
  | .dataBeforeMail => C.dataBeforeMail
  | .commandUnimplemented => C.commandUnimplemented
  | .commandUnrecognized => C.commandUnrecognized

/-- Two configurations that do the same and may say it differently. -/
structure SameCallbacks (C D : Config L S U) : Prop where
  newMail : C.newMail = D.newMail
  filterFrom : C.filterFrom = D.filterFrom
  filterTo : C.filterTo = D.filterTo
  filterData : C.filterData = D.filterData
  handleMail : C.handleMail = D.handleMail

/-- Every reply the configuration words can be sent. -/
def Speakable (C : Config L S U) : Prop := ∀ h s, Sendable (says C h s)

/-- The number of lines a text is sent as: one per 506 bytes or part of 506 bytes. -/
def replyLineCount (text : Bytes) : Nat := (text.length + 505) / 506

/-- The replies of both configurations have the same number of lines, occasion by occasion. -/
def SameLineCounts (C D : Config L S U) : Prop :=
  ∀ h s, replyLineCount (says C h s).2 = replyLineCount (says D h s).2

/-- Two events of the same meaning: the same event, or the replies of both configurations on the same
occasion, in the same state. -/
inductive SameEvent (C D : Config L S U) : Ev L → Ev L → Prop
  | same (e : Ev L) : SameEvent C D e e
  | said (h : Hook) (s : S) : SameEvent C D (.reply (says C h s)) (.reply (says D h s))

/-- Two records that tell the same story, event by event. -/
inductive SameStory (C D : Config L S U) : List (Ev L) → List (Ev L) → Prop
  | nil : SameStory C D [] []
  | cons {e e' t t'} : SameEvent C D e e' → SameStory C D t t' → SameStory C D (e :: t) (e' :: t')

/-- The events that are not replies. -/
def notReply : Ev L → Bool
  | .reply _ => false
  | _ => true

end Verif.Spec

namespace Verif.Spec
variable {L : IpLib} {S U : Type}

/-- The override an implementation gives for an occasion, if it gives one. -/
def override (I : Impl L S U) : Hook → Option (S → Reply)
  | .welcomeBanner => I.welcomeBanner?
  | .mailOkay => I.mailOkay?
  | .rcptOkay => I.rcptOkay?
  | .dataOkay => I.dataOkay?
  | .mailAccepted => I.mailAccepted?
  | .alreadyInMail => I.alreadyInMail?
  | .rcptBeforeMail => I.rcptBeforeMail?
  | .dataBeforeRcpt => I.dataBeforeRcpt?
  | .dataBeforeMail => I.dataBeforeMail?
  | .commandUnimplemented => I.commandUnimplemented?
  | .commandUnrecognized => I.commandUnrecognized?

/-- The occasions on which something went well: without an override, `okay()` is said. -/
def Hook.IsOkay : Hook → Prop
  | .mailOkay | .rcptOkay | .mailAccepted => True
  | _ => False

/-- The occasions on which a command came out of order: without an override, `bad_sequence()` is said. -/
def Hook.IsSequence : Hook → Prop
  | .alreadyInMail | .rcptBeforeMail | .dataBeforeRcpt | .dataBeforeMail => True
  | _ => False

/-- Two implementations that differ at most in the methods that word replies. -/
structure SameBehaviour (I J : Impl L S U) : Prop where
  filterFrom : I.filterFrom = J.filterFrom
  filterTo : I.filterTo = J.filterTo
  handleMail : I.handleMail = J.handleMail
  newMail : I.newMail? = J.newMail?
  filterData : I.filterData? = J.filterData?

/-- Every text the implementation chooses can be sent: its host name, and the methods it overrides. -/
structure SendableTexts (I : Impl L S U) : Prop where
  hostname : ∀ s, ∀ b ∈ I.hostname s, TextByte b
  banner : ∀ f, I.banner? = some f → ∀ s, ∀ b ∈ f s, TextByte b
  okay : ∀ f, I.okay? = some f → ∀ s, Sendable (f s)
  badSequence : ∀ f, I.badSequence? = some f → ∀ s, Sendable (f s)
  rest : ∀ h f, override I h = some f → ∀ s, Sendable (f s)

end Verif.Spec
