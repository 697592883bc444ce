import Verif.Spec.EndToEnd
import Verif.Spec.Streams
/-
Notions used to state what happens to a mail that is passed on from server to server.
-/
namespace Verif.Spec
variable {L : IpLib} {S U : Type}

/-- A mail as a server has it: envelope, text, and whether the message was complete. -/
abbrev Stored (L : IpLib) := MailMeta L × Bytes × Bool

/-- The addresses of an envelope obey the grammar. -/
def WFEnvelope (m : MailMeta L) : Prop := (∀ a, m.from_ = some a → WFEmail a) ∧ ∀ t ∈ m.to, WFEmail t

/-- Filters may rewrite addresses (aliases, sender rewriting), but into addresses that obey the grammar, and `filter_data` leaves
a recipient. -/
structure WFFilters (C : Config L S U) : Prop where
  from_ : ∀ s u f, (∀ a, f = some a → WFEmail a) → ∀ a, (C.filterFrom s u f).2.1 = some a → WFEmail a
  to : ∀ s u t m, WFEmail t → WFEnvelope m → WFEmail (C.filterTo s u t m).2.1 ∧ WFEnvelope (C.filterTo s u t m).2.2.1
  data : ∀ s u m, WFEnvelope m → m.to ≠ [] → WFEnvelope (C.filterData s u m).2.1 ∧ (C.filterData s u m).2.1.to ≠ []

/-- The configuration's mailbox `box` is changed by its mail handler only, which adds at most the mail it is given. -/
structure Spools (C : Config L S U) (V : Verdict L S U) (box : S → List (Stored L)) : Prop where
  newMail : ∀ s, box (C.newMail s) = box s
  from_ : ∀ s u f, box (C.filterFrom s u f).2.2.1 = box s
  to : ∀ s u t m, box (C.filterTo s u t m).2.2.2.1 = box s
  data : ∀ s u m, box (C.filterData s u m).2.2.1 = box s
  handle : ∀ s u m text ok, box (V s u m text ok).2.1 = box s ∨ box (V s u m text ok).2.1 = box s ++ [(m, text, ok)]

/-- What a client takes along: the mails of its script, as they were given to it. -/
def Item.carried : Item L → List (Stored L)
  | .mail m => [(m.envelope, m.text.flatten, true)]
  | .other _ => []

/-- The parameters a client adds obey the grammar, and so do the other commands, which are neither MAIL, RCPT nor DATA. -/
def Item.Polite : Item L → Prop
  | .mail m => WFParams m.params ∧ ∀ t ∈ m.rcpts, WFParams t.2
  | .other c => WFCommand c ∧ ¬ Implemented c

/-- A complete mail with a recipient, whose addresses obey the grammar and whose text is whole lines. -/
def Forwardable (x : Stored L) : Prop := WFEnvelope x.1 ∧ x.1.to ≠ [] ∧ wholeLines x.2.1 = x.2.1 ∧ x.2.2 = true

/-- `Relayed before after`: the mails `before` were passed on through any number of servers. At each, a client sent those it
had in one session, with any other commands, any parameters, the messages in any chunks, over any packets and delays; the
server accepted them, the session ended, and what its mailbox got is passed on to the next. `after` is what the last got. -/
inductive Relayed : List (Stored L) → List (Stored L) → Prop
  | here {ms} : Relayed ms ms
  | hop {S U : Type} {ms got after : List (Stored L)} {C : Config L S U} {V : Verdict L S U} {box : S → List (Stored L)}
      {script : List (Item L)} {incoming : List (SrcEv Bytes)} {outgoing : BSink} {s : S} {u : U} {n : Nat} {w : World L S U} :
      SendableConfig C → (∀ s u m, WholeMessage (C.handleMail s u m) (V s u m)) →
      (∀ m, .mail m ∈ script → Accepts C V box m) → (∀ i ∈ script, i.Polite) →
      script.flatMap Item.carried = ms → evBytes incoming = script.flatMap Item.bytes →
      Server.interact C n incoming outgoing s u = (.ok (), w) → box w.cfg = box s ++ got →
      Relayed got after → Relayed ms after

end Verif.Spec
