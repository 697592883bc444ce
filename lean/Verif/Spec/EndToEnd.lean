import Verif.Spec.Server
import Verif.Spec.Grammar
import Verif.Model.Data
/-
Notions used to state what a client built from this library and a server built from it do together.
-/
namespace Verif.Spec
variable {L : IpLib} {S U : Type}

/-- A mail a client wants to deliver: sender, recipients (each command with its parameters), and the message, in the chunks
in which it is given to `DataSink`. -/
structure OutMail (L : IpLib) where
  from_ : Option (Email L)
  params : Params
  rcpts : List (Email L × Params)
  text : List Bytes

/-- What a client sends: a mail, or some other command. -/
inductive Item (L : IpLib) where
  | mail (m : OutMail L)
  | other (c : Command L)

/-- The addresses and parameters obey the grammar, there is a recipient; other commands are neither MAIL, RCPT nor DATA. -/
def Item.WF : Item L → Prop
  | .mail m => WFCommand (.mail m.from_ m.params) ∧ (∀ t ∈ m.rcpts, WFCommand (.rcpt t.1 t.2)) ∧ m.rcpts ≠ []
  | .other c => WFCommand c ∧ ¬ Implemented c

/-- What `DataSink` writes for a message, on a connection that does not fail. -/
def dataBytes (chunks : List Bytes) : Bytes :=
  match DSink.sendMessage ⟨[], []⟩ chunks with
  | some (_, k) => k.out.flatten
  | none => []

/-- What a client writes: each command with `send_to`, the message through `DataSink`. -/
def Item.bytes : Item L → Bytes
  | .mail m => (Command.mail m.from_ m.params).sendTo ++ m.rcpts.flatMap (fun t => (Command.rcpt t.1 t.2).sendTo) ++
      (Command.data : Command L).sendTo ++ dataBytes m.text
  | .other c => c.sendTo

/-- What the mailbox must receive for it: envelope, text, and that it was complete. -/
def Item.received : Item L → List (MailMeta L × Bytes × Bool)
  | .mail m => [(⟨m.from_, m.rcpts.map (·.1)⟩, wholeLines m.text.flatten, true)]
  | .other _ => []

/-- The replies due for it. -/
def Item.replies (C : Config L S U) : Item L → List (S → Reply)
  | .mail m => C.mailOkay :: m.rcpts.map (fun _ => C.rcptOkay) ++ [C.dataOkay, C.mailAccepted]
  | .other _ => [C.commandUnimplemented]

/-- Each reply is the configuration's reply of that kind, in some state. -/
def Each : List (S → Reply) → List Reply → Prop
  | [], [] => True
  | f :: fs, r :: rs => (∃ s, r = f s) ∧ Each fs rs
  | _, _ => False

/-- The envelope of a mail. -/
def OutMail.envelope (m : OutMail L) : MailMeta L := ⟨m.from_, m.rcpts.map (·.1)⟩

/-- A server that accepts this mail, in whatever state it is, and stores it: `box s` is the mailbox in the configuration's
state `s`. Everything else about the state is arbitrary. -/
structure Accepts (C : Config L S U) (V : Verdict L S U) (box : S → List (MailMeta L × Bytes × Bool)) (m : OutMail L) : Prop where
  newMail : ∀ s, box (C.newMail s) = box s
  from_ : ∀ s u, ∃ s' u', C.filterFrom s u m.from_ = (.accept, m.from_, s', u') ∧ box s' = box s
  to : ∀ t ∈ m.rcpts, ∀ s u e, ∃ s' u', C.filterTo s u t.1 e = (.accept, t.1, e, s', u') ∧ box s' = box s
  data : ∀ s u, ∃ s' u', C.filterData s u m.envelope = (.accept, m.envelope, s', u') ∧ box s' = box s
  stores : ∀ s u, ∃ s' u', V s u m.envelope (wholeLines m.text.flatten) true = (.accept, s', u') ∧
    box s' = box s ++ [(m.envelope, wholeLines m.text.flatten, true)]

end Verif.Spec
