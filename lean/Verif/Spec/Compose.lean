import Verif.Spec.Server
/-
Notions used to state how sessions are put together: complete messages only, lines that mean the same.
-/
namespace Verif.Spec
variable {L : IpLib} {S U : Type}

/-- The treatment of complete messages by their text (`ByText` without unfinished messages). -/
def Whole (V : Verdict L S U) : Handling L S U := fun s u m b d s' u' b' =>
  ∃ ls, IsMessage b ls b' ∧ V s u m (decodedLines ls) true = (d, s', u')

/-- After the bytes `input` of a new connection the server expects a command line, of which it has seen `left`: what came
before is complete lines and complete messages. -/
def ExpectsCommand (C : Config L S U) (V : Verdict L S U) (s : S) (u : U) (input left : Bytes) : Prop :=
  ∃ evs st, Dialogue C (Whole V) ⟨s, u, none⟩ input evs st left ∧ NoCrlf left

/-- Two lines mean the same to a server: the same command, with the same address; the parameters do not count, and all
commands the server does not implement are alike. -/
inductive SameMeaning : Option (Command L) → Option (Command L) → Prop
  | noCommand : SameMeaning none none
  | mail {f p p'} : SameMeaning (some (.mail f p)) (some (.mail f p'))
  | rcpt {t p p'} : SameMeaning (some (.rcpt t p)) (some (.rcpt t p'))
  | data : SameMeaning (some .data) (some .data)
  | others {c c'} : ¬ Implemented c → ¬ Implemented c' → SameMeaning (some c) (some c')

/-- What happens in a session apart from the wording of the lines: the callbacks, the replies, and how many lines were
read. -/
def unworded : List (Ev L) → List (Ev L) := List.map fun
  | .line _ => .line []
  | e => e

end Verif.Spec
