import Verif.Spec.Lockstep
/-
Sessions whose connection ends inside a message.
-/
namespace Verif.Spec
variable {L : IpLib} {S U : Type}

/-- The treatment of a message that is cut off by the end of the connection: its text is what was received, and nothing is
left. -/
def CutOff (V : Verdict L S U) : Handling L S U := fun s u m b d s' u' b' =>
  ∃ ls part, IsUnfinished b ls part ∧ b' = [] ∧ V s u m (decodedLines ls ++ decodedPart part) false = (d, s', u')

/-- The connection ended where a command line is expected: all messages were received up to their marker. -/
def EndsBetween (C : Config L S U) (V : Verdict L S U) (s : S) (u : U) (input : Bytes) : Prop :=
  ∃ tr st, CompleteSession C (OnlyComplete V) s u input tr st

/-- The connection ended inside a message: after whole lines and whole messages came a line that made the server accept a
message, and this message was cut off. -/
def EndsInside (C : Config L S U) (V : Verdict L S U) (s : S) (u : U) (input : Bytes) : Prop :=
  ∃ evs st l text m d evs' st', NoCrlf l ∧ Dialogue C (OnlyComplete V) ⟨s, u, none⟩ input evs st (l ++ crlf ++ text) ∧
    Exchange C (CutOff V) (commandOn (l ++ crlf)) st text evs' st' [] ∧ Ev.handleMail m ∈ evs' ∧ Ev.handled d ∈ evs'

end Verif.Spec
