import Verif.Spec.Server
/-
Dialogues in which every message is complete.
-/
namespace Verif.Spec
variable {L : IpLib} {S U : Type}

/-- The treatment of a message that is received up to its end-of-data marker. -/
def OnlyComplete (V : Verdict L S U) : Handling L S U := fun s u m b d s' u' b' =>
  ∃ ls, IsMessage b ls b' ∧ V s u m (decodedLines ls) true = (d, s', u')

/-- `input` consists of whole command lines and whole messages; `trace` is what they call for, banner included, and `final` the
state they lead to. -/
def WholeInput (C : Config L S U) (V : Verdict L S U) (s : S) (u : U) (input : Bytes) (trace : List (Ev L))
    (final : SState L S U) : Prop :=
  ∃ evs, trace = .reply (C.welcomeBanner s) :: evs ∧ Dialogue C (OnlyComplete V) ⟨s, u, none⟩ input evs final []

end Verif.Spec
