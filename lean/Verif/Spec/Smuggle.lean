import Verif.Spec.EndToEnd
/-
Line ends: what a tolerant receiver makes of a message.
-/
namespace Verif.Spec

/-- The four commands that carry free text. -/
def FreeText {L : IpLib} : Command L → Prop
  | .expn _ | .vrfy _ | .help _ | .noop _ => True
  | _ => False

/-- A message as a receiver reads it that takes every LF, with or without CR in front, for the end of a line: `raw` starts with
lines none of which is a lone dot, then a lone dot, then `rest`. (RFC 5321 forbids this tolerance; there are such servers.) -/
def LenientMessage (raw : Bytes) (ls : List Bytes) (rest : Bytes) : Prop :=
  ∃ dot, (dot = b!".\n" ∨ dot = b!".\r\n") ∧ raw = ls.flatMap (· ++ [10]) ++ dot ++ rest ∧
    ∀ l ∈ ls, 10 ∉ l ∧ l ≠ b!"." ∧ l ≠ b!".\r"

end Verif.Spec
