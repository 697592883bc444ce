import Verif.Spec.Data
import Verif.Spec.Server
/-
How much is written (C119).
-/
namespace Verif.Spec

/-- The line starts with a dot. -/
def startsWithDot : Bytes → Bool
  | 46 :: _ => true
  | _ => false

/-- How many lines of a message start with a dot (the last, possibly unfinished, line included). -/
def dotLines (m : Bytes) : Nat := ((splitCrlf m).filter startsWithDot).length

/-- The bytes a reply with a text of `n` bytes takes on the wire: the text, and six bytes for each line of up to 506
bytes of it. -/
def replySize (n : Nat) : Nat := n + 6 * ((n + 505) / 506)

end Verif.Spec
