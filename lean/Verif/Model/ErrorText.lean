import Verif.Model.Reply
/-
The texts of errors: `impl Display` of builderror.rs and parseresult.rs.
-/
namespace Verif.ErrorText

/-- How `{}` writes an unsigned number (`core::fmt`): the last digit behind the number without it. -/
def decimal (n : Nat) : Bytes := if n < 10 then [UInt8.ofNat (48 + n)] else decimal (n / 10) ++ [UInt8.ofNat (48 + n % 10)]
termination_by n
decreasing_by omega

/-- `<BuildError as Display>::fmt` (builderror.rs:10-22); the arm of `ContainsNewLine`, which nothing constructs, is left out. -/
def build : BuildErr → Bytes
  | .lineTooLong length limit => b!"Line is too long: " ++ decimal length ++ b!" (max: " ++ decimal limit ++ b!")"
  | .disallowedByte b pos => b!"Disallowed byte found at position " ++ decimal pos ++ b!": " ++ decimal b.toNat

/-- `<ParseError as Display>::fmt` (parseresult.rs:27-42), the arm of `DidNotConsumeEverything`; the texts of the other two contain
texts and numbers of nom, which are not modelled. -/
def parse : ParseErr → Option Bytes
  | .didNotConsumeEverything rem => some (b!"Input contains " ++ decimal rem ++ b!" trailing characters")
  | _ => none

end Verif.ErrorText
