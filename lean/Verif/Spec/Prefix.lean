import Verif.Spec.Grammar
/-
Specification for C105: what a parser says about an input that is not, as a whole, in its language.
-/
namespace Verif.Spec

/-- `x` is the longest prefix of `b` with the property `P`. -/
def LongestPrefix (P : Bytes → Prop) (x b : Bytes) : Prop :=
  x <+: b ∧ P x ∧ ∀ y, y <+: b → P y → y.length ≤ x.length

/-- `b` is the beginning of a quoted string (RFC 5321 `Quoted-string`), its closing quote not yet there. -/
def UnclosedQuote (b : Bytes) : Prop := ∃ q content, IsQuoted q content ∧ b <+: q ∧ b ≠ q

end Verif.Spec
