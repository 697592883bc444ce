import Verif.Spec.Data
/-
Independent specification of SMTP reply lines (RFC 5321, 4.2). Nothing here refers to the model.
-/
namespace Verif.Spec

/-- An ASCII digit. -/
def IsDigit (c : UInt8) : Prop := 48 ≤ c ∧ c ≤ 57

instance (c : UInt8) : Decidable (IsDigit c) := by unfold IsDigit; infer_instance

/-- TAB or printable ASCII, what RFC 5321 calls textstring characters. -/
def TextByte (c : UInt8) : Prop := c = 9 ∨ (32 ≤ c ∧ c ≤ 126)

instance (c : UInt8) : Decidable (TextByte c) := by unfold TextByte; infer_instance

/-- Three digits spelling `n` in decimal. -/
def Digits3 (n : Nat) (d : Bytes) : Prop :=
  ∃ a b c, d = [a, b, c] ∧ IsDigit a ∧ IsDigit b ∧ IsDigit c ∧
    n = 100 * (a.toNat - 48) + 10 * (b.toNat - 48) + (c.toNat - 48)

/-- The code field of a reply as the parser takes it: three digits, or a plus sign and two digits. -/
def CodeField (d : Bytes) : Prop := ∃ a b c, d = [a, b, c] ∧ (IsDigit a ∨ a = 43) ∧ IsDigit b ∧ IsDigit c

/-- The whole input is one line: exactly one CRLF, and it is the end. -/
def OneLine (w : Bytes) : Prop := ∃ body, w = body ++ crlf ∧ NoCrlf body

/-- The wire form of a reply line: code, separator (space on the last line, dash before), text, CRLF. -/
def IsReplyWire (w : Bytes) (code : Nat) (last : Bool) (text : Bytes) : Prop :=
  ∃ d, Digits3 code d ∧ w = d ++ [if last then 32 else 45] ++ text ++ crlf

end Verif.Spec
