import Verif.Spec.Reply
/-
Decimal numerals (C117).
-/
namespace Verif.Spec

/-- `d` is how one writes the number `n`: digits, of the value `n`, without leading zeros. -/
def Decimal (n : Nat) (d : Bytes) : Prop :=
  d ≠ [] ∧ (∀ c ∈ d, IsDigit c) ∧ (d.head? = some 48 → d = [48]) ∧ d.foldl (fun v c => 10 * v + (c.toNat - 48)) 0 = n

end Verif.Spec
