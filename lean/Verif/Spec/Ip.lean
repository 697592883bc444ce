import Verif.Spec.Grammar
import Verif.Model.Ip
/-
Independent specification of the texts of IP addresses.
-/
namespace Verif.Spec

/-- The value of a hexadecimal digit, in either case. -/
def digitValue (c : UInt8) : Nat :=
  if c.toNat ≤ 57 then c.toNat - 48 else if c.toNat ≤ 70 then c.toNat - 55 else c.toNat - 87

/-- The number a sequence of digits stands for. -/
def numberValue (radix : Nat) (ds : Bytes) : Nat := ds.foldl (fun r c => r * radix + digitValue c) 0

/-- Decimal digits, hexadecimal digits. -/
def HexDigit (c : UInt8) : Prop := IsDigit c ∨ (65 ≤ c ∧ c ≤ 70) ∨ (97 ≤ c ∧ c ≤ 102)

/-- One to three decimal digits that stand for an octet. -/
def OctetText (x : Bytes) (o : UInt8) : Prop :=
  x ≠ [] ∧ x.length ≤ 3 ∧ (∀ c ∈ x, IsDigit c) ∧ numberValue 10 x = o.toNat

/-- Four octets with dots in between. -/
def V4Text (x : Bytes) (v : Ip.V4) : Prop :=
  ∃ a b c d, x = a ++ b!"." ++ b ++ b!"." ++ c ++ b!"." ++ d ∧
    OctetText a v.a ∧ OctetText b v.b ∧ OctetText c v.c ∧ OctetText d v.d

/-- One to four hexadecimal digits that stand for a group of 16 bits. -/
def GroupText (x : Bytes) (g : UInt16) : Prop :=
  x ≠ [] ∧ x.length ≤ 4 ∧ (∀ c ∈ x, HexDigit c) ∧ numberValue 16 x = g.toNat

/-- Groups with colons in between; the last two may be written as an IPv4 address (the flag tells). -/
inductive GroupsText : Bytes → List UInt16 → Bool → Prop
  | nil : GroupsText [] [] false
  | last {x g} : GroupText x g → GroupsText x [g] false
  | v4 {x v} {g h : UInt16} : V4Text x v → g.toNat = v.a.toNat * 256 + v.b.toNat →
      h.toNat = v.c.toNat * 256 + v.d.toNat → GroupsText x [g, h] true
  | cons {x g y gs e} : GroupText x g → GroupsText y gs e → gs ≠ [] → GroupsText (x ++ b!":" ++ y) (g :: gs) e

/-- Eight groups, or fewer around one `::`, which stands for at least `zmin` groups of zeros; an IPv4 address is
possible only at the end. -/
inductive V6Text (zmin : Nat) : Bytes → List UInt16 → Prop
  | full {x gs e} : GroupsText x gs e → gs.length = 8 → V6Text zmin x gs
  | short {x hs y ts e n} : GroupsText x hs false → GroupsText y ts e → hs.length < 8 → hs.length + n + ts.length = 8 →
      zmin ≤ n → V6Text zmin (x ++ b!"::" ++ y) (hs ++ List.replicate n 0 ++ ts)

end Verif.Spec
