import Verif.Spec.Ip
/-
The canonical texts of IP addresses (RFC 5952 for IPv6, with the IPv4 form kept for IPv4-compatible and IPv4-mapped
addresses, as its section 5 allows). Independent of the model.
-/
namespace Verif.Spec

/-- A number in the given radix: digits, letters in lower case, and no zero in front. -/
def Numeral (radix n : Nat) (x : Bytes) : Prop :=
  x ≠ [] ∧ (∀ c ∈ x, (48 ≤ c ∧ c ≤ 57) ∨ (97 ≤ c ∧ c ≤ 102)) ∧ (∀ c ∈ x, digitValue c < radix) ∧
    numberValue radix x = n ∧ (x.head? = some 48 → x = b!"0")

/-- Four octets with dots in between. -/
def Dotted (x : Bytes) (a b c d : Nat) : Prop :=
  ∃ p q r s, x = p ++ b!"." ++ q ++ b!"." ++ r ++ b!"." ++ s ∧
    Numeral 10 a p ∧ Numeral 10 b q ∧ Numeral 10 c r ∧ Numeral 10 d s

/-- Two groups of 16 bits written as an IPv4 address. -/
def DottedGroups (x : Bytes) (g h : UInt16) : Prop :=
  Dotted x (g.toNat / 256) (g.toNat % 256) (h.toNat / 256) (h.toNat % 256)

/-- Groups in hexadecimal with colons in between. -/
inductive Hexes : Bytes → List UInt16 → Prop
  | nil : Hexes [] []
  | last {x g} : Numeral 16 g.toNat x → Hexes x [g]
  | cons {x g y gs} : Numeral 16 g.toNat x → Hexes y gs → gs ≠ [] → Hexes (x ++ b!":" ++ y) (g :: gs)

/-- The `n` groups from position `a` on are zero. -/
def ZeroRun (l : List UInt16) (a n : Nat) : Prop := a + n ≤ l.length ∧ ∀ j, a ≤ j → j < a + n → l[j]? = some 0

/-- It is the longest run of zeros, and the first one of that length. -/
def FirstLongest (l : List UInt16) (a n : Nat) : Prop :=
  ZeroRun l a n ∧ ∀ a' n', ZeroRun l a' n' → n' ≤ n ∧ (n' = n → a ≤ a')

/-- `::a.b.c.d`, apart from `::` and `::1`. -/
def Compat (l : List UInt16) (g h : UInt16) : Prop := l = [0, 0, 0, 0, 0, 0, g, h] ∧ ¬ (g = 0 ∧ (h = 0 ∨ h = 1))

/-- `::ffff:a.b.c.d` -/
def Mapped (l : List UInt16) (g h : UInt16) : Prop := l = [0, 0, 0, 0, 0, 0xffff, g, h]

/-- The canonical text of an IPv6 address. -/
inductive Canonical6 : Bytes → List UInt16 → Prop
  | compat {l g h x} : Compat l g h → DottedGroups x g h → Canonical6 (b!"::" ++ x) l
  | mapped {l g h x} : Mapped l g h → DottedGroups x g h → Canonical6 (b!"::ffff:" ++ x) l
  | run {l a n x y} : (∀ g h, ¬ Compat l g h) → (∀ g h, ¬ Mapped l g h) → FirstLongest l a n → 2 ≤ n →
      Hexes x (l.take a) → Hexes y (l.drop (a + n)) → Canonical6 (x ++ b!"::" ++ y) l
  | full {l x} : (∀ g h, ¬ Compat l g h) → (∀ g h, ¬ Mapped l g h) → (∀ a, ¬ ZeroRun l a 2) →
      Hexes x l → Canonical6 x l

end Verif.Spec
