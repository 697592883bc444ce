import Verif.Model.Command
/-
Model of the part of the standard library that smtp-message uses for address literals (domain.rs:37-38, 52, 57):
`FromStr` and `Display` of `Ipv4Addr` and `Ipv6Addr`, as in the toolchain pinned by common.nix (nightly 2020-03-12):
src/libstd/net/parser.rs and src/libstd/net/ip.rs of that date. These files are not in /repo; they are modelled from
knowledge of the library, which is part of the trusted base.

A parser there holds a position in its input; here it is a function from the input that is left. Every reading method
restores the position when it gives `None` (`read_atomically`), which here needs no code.
-/
namespace Verif.Ip

/-- `Parser::read_digit` (parser.rs, `parse_digit`). -/
def readDigit (radix : Nat) (c : UInt8) : Option Nat :=
  if 48 ≤ c.toNat ∧ c.toNat ≤ 57 then some (c.toNat - 48)
  else if 10 < radix ∧ 97 ≤ c.toNat ∧ c.toNat < 97 + (radix - 10) then some (c.toNat - 97 + 10)
  else if 10 < radix ∧ 65 ≤ c.toNat ∧ c.toNat < 65 + (radix - 10) then some (c.toNat - 65 + 10)
  else none

/-- The loop of `Parser::read_number_impl`: `r` is the number read so far, `n` its number of digits. -/
def readNumberLoop (radix maxDigits upto : Nat) : Nat → Nat → Bytes → Option (Nat × Bytes)
  | r, n, [] => if n = 0 then none else some (r, [])
  | r, n, c :: t =>
    match readDigit radix c with
    | some d =>
      if n + 1 > maxDigits ∨ r * radix + d ≥ upto then none
      else readNumberLoop radix maxDigits upto (r * radix + d) (n + 1) t
    | none => if n = 0 then none else some (r, c :: t)

/-- `Parser::read_number`. -/
def readNumber (radix maxDigits upto : Nat) (s : Bytes) : Option (Nat × Bytes) :=
  readNumberLoop radix maxDigits upto 0 0 s

/-- `Parser::read_given_char`. -/
def readGiven (c : UInt8) : Bytes → Option Bytes
  | x :: t => if x = c then some t else none
  | [] => none

/-- `Ipv4Addr`: its four octets. -/
structure V4 where
  a : UInt8
  b : UInt8
  c : UInt8
  d : UInt8
  deriving DecidableEq, Repr

/-- `Parser::read_ipv4_addr`. -/
def readV4 (s : Bytes) : Option (V4 × Bytes) := do
  let (a, s) ← readNumber 10 3 256 s
  let s ← readGiven 46 s
  let (b, s) ← readNumber 10 3 256 s
  let s ← readGiven 46 s
  let (c, s) ← readNumber 10 3 256 s
  let s ← readGiven 46 s
  let (d, s) ← readNumber 10 3 256 s
  return (⟨a.toUInt8, b.toUInt8, c.toUInt8, d.toUInt8⟩, s)

/-- `<Ipv4Addr as FromStr>::from_str`: `read_till_eof(|p| p.read_ipv4_addr())`. -/
def parse4 (s : Bytes) : Option V4 :=
  match readV4 s with
  | some (a, []) => some a
  | _ => none

/-- Two octets as one group. -/
def group (hi lo : UInt8) : UInt16 := (hi.toNat * 256 + lo.toNat).toUInt16

/-- The separator in front of a group: none for the first one (`i == 0 || p.read_given_char(':').is_some()`). -/
def readSep (first : Bool) (s : Bytes) : Option Bytes := if first then some s else readGiven 58 s

/-- `read_groups` of `Parser::read_ipv6_addr_impl`; the first argument is `limit - i`, the second `i == 0`. The
groups read, whether they end with an IPv4 address, and the input left. -/
def readGroups : Nat → Bool → Bytes → List UInt16 × Bool × Bytes
  | 0, _, s => ([], false, s)
  | k + 1, first, s =>
    match (if 1 ≤ k then (readSep first s).bind readV4 else none) with
    | some (v, t) => ([group v.a v.b, group v.c v.d], true, t)
    | none =>
      match (readSep first s).bind (readNumber 16 4 65536) with
      | some (g, t) => (g.toUInt16 :: (readGroups k false t).1, (readGroups k false t).2.1, (readGroups k false t).2.2)
      | none => ([], false, s)

/-- `Ipv6Addr`: its eight groups. -/
abbrev V6 := { l : List UInt16 // l.length = 8 }

/-- `ipv6_addr_from_head_tail`. -/
def headTail (head tail : List UInt16) : List UInt16 :=
  head ++ List.replicate (8 - head.length - tail.length) 0 ++ tail

/-- `<Ipv6Addr as FromStr>::from_str`: `read_till_eof(|p| p.read_ipv6_addr())`. `zmin` is the least number of groups
`::` stands for: 1 (`let limit = 8 - (head_size + 1)`), but 0 in older versions of the library
(`read_groups(self, &mut tail, 8 - head_size)`); the theorems hold for both. -/
def parse6List (zmin : Nat) (s : Bytes) : Option (List UInt16) :=
  match readGroups 8 true s with
  | (head, headV4, s) =>
    if head.length = 8 then (if s = [] then some head else none)
    else if headV4 then none
    else
      match s with
      | 58 :: 58 :: s =>
        match readGroups (8 - (head.length + zmin)) true s with
        | (tail, _, s) => if s = [] then some (headTail head tail) else none
      | _ => none

/-- The same with the invariant of the type. -/
def parse6 (zmin : Nat) (s : Bytes) : Option V6 :=
  match parse6List zmin s with
  | some l => if h : l.length = 8 then some ⟨l, h⟩ else none
  | none => none

/-- One digit in lower case. -/
def showDigit (n : Nat) : UInt8 := if n < 10 then (48 + n).toUInt8 else (87 + n).toUInt8

/-- The formats `{}` (radix 10) and `{:x}` (radix 16) of a number. -/
def showNumber (radix n : Nat) : Bytes :=
  if h : n < radix ∨ radix < 2 then [showDigit n]
  else showNumber radix (n / radix) ++ [showDigit (n % radix)]
termination_by n
decreasing_by exact Nat.div_lt_self (by omega) (by omega)

/-- `<Ipv4Addr as Display>::fmt`: `{}.{}.{}.{}`. -/
def show4 (v : V4) : Bytes :=
  showNumber 10 v.a.toNat ++ b!"." ++ showNumber 10 v.b.toNat ++ b!"." ++ showNumber 10 v.c.toNat ++ b!"." ++
    showNumber 10 v.d.toNat

/-- The loop variables of `find_zero_slice`. -/
structure ZeroScan where
  longestLen : Nat
  longestAt : Nat
  curLen : Nat
  curAt : Nat

/-- The loop of `find_zero_slice` from index `i` on. -/
def findZeroLoop : List UInt16 → Nat → ZeroScan → ZeroScan
  | [], _, z => z
  | g :: gs, i, z =>
    if g = 0 then
      let at_ := if z.curLen = 0 then i else z.curAt
      let len := z.curLen + 1
      if len > z.longestLen then findZeroLoop gs (i + 1) ⟨len, at_, len, at_⟩
      else findZeroLoop gs (i + 1) ⟨z.longestLen, z.longestAt, len, at_⟩
    else findZeroLoop gs (i + 1) ⟨z.longestLen, z.longestAt, 0, 0⟩

/-- `find_zero_slice`: the position and the length of the first longest run of zero groups. -/
def findZeroSlice (gs : List UInt16) : Nat × Nat :=
  let z := findZeroLoop gs 0 ⟨0, 0, 0, 0⟩
  (z.longestAt, z.longestLen)

/-- `fmt_subslice`: the groups in hexadecimal, separated by colons. -/
def fmtSubslice : List UInt16 → Bytes
  | [] => []
  | [g] => showNumber 16 g.toNat
  | g :: gs => showNumber 16 g.toNat ++ b!":" ++ fmtSubslice gs

/-- Two groups as an IPv4 address. -/
def asV4 (g h : UInt16) : V4 :=
  ⟨(g.toNat / 256).toUInt8, (g.toNat % 256).toUInt8, (h.toNat / 256).toUInt8, (h.toNat % 256).toUInt8⟩

/-- `<Ipv6Addr as Display>::fmt`. -/
def show6List (l : List UInt16) : Bytes :=
  match l with
  | [0, 0, 0, 0, 0, 0, 0, 0] => b!"::"
  | [0, 0, 0, 0, 0, 0, 0, 1] => b!"::1"
  | [0, 0, 0, 0, 0, 0, g, h] => b!"::" ++ show4 (asV4 g h)
  | [0, 0, 0, 0, 0, 0xffff, g, h] => b!"::ffff:" ++ show4 (asV4 g h)
  | l =>
    let (zat, zlen) := findZeroSlice l
    if zlen > 1 then fmtSubslice (l.take zat) ++ b!"::" ++ fmtSubslice (l.drop (zat + zlen))
    else fmtSubslice l

/-- The standard library's addresses. -/
def stdIp (zmin : Nat) : IpLib where
  V4 := V4
  V6 := V6
  parse4 := parse4
  show4 := show4
  parse6 := parse6 zmin
  show6 a := show6List a.1

end Verif.Ip
