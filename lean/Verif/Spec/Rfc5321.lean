import Verif.Spec.Ip
/-
The command grammar of RFC 5321 (sections 4.1.1, 4.1.2, 4.1.3 and 4.1.1.3 for Postmaster), rule by rule, with the
meaning of each text. Written from the RFC's ABNF; nothing here is taken from the code but the data types of the
results. ABNF literals are case-insensitive (RFC 5234, 2.3).
-/
namespace Verif.Rfc5321
open Verif.Spec (GroupText V4Text)

def Alpha (c : UInt8) : Prop := (65 ≤ c ∧ c ≤ 90) ∨ (97 ≤ c ∧ c ≤ 122)
def Digit (c : UInt8) : Prop := 48 ≤ c ∧ c ≤ 57

/-- `Let-dig = ALPHA / DIGIT` -/
def LetDig (c : UInt8) : Prop := Alpha c ∨ Digit c

/-- `Ldh-str = *( ALPHA / DIGIT / "-" ) Let-dig` -/
def LdhStr (x : Bytes) : Prop := ∃ i l, x = i ++ [l] ∧ (∀ c ∈ i, Alpha c ∨ Digit c ∨ c = 45) ∧ LetDig l

/-- `sub-domain = Let-dig [Ldh-str]` -/
def SubDomain (x : Bytes) : Prop := ∃ c r, x = [c] ++ r ∧ LetDig c ∧ (r = [] ∨ LdhStr r)

/-- `Domain = sub-domain *("." sub-domain)` -/
inductive DomainName : Bytes → Prop
  | one {x} : SubDomain x → DomainName x
  | more {x y} : SubDomain x → DomainName y → DomainName (x ++ b!"." ++ y)

/-- `atext` (RFC 5322, 3.2.3) -/
def AText (c : UInt8) : Prop :=
  Alpha c ∨ Digit c ∨ c = 33 ∨ c = 35 ∨ c = 36 ∨ c = 37 ∨ c = 38 ∨ c = 39 ∨ c = 42 ∨ c = 43 ∨ c = 45 ∨ c = 47 ∨
    c = 61 ∨ c = 63 ∨ c = 94 ∨ c = 95 ∨ c = 96 ∨ c = 123 ∨ c = 124 ∨ c = 125 ∨ c = 126

/-- `Atom = 1*atext` -/
def Atom (x : Bytes) : Prop := x ≠ [] ∧ ∀ c ∈ x, AText c

/-- `Dot-string = Atom *("." Atom)` -/
inductive DotString : Bytes → Prop
  | one {x} : Atom x → DotString x
  | more {x y} : Atom x → DotString y → DotString (x ++ b!"." ++ y)

/-- `*QcontentSMTP`: `qtextSMTP = %d32-33 / %d35-91 / %d93-126`, `quoted-pairSMTP = %d92 %d32-126` -/
inductive QContent : Bytes → Prop
  | nil : QContent []
  | text {c x} : (32 ≤ c ∧ c ≤ 33) ∨ (35 ≤ c ∧ c ≤ 91) ∨ (93 ≤ c ∧ c ≤ 126) → QContent x → QContent ([c] ++ x)
  | pair {c x} : 32 ≤ c ∧ c ≤ 126 → QContent x → QContent ([92] ++ [c] ++ x)

/-- `Quoted-string = DQUOTE *QcontentSMTP DQUOTE` -/
def QuotedString (x : Bytes) : Prop := ∃ q, QContent q ∧ x = [34] ++ q ++ [34]

/-- `Local-part = Dot-string / Quoted-string` -/
def LocalPart (x : Bytes) : Prop := DotString x ∨ QuotedString x

/-- `String = Atom / Quoted-string` -/
def StringArg (x : Bytes) : Prop := Atom x ∨ QuotedString x

/-! ### Address literals -/

/-- `IPv6-hex *(":" IPv6-hex)`, with the groups it spells -/
inductive Hexes : Bytes → List UInt16 → Prop
  | one {x g} : GroupText x g → Hexes x [g]
  | more {x g y gs} : GroupText x g → Hexes y gs → Hexes (x ++ b!":" ++ y) (g :: gs)

/-- `[IPv6-hex *(":" IPv6-hex)]` -/
def OptHexes (x : Bytes) (gs : List UInt16) : Prop := (x = [] ∧ gs = []) ∨ Hexes x gs

/-- The two groups an IPv4 address fills. -/
def V4Groups (v : Ip.V4) (g h : UInt16) : Prop :=
  g.toNat = v.a.toNat * 256 + v.b.toNat ∧ h.toNat = v.c.toNat * 256 + v.d.toNat

/-- `IPv6-addr = IPv6-full / IPv6-comp / IPv6v4-full / IPv6v4-comp`; in the short forms "the :: represents at
least 2 16-bit groups of zeros". `IPv4-address-literal = Snum 3("." Snum)` is `V4Text`, `IPv6-hex = 1*4HEXDIG` is
`GroupText`. -/
inductive IPv6Addr : Bytes → List UInt16 → Prop
  | full {x gs} : Hexes x gs → gs.length = 8 → IPv6Addr x gs
  | comp {x hs y ts n} : OptHexes x hs → OptHexes y ts → hs.length + n + ts.length = 8 → 2 ≤ n →
      IPv6Addr (x ++ b!"::" ++ y) (hs ++ List.replicate n 0 ++ ts)
  | v4full {x gs y v g h} : Hexes x gs → gs.length = 6 → V4Text y v → V4Groups v g h →
      IPv6Addr (x ++ b!":" ++ y) (gs ++ [g, h])
  | v4comp {x hs y v g h n} : OptHexes x hs → V4Text y v → V4Groups v g h → hs.length + n = 6 → 2 ≤ n →
      IPv6Addr (x ++ b!"::" ++ y) (hs ++ List.replicate n 0 ++ [g, h])
  | v4comp' {x hs z ts y v g h n} : OptHexes x hs → Hexes z ts → V4Text y v → V4Groups v g h →
      hs.length + n + ts.length = 6 → 2 ≤ n →
      IPv6Addr (x ++ b!"::" ++ z ++ b!":" ++ y) (hs ++ List.replicate n 0 ++ ts ++ [g, h])

/-- `dcontent = %d33-90 / %d94-126` -/
def DContent (c : UInt8) : Prop := (33 ≤ c ∧ c ≤ 90) ∨ (94 ≤ c ∧ c ≤ 126)

/-- `address-literal` without the general form, `IPv6:` in this spelling. -/
inductive AddressLiteral (z : Nat) : Bytes → Domain (Ip.stdIp z) → Prop
  | v4 {x v} : V4Text x v → AddressLiteral z (b!"[" ++ x ++ b!"]") (.v4 v)
  | v6 {x v} : IPv6Addr x v.1 → AddressLiteral z (b!"[" ++ b!"IPv6:" ++ x ++ b!"]") (.v6 v)

/-- `General-address-literal = Standardized-tag ":" 1*dcontent`, `Standardized-tag = Ldh-str`, in brackets. -/
def GeneralLiteral (x : Bytes) : Prop :=
  ∃ tag d, LdhStr tag ∧ d ≠ [] ∧ (∀ c ∈ d, DContent c) ∧ x = b!"[" ++ tag ++ b!":" ++ d ++ b!"]"

/-- `( Domain / address-literal )` -/
inductive HostText (z : Nat) : Bytes → Domain (Ip.stdIp z) → Prop
  | name {x} : DomainName x → HostText z x (.host x)
  | literal {x d} : AddressLiteral z x d → HostText z x d

/-! ### Paths and parameters -/

/-- `Mailbox = Local-part "@" ( Domain / address-literal )` -/
inductive Mailbox (z : Nat) : Bytes → Email (Ip.stdIp z) → Prop
  | mk {x y d} : LocalPart x → HostText z y d → Mailbox z (x ++ b!"@" ++ y) ⟨x, some d⟩

/-- `A-d-l = At-domain *( "," At-domain )`, `At-domain = "@" Domain` -/
inductive Adl : Bytes → Prop
  | one {x} : DomainName x → Adl (b!"@" ++ x)
  | more {x y} : DomainName x → Adl y → Adl (b!"@" ++ x ++ b!"," ++ y)

/-- `Path = "<" [ A-d-l ":" ] Mailbox ">"`; the route is to be ignored (RFC 5321, appendix C) -/
inductive Path (z : Nat) : Bytes → Email (Ip.stdIp z) → Prop
  | plain {x e} : Mailbox z x e → Path z (b!"<" ++ x ++ b!">") e
  | routed {r x e} : Adl r → Mailbox z x e → Path z (b!"<" ++ r ++ b!":" ++ x ++ b!">") e

/-- `esmtp-keyword = (ALPHA / DIGIT) *(ALPHA / DIGIT / "-")` -/
def Keyword (k : Bytes) : Prop := ∃ c r, k = [c] ++ r ∧ (Alpha c ∨ Digit c) ∧ ∀ x ∈ r, Alpha x ∨ Digit x ∨ x = 45

/-- `esmtp-value = 1*(%d33-60 / %d62-126)` -/
def Value (v : Bytes) : Prop := v ≠ [] ∧ ∀ c ∈ v, (33 ≤ c ∧ c ≤ 60) ∨ (62 ≤ c ∧ c ≤ 126)

/-- `esmtp-param = esmtp-keyword ["=" esmtp-value]` -/
inductive Param : Bytes → Bytes × Option Bytes → Prop
  | key {k} : Keyword k → Param k (k, none)
  | keyValue {k v} : Keyword k → Value v → Param (k ++ b!"=" ++ v) (k, some v)

/-- `[SP esmtp-param *(SP esmtp-param)]` -/
inductive OptParams : Bytes → List (Bytes × Option Bytes) → Prop
  | nil : OptParams [] []
  | cons {x p y ps} : Param x p → OptParams y ps → OptParams (b!" " ++ x ++ y) (p :: ps)

/-! ### Commands -/

/-- `x` is the literal `lit` (given in lower case), in any mix of cases. -/
def Lit (lit x : Bytes) : Prop :=
  x.length = lit.length ∧ ∀ i (h : i < x.length), some (if 65 ≤ x[i] ∧ x[i] ≤ 90 then x[i] + 32 else x[i]) = lit[i]?

/-- The command lines of RFC 5321 with their meaning. A parameter that is repeated counts with its last value (the
RFC does not say). -/
inductive Line (z : Nat) : Bytes → Command (Ip.stdIp z) → Prop
  /-- `ehlo = "EHLO" SP ( Domain / address-literal ) CRLF` -/
  | ehlo {v x d} : Lit b!"ehlo" v → HostText z x d → Line z (v ++ b!" " ++ x ++ b!"\r\n") (.ehlo d)
  /-- `helo = "HELO" SP Domain CRLF` -/
  | helo {v x} : Lit b!"helo" v → DomainName x → Line z (v ++ b!" " ++ x ++ b!"\r\n") (.helo (.host x))
  /-- `mail = "MAIL FROM:" Reverse-path [SP Mail-parameters] CRLF`, `Reverse-path = Path / "<>"` -/
  | mail {v x e p ps m} : Lit b!"mail from:" v → Path z x e → OptParams p ps → Spec.IsLastMap ps m →
      Line z (v ++ x ++ p ++ b!"\r\n") (.mail (some e) m)
  | mailNull {v p ps m} : Lit b!"mail from:" v → OptParams p ps → Spec.IsLastMap ps m →
      Line z (v ++ b!"<>" ++ p ++ b!"\r\n") (.mail none m)
  /-- `rcpt = "RCPT TO:" ( "<Postmaster@" Domain ">" / "<Postmaster>" / Forward-path ) [SP Rcpt-parameters] CRLF`;
  the first form is also a `Forward-path` -/
  | rcpt {v x e p ps m} : Lit b!"rcpt to:" v → Path z x e → OptParams p ps → Spec.IsLastMap ps m →
      Line z (v ++ x ++ p ++ b!"\r\n") (.rcpt e m)
  | postmaster {v w p ps m} : Lit b!"rcpt to:" v → Lit b!"postmaster" w → OptParams p ps → Spec.IsLastMap ps m →
      Line z (v ++ b!"<" ++ w ++ b!">" ++ p ++ b!"\r\n") (.rcpt ⟨w, none⟩ m)
  | postmasterAt {v w x p ps m} : Lit b!"rcpt to:" v → Lit b!"postmaster" w → DomainName x → OptParams p ps →
      Spec.IsLastMap ps m →
      Line z (v ++ b!"<" ++ w ++ b!"@" ++ x ++ b!">" ++ p ++ b!"\r\n") (.rcpt ⟨w, some (.host x)⟩ m)
  /-- `data = "DATA" CRLF` -/
  | data {v} : Lit b!"data" v → Line z (v ++ b!"\r\n") .data
  /-- `rset = "RSET" CRLF` -/
  | rset {v} : Lit b!"rset" v → Line z (v ++ b!"\r\n") .rset
  /-- `vrfy = "VRFY" SP String CRLF` -/
  | vrfy {v x} : Lit b!"vrfy" v → StringArg x → Line z (v ++ b!" " ++ x ++ b!"\r\n") (.vrfy x)
  /-- `expn = "EXPN" SP String CRLF` -/
  | expn {v x} : Lit b!"expn" v → StringArg x → Line z (v ++ b!" " ++ x ++ b!"\r\n") (.expn x)
  /-- `help = "HELP" [ SP String ] CRLF` -/
  | help {v} : Lit b!"help" v → Line z (v ++ b!"\r\n") (.help [])
  | helpOn {v x} : Lit b!"help" v → StringArg x → Line z (v ++ b!" " ++ x ++ b!"\r\n") (.help x)
  /-- `noop = "NOOP" [ SP String ] CRLF` -/
  | noop {v} : Lit b!"noop" v → Line z (v ++ b!"\r\n") (.noop [])
  | noopWith {v x} : Lit b!"noop" v → StringArg x → Line z (v ++ b!" " ++ x ++ b!"\r\n") (.noop x)
  /-- `quit = "QUIT" CRLF` -/
  | quit {v} : Lit b!"quit" v → Line z (v ++ b!"\r\n") .quit

/-! ### Replies (section 4.2) -/

/-- `textstring = 1*(%d09 / %d32-126)` -/
def TextString (x : Bytes) : Prop := x ≠ [] ∧ ∀ c ∈ x, c = 9 ∨ (32 ≤ c ∧ c ≤ 126)

/-- `Reply-code = %x32-35 %x30-35 %x30-39`, with the number it spells -/
def CodeText (x : Bytes) (n : Nat) : Prop :=
  ∃ a b c : UInt8, x = [a] ++ [b] ++ [c] ∧ (50 ≤ a ∧ a ≤ 53) ∧ (48 ≤ b ∧ b ≤ 53) ∧ (48 ≤ c ∧ c ≤ 57) ∧
    n = 100 * (a.toNat - 48) + 10 * (b.toNat - 48) + (c.toNat - 48)

/-- `Reply-line = *( Reply-code "-" [ textstring ] CRLF ) Reply-code [ SP textstring ] CRLF`: its bytes, its code,
its text (the texts of its lines one after the other), and whether its last line is a code only. "The reply code
MUST be the same on all lines" (4.2.1). -/
inductive Reply : Bytes → Nat → Bytes → Bool → Prop
  | last {x n t} : CodeText x n → TextString t → Reply (x ++ b!" " ++ t ++ b!"\r\n") n t false
  | bare {x n} : CodeText x n → Reply (x ++ b!"\r\n") n [] true
  | more {x n t y t' e} : CodeText x n → (t = [] ∨ TextString t) → Reply y n t' e →
      Reply (x ++ b!"-" ++ t ++ b!"\r\n" ++ y) n (t ++ t') e

/-- The one-line form of `Greeting = ( "220 " (Domain / address-literal) [ SP textstring ] CRLF ) / ...` -/
def Greeting (z : Nat) (x : Bytes) : Prop :=
  ∃ host d t, HostText z host d ∧ (t = [] ∨ ∃ t', TextString t' ∧ t = b!" " ++ t') ∧
    x = b!"220 " ++ host ++ t ++ b!"\r\n"

/-- The codes the RFC's grammar allows. -/
def IsCode (n : Nat) : Prop := 200 ≤ n ∧ n < 600 ∧ n / 10 % 10 ≤ 5

end Verif.Rfc5321
