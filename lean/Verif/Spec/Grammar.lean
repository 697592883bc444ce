import Verif.Model.Command
import Verif.Spec.Reply
/-
Independent specification of the command language: byte classes by ranges, texts by concatenation. Only
the data types (`Command`, `Domain`, `Email`, `Params`) and the address library `IpLib` come from the
model; no parser or printer does.
-/
namespace Verif.Spec

/-- What is assumed of the standard library's IP addresses: printing parses back, and only digits and
dots, resp. hexadecimal digits, colons and dots, occur in addresses. -/
structure IpLaws (L : IpLib) : Prop where
  parse_show4 : ∀ a, L.parse4 (L.show4 a) = some a
  parse_show6 : ∀ a, L.parse6 (L.show6 a) = some a
  chars4 : ∀ x a, L.parse4 x = some a → ∀ c ∈ x, IsDigit c ∨ c = 46
  chars6 : ∀ x a, L.parse6 x = some a →
    ∀ c ∈ x, IsDigit c ∨ (65 ≤ c ∧ c ≤ 70) ∨ (97 ≤ c ∧ c ≤ 102) ∨ c = 58 ∨ c = 46

/-! ### Byte classes -/

def Blank (c : UInt8) : Prop := c = 32 ∨ c = 9
def Letter (c : UInt8) : Prop := (65 ≤ c ∧ c ≤ 90) ∨ (97 ≤ c ∧ c ≤ 122)
def Alnum (c : UInt8) : Prop := Letter c ∨ IsDigit c
def AlnumDash (c : UInt8) : Prop := Alnum c ∨ c = 45
/-- RFC 5322 atext. -/
def Atext (c : UInt8) : Prop := Alnum c ∨ c ∈ b!"!#$%&'*+-/=?^_`{|}~"
/-- Visible ASCII other than the equal sign. -/
def ValueByte (c : UInt8) : Prop := 33 ≤ c ∧ c ≤ 126 ∧ c ≠ 61
/-- Printable ASCII, space included. -/
def Printable (c : UInt8) : Prop := 32 ≤ c ∧ c ≤ 126

def Blanks (b : Bytes) : Prop := ∀ c ∈ b, Blank c

/-- Pieces joined by one separator byte. -/
def joinWith (sep : UInt8) : List Bytes → Bytes
  | [] => []
  | [l] => l
  | l :: ls => l ++ [sep] ++ joinWith sep ls

/-! ### Domains -/

/-- A label: a letter or digit, then letters, digits, dashes. -/
def IsLabel (l : Bytes) : Prop := ∃ c r, l = c :: r ∧ Alnum c ∧ ∀ x ∈ r, AlnumDash x

/-- A host name: labels joined by dots. -/
def IsHost (h : Bytes) : Prop := ∃ ls, ls ≠ [] ∧ (∀ l ∈ ls, IsLabel l) ∧ h = joinWith 46 ls

/-- `text` denotes the domain `d`. -/
inductive DomainText (L : IpLib) : Bytes → Domain L → Prop where
  | host (h : Bytes) : IsHost h → DomainText L h (.host h)
  | v4 (x : Bytes) (a : L.V4) : 93 ∉ x → L.parse4 x = some a →
      DomainText L (b!"[" ++ x ++ b!"]") (.v4 a)
  | v6 (x : Bytes) (a : L.V6) : 93 ∉ x → L.parse6 x = some a →
      DomainText L (b!"[IPv6:" ++ x ++ b!"]") (.v6 a)

/-- A domain value that can be written. -/
def WFDomain {L : IpLib} : Domain L → Prop
  | .host h => IsHost h
  | .v4 _ => True
  | .v6 _ => True

/-! ### Addresses -/

/-- Atoms joined by dots. -/
def IsDotString (s : Bytes) : Prop :=
  ∃ ls, ls ≠ [] ∧ (∀ l ∈ ls, l ≠ [] ∧ ∀ c ∈ l, Atext c) ∧ s = joinWith 46 ls

/-- One element of a quoted string, and the byte it stands for. -/
inductive QItem : Bytes → UInt8 → Prop where
  | plain (c : UInt8) : Printable c → c ≠ 34 → c ≠ 92 → QItem [c] c
  | escaped (c : UInt8) : Printable c → QItem [92, c] c

/-- `s` is a quoted string standing for `content`. -/
def IsQuoted (s content : Bytes) : Prop :=
  ∃ items : List (Bytes × UInt8), (∀ e ∈ items, QItem e.1 e.2) ∧
    s = [34] ++ (items.map (·.1)).flatten ++ [34] ∧ content = items.map (·.2)

/-- `s` is a local part standing for `content`. -/
def IsLocal (s content : Bytes) : Prop := (IsDotString s ∧ content = s) ∨ IsQuoted s content

/-- `text` denotes the address `e`. -/
def EmailText (L : IpLib) (text : Bytes) (e : Email L) : Prop :=
  (∃ content, IsLocal e.localpart content) ∧
  ((e.hostname = none ∧ text = e.localpart) ∨
    ∃ d dt, e.hostname = some d ∧ DomainText L dt d ∧ text = e.localpart ++ [64] ++ dt)

def WFEmail {L : IpLib} (e : Email L) : Prop :=
  (∃ content, IsLocal e.localpart content) ∧ ∀ d, e.hostname = some d → WFDomain d

/-- A source route: hops `@domain` joined by commas, then a colon. The list of hops may be empty (the code
accepts `:a@b`). -/
def IsRoute (L : IpLib) (r : Bytes) : Prop :=
  ∃ hops : List Bytes, (∀ h ∈ hops, ∃ dt d, DomainText L dt d ∧ h = [64] ++ dt) ∧
    r = joinWith 44 hops ++ [58]

/-- An address with an optional source route in front. -/
def PathText (L : IpLib) (text : Bytes) (e : Email L) : Prop :=
  ∃ route et, (route = [] ∨ IsRoute L route) ∧ EmailText L et e ∧ text = route ++ et

/-- A path, in angle brackets or bare. -/
def MaybeBracketed (L : IpLib) (text : Bytes) (e : Email L) : Prop :=
  PathText L text e ∨ ∃ t, PathText L t e ∧ text = [60] ++ t ++ [62]

/-! ### Parameters -/

/-- A key: a letter or digit, then letters, digits, dashes. -/
def IsKey (k : Bytes) : Prop := IsLabel k

def IsValue (v : Bytes) : Prop := v ≠ [] ∧ ∀ c ∈ v, ValueByte c

/-- One parameter: at least one blank, key, optional `=value`. -/
def ParamText (text : Bytes) (e : Bytes × Option Bytes) : Prop :=
  ∃ bl, bl ≠ [] ∧ Blanks bl ∧ IsKey e.1 ∧
    ((e.2 = none ∧ text = bl ++ e.1) ∨
      ∃ v, e.2 = some v ∧ IsValue v ∧ text = bl ++ e.1 ++ [61] ++ v)

/-- Parameters in a row. -/
def ParamsText (text : Bytes) (l : List (Bytes × Option Bytes)) : Prop :=
  ∃ ts : List (Bytes × (Bytes × Option Bytes)), (∀ e ∈ ts, ParamText e.1 e.2) ∧
    text = (ts.map (·.1)).flatten ∧ l = ts.map (·.2)

/-- `m` has distinct keys and maps each key to the value it has at its last occurrence in `l`. -/
def IsLastMap (l : List (Bytes × Option Bytes)) (m : Params) : Prop :=
  (m.map (·.1)).Nodup ∧ ∀ k v, (k, v) ∈ m ↔
    ∃ before after, l = before ++ [(k, v)] ++ after ∧ k ∉ after.map (·.1)

/-- Two parameter maps are the same map: same entries, whatever the order. -/
def SameMap (m m' : Params) : Prop := ∀ e, e ∈ m ↔ e ∈ m'

def WFParams (m : Params) : Prop :=
  (m.map (·.1)).Nodup ∧ ∀ e ∈ m, IsKey e.1 ∧ ∀ v, e.2 = some v → IsValue v

/-! ### Command lines -/

/-- `v` is the verb `w` (given in lower case) in any mix of cases. -/
def IsVerb (w v : Bytes) : Prop :=
  v.map (fun c => if 65 ≤ c ∧ c ≤ 90 then c + 32 else c) = w

/-- The lines of each command; `M ps m` says that the parameter list `ps` denotes the map `m`. -/
inductive CmdLineOf (L : IpLib) (M : List (Bytes × Option Bytes) → Params → Prop) : Bytes → Command L → Prop where
  | data (v bl) : IsVerb b!"data" v → Blanks bl → CmdLineOf L M (v ++ bl ++ crlf) .data
  | quit (v bl) : IsVerb b!"quit" v → Blanks bl → CmdLineOf L M (v ++ bl ++ crlf) .quit
  | rset (v bl) : IsVerb b!"rset" v → Blanks bl → CmdLineOf L M (v ++ bl ++ crlf) .rset
  | ehlo (b1 v b2 dt b3 d) : IsVerb b!"ehlo" v → Blanks b1 → Blanks b2 → Blanks b3 →
      DomainText L dt d → CmdLineOf L M (b1 ++ v ++ b2 ++ dt ++ b3 ++ crlf) (.ehlo d)
  | helo (b1 v b2 dt b3 d) : IsVerb b!"helo" v → Blanks b1 → Blanks b2 → Blanks b3 →
      DomainText L dt d → CmdLineOf L M (b1 ++ v ++ b2 ++ dt ++ b3 ++ crlf) (.helo d)
  | expn (v c s) : IsVerb b!"expn" v → Blank c → NoCrlf s → CmdLineOf L M (v ++ [c] ++ s ++ crlf) (.expn s)
  | vrfy (v c s) : IsVerb b!"vrfy" v → Blank c → NoCrlf s → CmdLineOf L M (v ++ [c] ++ s ++ crlf) (.vrfy s)
  | help (v bl s) : IsVerb b!"help" v → NoCrlf s →
      ((∃ c, Blank c ∧ bl = [c]) ∨ (bl = [] ∧ ∀ c, s.head? = some c → ¬ Blank c)) →
      CmdLineOf L M (v ++ bl ++ s ++ crlf) (.help s)
  | noop (v bl s) : IsVerb b!"noop" v → NoCrlf s →
      ((∃ c, Blank c ∧ bl = [c]) ∨ (bl = [] ∧ ∀ c, s.head? = some c → ¬ Blank c)) →
      CmdLineOf L M (v ++ bl ++ s ++ crlf) (.noop s)
  | mailNull (v b1 pt b2 ps m) : IsVerb b!"mail from:" v → Blanks b1 → Blanks b2 →
      ParamsText pt ps → M ps m →
      CmdLineOf L M (v ++ b1 ++ b!"<>" ++ pt ++ b2 ++ crlf) (.mail none m)
  | mail (v b1 at_ pt b2 e ps m) : IsVerb b!"mail from:" v → Blanks b1 → Blanks b2 →
      MaybeBracketed L at_ e → ParamsText pt ps → M ps m →
      CmdLineOf L M (v ++ b1 ++ at_ ++ pt ++ b2 ++ crlf) (.mail (some e) m)
  | rcpt (v b1 at_ pt b2 e ps m) : IsVerb b!"rcpt to:" v → Blanks b1 → Blanks b2 →
      MaybeBracketed L at_ e → ParamsText pt ps → M ps m →
      CmdLineOf L M (v ++ b1 ++ at_ ++ pt ++ b2 ++ crlf) (.rcpt e m)

/-- The command language: `line` is the command `c`. Duplicate parameters: the last one wins. -/
abbrev CmdLine (L : IpLib) : Bytes → Command L → Prop := CmdLineOf L IsLastMap

/-- A command value that can be written and read back. -/
def WFCommand {L : IpLib} : Command L → Prop
  | .data => True
  | .quit => True
  | .rset => True
  | .ehlo d => WFDomain d
  | .helo d => WFDomain d
  | .expn s => NoCrlf s
  | .vrfy s => NoCrlf s
  | .help s => NoCrlf s
  | .noop s => NoCrlf s
  | .mail f p => (∀ e, f = some e → WFEmail e) ∧ WFParams p
  | .rcpt t p => WFEmail t ∧ WFParams p

/-- Same command, parameters compared as maps. -/
def SameCommand {L : IpLib} : Command L → Command L → Prop
  | .mail f p, .mail f' p' => f = f' ∧ SameMap p p'
  | .rcpt t p, .rcpt t' p' => t = t' ∧ SameMap p p'
  | c, c' => c = c'

end Verif.Spec
