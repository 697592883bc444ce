import Verif.Spec.Prefix
/-
Specification for C108: the inputs on which a command parser has to wait for more bytes.
-/
namespace Verif.Spec

/-- The beginning of the verb `w`, in any mix of cases; at least one byte of it is missing. -/
def BegunVerb (w b : Bytes) : Prop := ∃ more, more ≠ [] ∧ IsVerb w (b ++ more)

/-- The line end has not begun, or only its CR is there. -/
def BegunCrlf (b : Bytes) : Prop := b = [] ∨ b = b!"\r"

/-- A hop of a source route. -/
def IsHop (L : IpLib) (h : Bytes) : Prop := ∃ dt d, DomainText L dt d ∧ h = [64] ++ dt

/-- The beginning of a source route: hops joined by commas, of which the last one may be missing, be whole, or have got no
further than `@` and a beginning of `[IPv6:`. -/
def BegunRoute (L : IpLib) (b : Bytes) : Prop :=
  ∃ hops last, (∀ h ∈ hops, IsHop L h) ∧
    (last = [] ∨ IsHop L last ∨ ∃ x, x <+: b!"[IPv6:" ∧ last = [64] ++ x) ∧ b = joinWith 44 (hops ++ [last])

/-- A path that is surely not finished: its route is not, or its quoted local part is not. -/
def BegunPath (L : IpLib) (b : Bytes) : Prop :=
  BegunRoute L b ∨ ∃ route q, (route = [] ∨ IsRoute L route) ∧ UnclosedQuote q ∧ b = route ++ q

/-- A path, bracketed or not, that is surely not finished. -/
def BegunBracketed (L : IpLib) (b : Bytes) : Prop :=
  BegunPath L b ∨ ∃ t, (BegunPath L t ∨ ∃ e, PathText L t e) ∧ b = [60] ++ t

/-- What follows the address of MAIL and RCPT, when the line end is not there yet: parameters, and then the end of the line
has at most begun or the value of a last parameter is missing. -/
def BegunTail (b : Bytes) : Prop :=
  ∃ pt ps, ParamsText pt ps ∧
    ((∃ bl e, Blanks bl ∧ BegunCrlf e ∧ b = pt ++ bl ++ e) ∨
      ∃ bl k, bl ≠ [] ∧ Blanks bl ∧ IsKey k ∧ b = pt ++ bl ++ k ++ b!"=")

/-- The inputs that may become a command and whose end decides nothing. -/
inductive Waiting (L : IpLib) : Bytes → Prop where
  | verb (w b) : w ∈ [b!"data", b!"expn", b!"help", b!"mail from:", b!"noop", b!"quit", b!"rcpt to:", b!"rset", b!"vrfy"] →
      BegunVerb w b → Waiting L b
  | helloVerb (w b1 b) : w ∈ [b!"ehlo", b!"helo"] → Blanks b1 → BegunVerb w b → Waiting L (b1 ++ b)
  | bare (w v bl e) : w ∈ [b!"data", b!"quit", b!"rset"] → IsVerb w v → Blanks bl → BegunCrlf e → Waiting L (v ++ bl ++ e)
  | textVerb (w v) : w ∈ [b!"expn", b!"vrfy"] → IsVerb w v → Waiting L v
  | text (w v c s) : w ∈ [b!"expn", b!"vrfy"] → IsVerb w v → Blank c → s.length < 2 → Waiting L (v ++ [c] ++ s)
  | optText (w v bl s) : w ∈ [b!"help", b!"noop"] → IsVerb w v → s.length < 2 →
      ((∃ c, Blank c ∧ bl = [c]) ∨ (bl = [] ∧ ∀ c, s.head? = some c → ¬ Blank c)) → Waiting L (v ++ bl ++ s)
  | helloDomain (w b1 v b2 x) : w ∈ [b!"ehlo", b!"helo"] → Blanks b1 → IsVerb w v → Blanks b2 → x <+: b!"[IPv6:" →
      Waiting L (b1 ++ v ++ b2 ++ x)
  | hello (w b1 v b2 dt d b3 e) : w ∈ [b!"ehlo", b!"helo"] → Blanks b1 → IsVerb w v → Blanks b2 → DomainText L dt d →
      Blanks b3 → BegunCrlf e → Waiting L (b1 ++ v ++ b2 ++ dt ++ b3 ++ e)
  | path (w v b1 x) : w ∈ [b!"mail from:", b!"rcpt to:"] → IsVerb w v → Blanks b1 → BegunBracketed L x →
      Waiting L (v ++ b1 ++ x)
  | tail (w v b1 x e t) : w ∈ [b!"mail from:", b!"rcpt to:"] → IsVerb w v → Blanks b1 → MaybeBracketed L x e →
      BegunTail t → Waiting L (v ++ b1 ++ x ++ t)
  | nullTail (v b1 t) : IsVerb b!"mail from:" v → Blanks b1 → BegunTail t → Waiting L (v ++ b1 ++ b!"<>" ++ t)

end Verif.Spec
