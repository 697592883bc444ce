import Verif.Spec.Rfc5321
import Verif.Props.Commands
import Verif.Props.Ip
/-
C93: every command line RFC 5321 allows is understood, with the RFC's meaning, except for two kinds of address
literals.
-/
namespace Verif
open Spec
open Ip (stdIp)
variable {z : Nat}

/-! ### From the RFC's rules to the language of the parsers -/
namespace Rfc5321

instance : DecidablePred Alpha := fun c => by unfold Alpha; infer_instance
instance : DecidablePred Digit := fun c => by unfold Digit; infer_instance
instance : DecidablePred LetDig := fun c => by unfold LetDig; infer_instance
instance : DecidablePred AText := fun c => by unfold AText; infer_instance

private theorem alnum_of : ∀ c, LetDig c → Alnum c := by decide +kernel
private theorem alnumdash_of : ∀ c, (Alpha c ∨ Digit c ∨ c = 45) → AlnumDash c := by decide +kernel
private theorem alnumdash_of' : ∀ c, LetDig c → AlnumDash c := by decide +kernel
private theorem atext_of : ∀ c, AText c → Atext c := by decide +kernel
private theorem atext_vis : ∀ c, AText c → 33 ≤ c ∧ c ≤ 126 := by decide +kernel
private theorem value_of : ∀ c : UInt8, ((33 ≤ c ∧ c ≤ 60) ∨ (62 ≤ c ∧ c ≤ 126)) → ValueByte c := by decide +kernel
private theorem qtext_of : ∀ c : UInt8, ((32 ≤ c ∧ c ≤ 33) ∨ (35 ≤ c ∧ c ≤ 91) ∨ (93 ≤ c ∧ c ≤ 126)) →
    Printable c ∧ c ≠ 34 ∧ c ≠ 92 := by decide +kernel

theorem SubDomain.label {x : Bytes} (h : SubDomain x) : IsLabel x := by
  obtain ⟨c, r, rfl, h1, h2⟩ := h
  refine ⟨c, r, rfl, alnum_of c h1, ?_⟩
  rcases h2 with rfl | ⟨i, l, rfl, h3, h4⟩
  · simp
  · intro y hy
    rcases List.mem_append.1 hy with hy | hy
    · exact alnumdash_of y (h3 y hy)
    · simp at hy; subst hy; exact alnumdash_of' _ h4

theorem DomainName.host {x : Bytes} (h : DomainName x) : IsHost x := by
  induction h with
  | one h => exact ⟨[_], by simp, by simpa using h.label, rfl⟩
  | more h _ ih =>
    obtain ⟨ls, h1, h2, rfl⟩ := ih
    cases ls with
    | nil => simp at h1
    | cons a as =>
      refine ⟨_ :: a :: as, by simp, ?_, rfl⟩
      intro l hl
      rcases List.mem_cons.1 hl with rfl | hl
      · exact h.label
      · exact h2 l hl

theorem DotString.dots {x : Bytes} (h : DotString x) : IsDotString x := by
  induction h with
  | one h => exact ⟨[_], by simp, by simpa using ⟨h.1, fun c hc => atext_of c (h.2 c hc)⟩, rfl⟩
  | more h _ ih =>
    obtain ⟨ls, h1, h2, rfl⟩ := ih
    cases ls with
    | nil => simp at h1
    | cons a as =>
      refine ⟨_ :: a :: as, by simp, ?_, rfl⟩
      intro l hl
      rcases List.mem_cons.1 hl with rfl | hl
      · exact ⟨h.1, fun c hc => atext_of c (h.2 c hc)⟩
      · exact h2 l hl

theorem QContent.items {q : Bytes} (h : QContent q) :
    ∃ items : List (Bytes × UInt8), (∀ e ∈ items, QItem e.1 e.2) ∧ q = (items.map (·.1)).flatten := by
  induction h with
  | nil => exact ⟨[], by simp, rfl⟩
  | @text c x h _ ih =>
    obtain ⟨is, h1, rfl⟩ := ih
    obtain ⟨k1, k2, k3⟩ := qtext_of c h
    refine ⟨([c], c) :: is, ?_, by simp⟩
    intro e he
    rcases List.mem_cons.1 he with rfl | he
    · exact .plain c k1 k2 k3
    · exact h1 e he
  | @pair c x h _ ih =>
    obtain ⟨is, h1, rfl⟩ := ih
    refine ⟨([92, c], c) :: is, ?_, by simp⟩
    intro e he
    rcases List.mem_cons.1 he with rfl | he
    · exact .escaped c h
    · exact h1 e he

theorem QuotedString.quoted {x : Bytes} (h : QuotedString x) : ∃ content, IsQuoted x content := by
  obtain ⟨q, hq, rfl⟩ := h
  obtain ⟨is, h1, rfl⟩ := hq.items
  exact ⟨_, is, h1, rfl, rfl⟩

theorem LocalPart.local {x : Bytes} (h : LocalPart x) : ∃ content, IsLocal x content := by
  rcases h with h | h
  · exact ⟨x, .inl ⟨h.dots, rfl⟩⟩
  · obtain ⟨c, h⟩ := h.quoted
    exact ⟨c, .inr h⟩

/-! ### Literals -/

theorem Hexes.groups {x : Bytes} {gs : List UInt16} (h : Hexes x gs) : GroupsText x gs false ∧ gs ≠ [] := by
  induction h with
  | one h => exact ⟨.last h, by simp⟩
  | more h _ ih => exact ⟨.cons h ih.1 ih.2, by simp⟩

theorem Hexes.groups4 {x y : Bytes} {gs : List UInt16} {v : Ip.V4} {g k : UInt16} (h : Hexes x gs) (hv : V4Text y v)
    (hg : V4Groups v g k) : GroupsText (x ++ b!":" ++ y) (gs ++ [g, k]) true := by
  induction h with
  | one h => exact .cons h (.v4 hv hg.1 hg.2) (by simp)
  | @more x g' y' gs' h _ ih =>
    have := GroupsText.cons h ih (by simp)
    simpa using this

theorem OptHexes.groups {x : Bytes} {gs : List UInt16} (h : OptHexes x gs) : GroupsText x gs false := by
  rcases h with ⟨rfl, rfl⟩ | h
  · exact .nil
  · exact h.groups.1

theorem IPv6Addr.text {zmin : Nat} (hz : zmin ≤ 1) {x : Bytes} {gs : List UInt16} (h : IPv6Addr x gs) :
    V6Text zmin x gs := by
  cases h with
  | full h hl => exact .full h.groups.1 hl
  | comp h1 h2 hl hn => exact .short h1.groups h2.groups (by omega) hl (by omega)
  | v4full h hl hv hg => exact .full (h.groups4 hv hg) (by simp [hl])
  | v4comp h hv hg hl hn => exact .short h.groups (.v4 hv hg.1 hg.2) (by omega) (by simp; omega) (by omega)
  | @v4comp' x hs w ts y v g k n h1 h2 hv hg hl hn =>
    have := V6Text.short (zmin := zmin) h1.groups (h2.groups4 hv hg) (by omega) (n := n) (by simp; omega) (by omega)
    simpa using this

private theorem groups_hexes {x : Bytes} {gs : List UInt16} {e : Bool} (h : GroupsText x gs e) :
    (e = false → OptHexes x gs) ∧ (e = true → ∃ y v g k, V4Text y v ∧ V4Groups v g k ∧
      ((x = y ∧ gs = [g, k]) ∨ ∃ z hs, Hexes z hs ∧ x = z ++ b!":" ++ y ∧ gs = hs ++ [g, k])) := by
  induction h with
  | nil => exact ⟨fun _ => .inl ⟨rfl, rfl⟩, by simp⟩
  | last h => exact ⟨fun _ => .inr (.one h), by simp⟩
  | v4 hv h1 h2 => exact ⟨by simp, fun _ => ⟨_, _, _, _, hv, ⟨h1, h2⟩, .inl ⟨rfl, rfl⟩⟩⟩
  | cons h _ hne ih =>
    refine ⟨fun he => ?_, fun he => ?_⟩
    · rcases ih.1 he with ⟨_, h0⟩ | h0
      · exact absurd h0 hne
      · exact .inr (.more h h0)
    · obtain ⟨y, v, g, k, hv, hg, h0⟩ := ih.2 he
      refine ⟨y, v, g, k, hv, hg, .inr ?_⟩
      rcases h0 with ⟨rfl, rfl⟩ | ⟨z, hs, h1, rfl, rfl⟩
      · exact ⟨_, _, .one h, rfl, rfl⟩
      · exact ⟨_, _, .more h h1, by simp, by simp⟩

/-- The IPv6 addresses of the RFC are the texts in which `::` stands for at least two groups. -/
theorem ipv6_exact {x : Bytes} {gs : List UInt16} : IPv6Addr x gs ↔ V6Text 2 x gs := by
  constructor
  · intro h
    cases h with
    | full h hl => exact .full h.groups.1 hl
    | comp h1 h2 hl hn => exact .short h1.groups h2.groups (by omega) hl (by omega)
    | v4full h hl hv hg => exact .full (h.groups4 hv hg) (by simp [hl])
    | v4comp h hv hg hl hn => exact .short h.groups (.v4 hv hg.1 hg.2) (by omega) (by simp; omega) (by omega)
    | @v4comp' x hs w ts y v g k n h1 h2 hv hg hl hn =>
      have := V6Text.short (zmin := 2) h1.groups (h2.groups4 hv hg) (by omega) (n := n) (by simp; omega) (by omega)
      simpa using this
  · intro h
    cases h with
    | @full x gs e h hl =>
      cases e with
      | false =>
        rcases (groups_hexes h).1 rfl with ⟨_, rfl⟩ | h
        · simp at hl
        · exact .full h hl
      | true =>
        obtain ⟨y, v, g, k, hv, hg, ⟨rfl, rfl⟩ | ⟨z, hs, h1, rfl, rfl⟩⟩ := (groups_hexes h).2 rfl
        · simp at hl
        · exact .v4full h1 (by simpa using hl) hv hg
    | @short x hs y ts e n h1 h2 _ hl hn =>
      have h1 := (groups_hexes h1).1 rfl
      cases e with
      | false => exact .comp h1 ((groups_hexes h2).1 rfl) hl hn
      | true =>
        obtain ⟨w, v, g, k, hv, hg, ⟨rfl, rfl⟩ | ⟨z, ks, h3, rfl, rfl⟩⟩ := (groups_hexes h2).2 rfl
        · exact .v4comp h1 hv hg (by simpa using hl) hn
        · have := IPv6Addr.v4comp' h1 h3 hv hg (n := n) (by simp at hl; omega) hn
          simpa using this

theorem HostText.domain (hz : z ≤ 1) {x : Bytes} {d : Domain (stdIp z)} (h : HostText z x d) :
    DomainText (stdIp z) x d := by
  have hL : IpLaws (stdIp z) := Ip.stdIp_laws hz
  cases h with
  | name h => exact .host _ h.host
  | literal h =>
    cases h with
    | v4 h => exact (c39_exact hL _ _).1 ((c70_v4 hz _ _).2 h)
    | v6 h => exact (c39_exact hL _ _).1 ((c70_v6 hz _ _).2 (h.text hz))

/-! ### Paths, parameters, lines -/

theorem Mailbox.email (hz : z ≤ 1) {x : Bytes} {e : Email (stdIp z)} (h : Mailbox z x e) :
    EmailText (stdIp z) x e := by
  cases h with
  | mk h1 h2 => exact ⟨h1.local, .inr ⟨_, _, rfl, h2.domain hz, rfl⟩⟩

theorem Adl.route {x : Bytes} (h : Adl x) : IsRoute (stdIp z) (x ++ b!":") := by
  suffices ∃ hops : List Bytes, hops ≠ [] ∧
      (∀ h ∈ hops, ∃ dt d, DomainText (stdIp z) dt d ∧ h = [64] ++ dt) ∧ x = joinWith 44 hops by
    obtain ⟨hops, _, h1, rfl⟩ := this
    exact ⟨hops, h1, rfl⟩
  induction h with
  | @one x h => exact ⟨[b!"@" ++ x], by simp, by
      intro l hl
      rw [List.mem_singleton] at hl
      subst hl
      exact ⟨x, _, .host x h.host, rfl⟩, rfl⟩
  | @more x y h _ ih =>
    obtain ⟨hops, h1, h2, rfl⟩ := ih
    cases hops with
    | nil => simp at h1
    | cons a as =>
      refine ⟨(b!"@" ++ x) :: a :: as, by simp, ?_, by simp [joinWith]⟩
      intro l hl
      rcases List.mem_cons.1 hl with rfl | hl
      · exact ⟨x, _, .host x h.host, rfl⟩
      · exact h2 l hl

theorem Path.maybe (hz : z ≤ 1) {x : Bytes} {e : Email (stdIp z)} (h : Path z x e) : MaybeBracketed (stdIp z) x e := by
  cases h with
  | plain h => exact .inr ⟨_, ⟨[], _, .inl rfl, h.email hz, rfl⟩, rfl⟩
  | @routed r y e hr h =>
    exact .inr ⟨_, ⟨r ++ b!":", y, .inr hr.route, h.email hz, rfl⟩, by simp⟩

theorem Keyword.key {k : Bytes} (h : Keyword k) : IsKey k := by
  obtain ⟨c, r, rfl, h1, h2⟩ := h
  exact ⟨c, r, rfl, alnum_of c h1, fun x hx => alnumdash_of x (h2 x hx)⟩

theorem OptParams.params {p : Bytes} {ps : List (Bytes × Option Bytes)} (h : OptParams p ps) : ParamsText p ps := by
  induction h with
  | nil => exact ⟨[], by simp, rfl, rfl⟩
  | @cons x p y ps hp _ ih =>
    obtain ⟨ts, h1, rfl, rfl⟩ := ih
    refine ⟨(b!" " ++ x, p) :: ts, ?_, by simp, by simp⟩
    intro e he
    rcases List.mem_cons.1 he with rfl | he
    · have hbl : Blanks b!" " := by intro c hc; simp at hc; subst hc; exact .inl rfl
      refine ⟨b!" ", by simp, hbl, ?_⟩
      cases hp with
      | key h => exact ⟨h.key, .inl ⟨rfl, rfl⟩⟩
      | keyValue h hv =>
        exact ⟨h.key, .inr ⟨_, rfl, ⟨hv.1, fun c hc => value_of c (hv.2 c hc)⟩, by simp⟩⟩
    · exact h1 e he

theorem Lit.verb {w v : Bytes} (h : Lit w v) : IsVerb w v := by
  obtain ⟨h1, h2⟩ := h
  apply List.ext_getElem?
  intro i
  by_cases hi : i < v.length
  · rw [← h2 i hi]
    simp [hi]
  · rw [List.getElem?_eq_none (by simpa using hi), List.getElem?_eq_none (by omega)]

theorem QContent.noCr {q : Bytes} (h : QContent q) : NoCr q := by
  induction h with
  | nil => exact NoCr.nil
  | @text c x h _ ih =>
    intro a ha
    rcases List.mem_append.1 ha with ha | ha
    · simp at ha; subst ha; rintro rfl; revert h; decide
    · exact ih a ha
  | @pair c x h _ ih =>
    intro a ha
    simp only [List.mem_append, List.mem_singleton] at ha
    rcases ha with (rfl | rfl) | ha
    · decide
    · rintro rfl; revert h; decide
    · exact ih a ha

theorem StringArg.noCrlf {x : Bytes} (h : StringArg x) : NoCrlf x := by
  apply noCr_noCrlf
  rcases h with h | ⟨q, hq, rfl⟩
  · intro c hc
    have := atext_vis c (h.2 c hc)
    rintro rfl
    revert this; decide
  · intro c hc
    simp only [List.mem_append, List.mem_singleton] at hc
    rcases hc with (rfl | hc) | rfl
    · decide
    · exact hq.noCr c hc
    · decide

theorem Lit.postmaster {w : Bytes} (h : Lit b!"postmaster" w) : ∃ content, IsLocal w content := by
  refine ⟨w, .inl ⟨⟨[w], by simp, ?_, rfl⟩, rfl⟩⟩
  obtain ⟨h1, h2⟩ := h
  simp only [List.mem_singleton, forall_eq]
  refine ⟨by intro h; subst h; simp at h1, ?_⟩
  intro c hc
  obtain ⟨i, hi, rfl⟩ := List.getElem_of_mem hc
  have h3 := h2 i hi
  have key : ∀ c : UInt8, (if 65 ≤ c ∧ c ≤ 90 then c + 32 else c) ∈ b!"postmaster" → Atext c := by decide +kernel
  exact key _ (List.mem_of_getElem? h3.symm)

theorem Line.cmd (hz : z ≤ 1) {x : Bytes} {c : Command (stdIp z)} (h : Line z x c) : CmdLine (stdIp z) x c := by
  have n : Blanks [] := by intro c hc; simp at hc
  have s : Blanks b!" " := by intro c hc; simp at hc; subst hc; exact .inl rfl
  have sp : Blank 32 := .inl rfl
  cases h with
  | ehlo hv hx => simpa using CmdLineOf.ehlo [] _ _ _ [] _ hv.verb n s n (hx.domain hz)
  | helo hv hx => simpa using CmdLineOf.helo [] _ _ _ [] _ hv.verb n s n (.host _ hx.host)
  | mail hv hx hp hm => simpa using CmdLineOf.mail _ [] _ _ [] _ _ _ hv.verb n n (hx.maybe hz) hp.params hm
  | mailNull hv hp hm => simpa using CmdLineOf.mailNull _ [] _ [] _ _ hv.verb n n hp.params hm
  | rcpt hv hx hp hm => simpa using CmdLineOf.rcpt _ [] _ _ [] _ _ _ hv.verb n n (hx.maybe hz) hp.params hm
  | @postmaster v w p ps m hv hw hp hm =>
    have hx : MaybeBracketed (stdIp z) (b!"<" ++ w ++ b!">") ⟨w, none⟩ :=
      .inr ⟨w, ⟨[], w, .inl rfl, ⟨hw.postmaster, .inl ⟨rfl, rfl⟩⟩, rfl⟩, rfl⟩
    simpa using CmdLineOf.rcpt _ [] _ _ [] _ _ _ hv.verb n n hx hp.params hm
  | @postmasterAt v w x p ps m hv hw hd hp hm =>
    have hx : MaybeBracketed (stdIp z) (b!"<" ++ (w ++ b!"@" ++ x) ++ b!">") ⟨w, some (.host x)⟩ :=
      .inr ⟨_, ⟨[], _, .inl rfl, ⟨hw.postmaster, .inr ⟨_, _, rfl, .host _ hd.host, rfl⟩⟩, rfl⟩, rfl⟩
    simpa using CmdLineOf.rcpt _ [] _ _ [] _ _ _ hv.verb n n hx hp.params hm
  | data hv => simpa using CmdLineOf.data _ [] hv.verb n
  | rset hv => simpa using CmdLineOf.rset _ [] hv.verb n
  | quit hv => simpa using CmdLineOf.quit _ [] hv.verb n
  | vrfy hv hx => exact CmdLineOf.vrfy _ _ _ hv.verb sp hx.noCrlf
  | expn hv hx => exact CmdLineOf.expn _ _ _ hv.verb sp hx.noCrlf
  | help hv => simpa using CmdLineOf.help _ [] [] hv.verb (noCr_noCrlf NoCr.nil) (.inr ⟨rfl, by simp⟩)
  | helpOn hv hx => exact CmdLineOf.help _ _ _ hv.verb hx.noCrlf (.inl ⟨_, sp, rfl⟩)
  | noop hv => simpa using CmdLineOf.noop _ [] [] hv.verb (noCr_noCrlf NoCr.nil) (.inr ⟨rfl, by simp⟩)
  | noopWith hv hx => exact CmdLineOf.noop _ _ _ hv.verb hx.noCrlf (.inl ⟨_, sp, rfl⟩)

end Rfc5321

/-- C93. Every command line of RFC 5321 whose address literals are IPv4 addresses or IPv6 addresses (tagged `IPv6:`
in this spelling) is accepted by `Command::parse`, and is the command the RFC says, with the RFC's address, domain,
text and parameters. -/
theorem c93_accepted (hz : z ≤ 1) {line : Bytes} {c : Command (stdIp z)} (h : Rfc5321.Line z line c) :
    ∃ c', Command.parse line = .ok c' ∧ SameCommand c' c :=
  (c30_language (Ip.stdIp_laws hz) line).2 c (h.cmd hz)

/-- C93. `Domain::parse` accepts every domain and every such literal of the RFC. -/
theorem c93_domain (hz : z ≤ 1) {x : Bytes} {d : Domain (stdIp z)} (h : Rfc5321.HostText z x d) :
    Domain.parse x = .ok d :=
  (c39_exact (Ip.stdIp_laws hz) x d).2 (h.domain hz)

/-- C93. `Email::parse` accepts every mailbox of the RFC. -/
theorem c93_mailbox (hz : z ≤ 1) {x : Bytes} {e : Email (stdIp z)} (h : Rfc5321.Mailbox z x e) :
    Email.parse x = .ok e :=
  (c37_exact (Ip.stdIp_laws hz) x e).2 (h.email hz)

/-- C93. No other literal is understood: a general address literal of the RFC (a tag, a colon, and text), which
includes an IPv6 address whose tag is spelled otherwise, is accepted only if it is an IPv6 address tagged `IPv6:`. -/
theorem c93_other_literals (hz : z ≤ 1) {x : Bytes} {d : Domain (stdIp z)} (h : Rfc5321.GeneralLiteral x)
    (hp : Domain.parse x = .ok d) : ∃ y v, x = b!"[IPv6:" ++ y ++ b!"]" ∧ V6Text z y v.1 ∧ d = .v6 v := by
  obtain ⟨tag, dc, h1, h2, h3, rfl⟩ := h
  rw [show b!"[" ++ tag ++ b!":" ++ dc ++ b!"]" = b!"[" ++ (tag ++ b!":" ++ dc ++ b!"]") by simp] at hp ⊢
  rcases c70_literals hz _ d hp with ⟨y, v, k1, k2, _⟩ | ⟨y, v, k1, k2, k3⟩
  · exfalso
    have e : tag ++ b!":" ++ dc = y := by
      exact List.append_cancel_right k1
    have := (Ip.stdIp_laws hz).chars4 y v (Ip.parse4_iff.2 k2) 58 (by rw [← e]; simp)
    revert this
    decide
  · exact ⟨y, v, by rw [k1]; simp, k2, k3⟩

/-- C93. Lines of the RFC with such a literal that are refused: a general literal in EHLO and MAIL, an IPv6 address
whose tag is in lower case in EHLO and RCPT. The same lines with the tag `IPv6` are accepted. -/
theorem c93_witness :
    Rfc5321.GeneralLiteral b!"[x400:c=de]" ∧ Rfc5321.GeneralLiteral b!"[ipv6:::1]" ∧
    (Command.parse b!"EHLO [x400:c=de]\r\n" : Except ParseErr (Command (stdIp 1))).isOk = false ∧
    (Command.parse b!"EHLO [ipv6:::1]\r\n" : Except ParseErr (Command (stdIp 1))).isOk = false ∧
    (Command.parse b!"MAIL FROM:<a@[x400:c=de]>\r\n" : Except ParseErr (Command (stdIp 1))).isOk = false ∧
    (Command.parse b!"RCPT TO:<a@[ipv6:::1]>\r\n" : Except ParseErr (Command (stdIp 1))).isOk = false ∧
    (Command.parse b!"EHLO [IPv6:::1]\r\n" : Except ParseErr (Command (stdIp 1))).isOk ∧
    (Command.parse b!"RCPT TO:<a@[IPv6:::1]>\r\n" : Except ParseErr (Command (stdIp 1))).isOk := by
  refine ⟨⟨b!"x400", b!"c=de", ⟨b!"x40", 48, rfl, by decide +kernel, by decide +kernel⟩, by simp, ?_, rfl⟩,
    ⟨b!"ipv6", b!"::1", ⟨b!"ipv", 54, rfl, by decide +kernel, by decide +kernel⟩, by simp, ?_, rfl⟩, ?_⟩
  · simp only [Rfc5321.DContent]; decide +kernel
  · simp only [Rfc5321.DContent]; decide +kernel
  · decide +kernel

/-- C93, a case: a recipient with a source route, a quoted local part, an IPv6 literal and a parameter. -/
theorem c93_example :
    Rfc5321.Line 1 b!"Rcpt To:<@relay.example,@b-2:\"a \\\" b\"@[IPv6:1::192.0.2.33]> NOTIFY=NEVER\r\n"
      (.rcpt ⟨b!"\"a \\\" b\"", some (.v6 ⟨[1, 0, 0, 0, 0, 0, 0xc000, 0x221], rfl⟩)⟩ [(b!"NOTIFY", some b!"NEVER")]) := by
  have hp : Rfc5321.OptParams b!" NOTIFY=NEVER" [(b!"NOTIFY", some b!"NEVER")] :=
    .cons (x := b!"NOTIFY=NEVER") (y := []) (.keyValue (k := b!"NOTIFY") (v := b!"NEVER")
      ⟨78, b!"OTIFY", rfl, by decide +kernel, by decide +kernel⟩ ⟨by simp, by decide +kernel⟩) .nil
  have hd1 : Rfc5321.DomainName b!"relay.example" :=
    .more (x := b!"relay") (y := b!"example")
      ⟨114, b!"elay", rfl, by decide +kernel, .inr ⟨b!"ela", 121, rfl, by decide +kernel, by decide +kernel⟩⟩
      (.one ⟨101, b!"xample", rfl, by decide +kernel, .inr ⟨b!"xampl", 101, rfl, by decide +kernel, by decide +kernel⟩⟩)
  have hd2 : Rfc5321.DomainName b!"b-2" :=
    .one ⟨98, b!"-2", rfl, by decide +kernel, .inr ⟨b!"-", 50, rfl, by decide +kernel, by decide +kernel⟩⟩
  have hr : Rfc5321.Adl b!"@relay.example,@b-2" := .more hd1 (.one hd2)
  have hq : Rfc5321.QContent b!"a \\\" b" :=
    .text (by decide +kernel) (.text (by decide +kernel) (.pair (by decide +kernel) (.text (by decide +kernel) (.text (by decide +kernel) .nil))))
  have hl : Rfc5321.LocalPart b!"\"a \\\" b\"" := .inr ⟨_, hq, rfl⟩
  have h4 : V4Text b!"192.0.2.33" ⟨192, 0, 2, 33⟩ :=
    ⟨b!"192", b!"0", b!"2", b!"33", rfl, by simp [OctetText, IsDigit]; decide +kernel, by simp [OctetText, IsDigit]; decide +kernel,
      by simp [OctetText, IsDigit]; decide +kernel, by simp [OctetText, IsDigit]; decide +kernel⟩
  have h6 : Rfc5321.IPv6Addr b!"1::192.0.2.33" [1, 0, 0, 0, 0, 0, 0xc000, 0x221] :=
    .v4comp (x := b!"1") (hs := [1]) (y := b!"192.0.2.33") (n := 5)
      (.inr (.one ⟨by simp, by simp, by simp [HexDigit, IsDigit], by decide +kernel⟩)) h4 ⟨rfl, rfl⟩ rfl (by omega)
  have hx : Rfc5321.Path 1 b!"<@relay.example,@b-2:\"a \\\" b\"@[IPv6:1::192.0.2.33]>"
      ⟨b!"\"a \\\" b\"", some (.v6 ⟨[1, 0, 0, 0, 0, 0, 0xc000, 0x221], rfl⟩)⟩ :=
    Rfc5321.Path.routed (z := 1) hr (.mk hl (.literal (.v6 (v := ⟨[1, 0, 0, 0, 0, 0, 0xc000, 0x221], rfl⟩) h6)))
  refine .rcpt (v := b!"Rcpt To:") ⟨rfl, by decide +kernel⟩ hx hp ⟨by simp, ?_⟩
  intro k v
  constructor
  · intro h
    simp only [List.mem_singleton] at h
    exact ⟨[], [], by simp [h], by simp⟩
  · rintro ⟨b, a, h1, h2⟩
    cases b with
    | nil => simp at h1; simp [h1]
    | cons _ b => simp at h1

/-- C93. Of the texts the library reads as an IPv6 address, the RFC's are exactly those in which `::`, if there is one, stands for at
least two groups; the library also reads those in which it stands for one, or none, depending on the version of the standard
library. -/
theorem c93_ipv6 (hz : z ≤ 1) (x : Bytes) (a : Ip.V6) :
    Rfc5321.IPv6Addr x a.1 ↔
      Domain.parse (b!"[IPv6:" ++ x ++ b!"]") = .ok (.v6 a : Domain (stdIp z)) ∧ V6Text 2 x a.1 := by
  rw [Rfc5321.ipv6_exact]
  refine ⟨fun h => ⟨(c70_v6 hz _ _).2 ?_, h⟩, fun h => h.2⟩
  exact (Rfc5321.ipv6_exact.2 h).text hz

/-- C93. The character sets of the grammar, spelled out: the RFC's rules name them by ranges and by lists of characters. -/
theorem c93_characters (c : UInt8) :
    (Rfc5321.Alpha c ↔ c ∈ b!"ABCDEFGHIJKLMNOPQRSTUVWXYZabcdefghijklmnopqrstuvwxyz") ∧
    (Rfc5321.Digit c ↔ c ∈ b!"0123456789") ∧
    (Rfc5321.AText c ↔ c ∈ b!"ABCDEFGHIJKLMNOPQRSTUVWXYZabcdefghijklmnopqrstuvwxyz0123456789!#$%&'*+-/=?^_`{|}~") ∧
    (Rfc5321.QContent [c] ↔ Rfc5321.AText c ∨ c ∈ b!" (),.:;<>@[]") ∧
    (Rfc5321.QContent [92, c] ↔ Rfc5321.QContent [c] ∨ c ∈ b!"\"\\") ∧
    (Rfc5321.DContent c ↔ Rfc5321.QContent [c] ∧ c ∉ b!" []" ∨ c = 34) ∧
    (Rfc5321.Value [c] ↔ Rfc5321.QContent [c] ∧ c ∉ b!" =" ∨ c ∈ b!"\"\\") ∧
    (Rfc5321.TextString [c] ↔ Rfc5321.QContent [c] ∨ c ∈ b!"\t\"\\") := by
  have q1 : ∀ c, Rfc5321.QContent [c] ↔ (32 ≤ c ∧ c ≤ 33) ∨ (35 ≤ c ∧ c ≤ 91) ∨ (93 ≤ c ∧ c ≤ 126) := by
    intro c
    constructor
    · generalize hx : [c] = x
      intro h
      cases h with
      | nil => cases hx
      | text h _ => cases hx; exact h
      | pair h _ => cases hx
    · intro h; exact .text h .nil
  have q2 : Rfc5321.QContent [92, c] ↔ 32 ≤ c ∧ c ≤ 126 := by
    constructor
    · generalize hx : [92, c] = x
      intro h
      cases h with
      | nil => cases hx
      | text h _ =>
        cases hx
        exact absurd h (by decide)
      | pair h h' =>
        cases hx
        exact h
    · intro h; exact .pair h .nil
  have v : Rfc5321.Value [c] ↔ (33 ≤ c ∧ c ≤ 60) ∨ (62 ≤ c ∧ c ≤ 126) := by simp [Rfc5321.Value]
  have t : Rfc5321.TextString [c] ↔ c = 9 ∨ (32 ≤ c ∧ c ≤ 126) := by simp [Rfc5321.TextString]
  rw [v, t, q2, q1]
  unfold Rfc5321.DContent Rfc5321.AText Rfc5321.Alpha Rfc5321.Digit
  clear q1 q2 v t
  dsimp only
  refine ⟨?_, ?_, ?_, ?_, ?_, ?_, ?_, ?_⟩ <;> revert c <;> set_option synthInstance.maxSize 4000 in set_option synthInstance.maxHeartbeats 400000 in decide +kernel

end Verif
