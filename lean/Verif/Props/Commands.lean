import Verif.Proofs.Verbs
/-
C27 - C39: commands, addresses, domains, parameters.

Every theorem takes the standard library's IP addresses as a parameter `L` with the laws `IpLaws L`;
`exampleIp` shows that the laws can be met.
-/
namespace Verif
open Spec Nom

variable {L : IpLib}

/-- An instance of the laws, used by the examples: one IPv4 and one IPv6 address. -/
def exampleIp : IpLib where
  V4 := Unit
  V6 := Unit
  parse4 x := if x = b!"127.0.0.1" then some () else none
  show4 _ := b!"127.0.0.1"
  parse6 x := if x = b!"::1" then some () else none
  show6 _ := b!"::1"

theorem exampleIp_laws : IpLaws exampleIp where
  parse_show4 _ := rfl
  parse_show6 _ := rfl
  chars4 x a h := by
    by_cases hx : x = b!"127.0.0.1"
    · subst hx; decide +kernel
    · simp [exampleIp, hx] at h
  chars6 x a h := by
    by_cases hx : x = b!"::1"
    · subst hx; decide +kernel
    · simp [exampleIp, hx] at h

/-! ### C29, C30: the language of each command -/

/-- C29. `DATA`, `QUIT` and `RSET` take no argument. -/
theorem c29_bare (hL : IpLaws L) (line : Bytes) :
    (Command.parse line = .ok (.data : Command L) ↔
      ∃ v bl, IsVerb b!"data" v ∧ Blanks bl ∧ line = v ++ bl ++ crlf) ∧
    (Command.parse line = .ok (.quit : Command L) ↔
      ∃ v bl, IsVerb b!"quit" v ∧ Blanks bl ∧ line = v ++ bl ++ crlf) ∧
    (Command.parse line = .ok (.rset : Command L) ↔
      ∃ v bl, IsVerb b!"rset" v ∧ Blanks bl ∧ line = v ++ bl ++ crlf) := by
  simp only [parse_iff_collect hL]
  refine ⟨⟨?_, ?_⟩, ⟨?_, ?_⟩, ⟨?_, ?_⟩⟩
  · intro h; cases h with | data v bl hv hb => exact ⟨v, bl, hv, hb, rfl⟩
  · rintro ⟨v, bl, hv, hb, rfl⟩; exact .data v bl hv hb
  · intro h; cases h with | quit v bl hv hb => exact ⟨v, bl, hv, hb, rfl⟩
  · rintro ⟨v, bl, hv, hb, rfl⟩; exact .quit v bl hv hb
  · intro h; cases h with | rset v bl hv hb => exact ⟨v, bl, hv, hb, rfl⟩
  · rintro ⟨v, bl, hv, hb, rfl⟩; exact .rset v bl hv hb

/-- C29. `EHLO` and `HELO` take a domain; blanks are allowed around verb and domain, even none between
them. -/
theorem c29_hello (hL : IpLaws L) (line : Bytes) (d : Domain L) :
    (Command.parse line = .ok (.ehlo d) ↔ ∃ b1 v b2 dt b3, IsVerb b!"ehlo" v ∧ Blanks b1 ∧ Blanks b2 ∧
      Blanks b3 ∧ DomainText L dt d ∧ line = b1 ++ v ++ b2 ++ dt ++ b3 ++ crlf) ∧
    (Command.parse line = .ok (.helo d) ↔ ∃ b1 v b2 dt b3, IsVerb b!"helo" v ∧ Blanks b1 ∧ Blanks b2 ∧
      Blanks b3 ∧ DomainText L dt d ∧ line = b1 ++ v ++ b2 ++ dt ++ b3 ++ crlf) := by
  simp only [parse_iff_collect hL]
  refine ⟨⟨?_, ?_⟩, ⟨?_, ?_⟩⟩
  · intro h; cases h with | ehlo b1 v b2 dt b3 d hv h1 h2 h3 hd => exact ⟨b1, v, b2, dt, b3, hv, h1, h2, h3, hd, rfl⟩
  · rintro ⟨b1, v, b2, dt, b3, hv, h1, h2, h3, hd, rfl⟩; exact .ehlo b1 v b2 dt b3 d hv h1 h2 h3 hd
  · intro h; cases h with | helo b1 v b2 dt b3 d hv h1 h2 h3 hd => exact ⟨b1, v, b2, dt, b3, hv, h1, h2, h3, hd, rfl⟩
  · rintro ⟨b1, v, b2, dt, b3, hv, h1, h2, h3, hd, rfl⟩; exact .helo b1 v b2 dt b3 d hv h1 h2 h3 hd

/-- C29. `EXPN` and `VRFY` take one blank and any text without CRLF. -/
theorem c29_text (hL : IpLaws L) (line s : Bytes) :
    (Command.parse line = .ok (.expn s : Command L) ↔
      ∃ v c, IsVerb b!"expn" v ∧ Blank c ∧ NoCrlf s ∧ line = v ++ [c] ++ s ++ crlf) ∧
    (Command.parse line = .ok (.vrfy s : Command L) ↔
      ∃ v c, IsVerb b!"vrfy" v ∧ Blank c ∧ NoCrlf s ∧ line = v ++ [c] ++ s ++ crlf) := by
  simp only [parse_iff_collect hL]
  refine ⟨⟨?_, ?_⟩, ⟨?_, ?_⟩⟩
  · intro h; cases h with | expn v c s hv hc hs => exact ⟨v, c, hv, hc, hs, rfl⟩
  · rintro ⟨v, c, hv, hc, hs, rfl⟩; exact .expn v c s hv hc hs
  · intro h; cases h with | vrfy v c s hv hc hs => exact ⟨v, c, hv, hc, hs, rfl⟩
  · rintro ⟨v, c, hv, hc, hs, rfl⟩; exact .vrfy v c s hv hc hs

/-- C29. `HELP` and `NOOP`: the text starts after one blank if there is one, else right after the verb. -/
theorem c29_opttext (hL : IpLaws L) (line s : Bytes) :
    (Command.parse line = .ok (.help s : Command L) ↔ ∃ v, IsVerb b!"help" v ∧ NoCrlf s ∧
      ((∃ c, Blank c ∧ line = v ++ [c] ++ s ++ crlf) ∨
        (line = v ++ s ++ crlf ∧ ∀ c, s.head? = some c → ¬ Blank c))) ∧
    (Command.parse line = .ok (.noop s : Command L) ↔ ∃ v, IsVerb b!"noop" v ∧ NoCrlf s ∧
      ((∃ c, Blank c ∧ line = v ++ [c] ++ s ++ crlf) ∨
        (line = v ++ s ++ crlf ∧ ∀ c, s.head? = some c → ¬ Blank c))) := by
  simp only [parse_iff_collect hL]
  refine ⟨⟨?_, ?_⟩, ⟨?_, ?_⟩⟩
  · intro h
    cases h with
    | help v bl s hv hs hb =>
      refine ⟨v, hv, hs, ?_⟩
      rcases hb with ⟨c, hc, rfl⟩ | ⟨rfl, hb⟩
      · exact .inl ⟨c, hc, rfl⟩
      · exact .inr ⟨by simp, hb⟩
  · rintro ⟨v, hv, hs, ⟨c, hc, rfl⟩ | ⟨rfl, hb⟩⟩
    · exact .help v [c] s hv hs (.inl ⟨c, hc, rfl⟩)
    · simpa using CmdLineOf.help (L := L) (M := fun ps m => m = Params.collect ps) v [] s hv hs (.inr ⟨rfl, hb⟩)
  · intro h
    cases h with
    | noop v bl s hv hs hb =>
      refine ⟨v, hv, hs, ?_⟩
      rcases hb with ⟨c, hc, rfl⟩ | ⟨rfl, hb⟩
      · exact .inl ⟨c, hc, rfl⟩
      · exact .inr ⟨by simp, hb⟩
  · rintro ⟨v, hv, hs, ⟨c, hc, rfl⟩ | ⟨rfl, hb⟩⟩
    · exact .noop v [c] s hv hs (.inl ⟨c, hc, rfl⟩)
    · simpa using CmdLineOf.noop (L := L) (M := fun ps m => m = Params.collect ps) v [] s hv hs (.inr ⟨rfl, hb⟩)

private theorem sameMap_last {ps} {m m' : Params} (h : IsLastMap ps m') (hs : SameMap m' m)
    (hn : (m.map (·.1)).Nodup) : IsLastMap ps m :=
  ⟨hn, fun k v => by rw [← hs]; exact h.2 k v⟩

/-- C30. `MAIL` with an address. Parameter maps are compared by their entries. -/
theorem c30_mail (hL : IpLaws L) (line : Bytes) (e : Email L) (m : Params) (hm : (m.map (·.1)).Nodup) :
    (∃ m', Command.parse line = .ok (.mail (some e) m') ∧ SameMap m' m) ↔
      ∃ v b1 x pt b2 ps, IsVerb b!"mail from:" v ∧ Blanks b1 ∧ Blanks b2 ∧ MaybeBracketed L x e ∧
        ParamsText pt ps ∧ IsLastMap ps m ∧ line = v ++ b1 ++ x ++ pt ++ b2 ++ crlf := by
  simp only [parse_iff_collect hL]
  constructor
  · rintro ⟨m', h, hs⟩
    cases h with
    | mail v b1 x pt b2 e ps m' hv hb1 hb2 hx hp hm' =>
      subst hm'
      exact ⟨v, b1, x, pt, b2, ps, hv, hb1, hb2, hx, hp, sameMap_last (collect_lastMap ps) hs hm, rfl⟩
  · rintro ⟨v, b1, x, pt, b2, ps, hv, hb1, hb2, hx, hp, hl, rfl⟩
    exact ⟨_, .mail v b1 x pt b2 e ps _ hv hb1 hb2 hx hp rfl, lastMap_unique (collect_lastMap ps) hl⟩

/-- C30. `MAIL` with the null path `<>`. -/
theorem c30_mail_null (hL : IpLaws L) (line : Bytes) (m : Params) (hm : (m.map (·.1)).Nodup) :
    (∃ m', Command.parse line = .ok (.mail none m' : Command L) ∧ SameMap m' m) ↔
      ∃ v b1 pt b2 ps, IsVerb b!"mail from:" v ∧ Blanks b1 ∧ Blanks b2 ∧
        ParamsText pt ps ∧ IsLastMap ps m ∧ line = v ++ b1 ++ b!"<>" ++ pt ++ b2 ++ crlf := by
  simp only [parse_iff_collect hL]
  constructor
  · rintro ⟨m', h, hs⟩
    cases h with
    | mailNull v b1 pt b2 ps m' hv hb1 hb2 hp hm' =>
      subst hm'
      exact ⟨v, b1, pt, b2, ps, hv, hb1, hb2, hp, sameMap_last (collect_lastMap ps) hs hm, rfl⟩
  · rintro ⟨v, b1, pt, b2, ps, hv, hb1, hb2, hp, hl, rfl⟩
    exact ⟨_, .mailNull v b1 pt b2 ps _ hv hb1 hb2 hp rfl, lastMap_unique (collect_lastMap ps) hl⟩

/-- C30. `RCPT`: there is no null path. -/
theorem c30_rcpt (hL : IpLaws L) (line : Bytes) (e : Email L) (m : Params) (hm : (m.map (·.1)).Nodup) :
    (∃ m', Command.parse line = .ok (.rcpt e m') ∧ SameMap m' m) ↔
      ∃ v b1 x pt b2 ps, IsVerb b!"rcpt to:" v ∧ Blanks b1 ∧ Blanks b2 ∧ MaybeBracketed L x e ∧
        ParamsText pt ps ∧ IsLastMap ps m ∧ line = v ++ b1 ++ x ++ pt ++ b2 ++ crlf := by
  simp only [parse_iff_collect hL]
  constructor
  · rintro ⟨m', h, hs⟩
    cases h with
    | rcpt v b1 x pt b2 e ps m' hv hb1 hb2 hx hp hm' =>
      subst hm'
      exact ⟨v, b1, x, pt, b2, ps, hv, hb1, hb2, hx, hp, sameMap_last (collect_lastMap ps) hs hm, rfl⟩
  · rintro ⟨v, b1, x, pt, b2, ps, hv, hb1, hb2, hx, hp, hl, rfl⟩
    exact ⟨_, .rcpt v b1 x pt b2 e ps _ hv hb1 hb2 hx hp rfl, lastMap_unique (collect_lastMap ps) hl⟩

theorem cmdLine_collect {line : Bytes} {c : Command L} (h : CmdLine L line c) :
    ∃ c', CollectLine L line c' ∧ SameCommand c' c := by
  cases h with
  | data v bl hv hb => exact ⟨_, .data v bl hv hb, rfl⟩
  | quit v bl hv hb => exact ⟨_, .quit v bl hv hb, rfl⟩
  | rset v bl hv hb => exact ⟨_, .rset v bl hv hb, rfl⟩
  | ehlo b1 v b2 dt b3 d hv h1 h2 h3 hd => exact ⟨_, .ehlo b1 v b2 dt b3 d hv h1 h2 h3 hd, rfl⟩
  | helo b1 v b2 dt b3 d hv h1 h2 h3 hd => exact ⟨_, .helo b1 v b2 dt b3 d hv h1 h2 h3 hd, rfl⟩
  | expn v c s hv hc hs => exact ⟨_, .expn v c s hv hc hs, rfl⟩
  | vrfy v c s hv hc hs => exact ⟨_, .vrfy v c s hv hc hs, rfl⟩
  | help v bl s hv hs hb => exact ⟨_, .help v bl s hv hs hb, rfl⟩
  | noop v bl s hv hs hb => exact ⟨_, .noop v bl s hv hs hb, rfl⟩
  | mailNull v b1 pt b2 ps m hv hb1 hb2 hp hm =>
    exact ⟨_, .mailNull v b1 pt b2 ps _ hv hb1 hb2 hp rfl, rfl, lastMap_unique (collect_lastMap ps) hm⟩
  | mail v b1 x pt b2 e ps m hv hb1 hb2 hx hp hm =>
    exact ⟨_, .mail v b1 x pt b2 e ps _ hv hb1 hb2 hx hp rfl, rfl, lastMap_unique (collect_lastMap ps) hm⟩
  | rcpt v b1 x pt b2 e ps m hv hb1 hb2 hx hp hm =>
    exact ⟨_, .rcpt v b1 x pt b2 e ps _ hv hb1 hb2 hx hp rfl, rfl, lastMap_unique (collect_lastMap ps) hm⟩

theorem collect_cmdLine {line : Bytes} {c : Command L} (h : CollectLine L line c) : CmdLine L line c := by
  cases h with
  | data v bl hv hb => exact .data v bl hv hb
  | quit v bl hv hb => exact .quit v bl hv hb
  | rset v bl hv hb => exact .rset v bl hv hb
  | ehlo b1 v b2 dt b3 d hv h1 h2 h3 hd => exact .ehlo b1 v b2 dt b3 d hv h1 h2 h3 hd
  | helo b1 v b2 dt b3 d hv h1 h2 h3 hd => exact .helo b1 v b2 dt b3 d hv h1 h2 h3 hd
  | expn v c s hv hc hs => exact .expn v c s hv hc hs
  | vrfy v c s hv hc hs => exact .vrfy v c s hv hc hs
  | help v bl s hv hs hb => exact .help v bl s hv hs hb
  | noop v bl s hv hs hb => exact .noop v bl s hv hs hb
  | mailNull v b1 pt b2 ps m hv hb1 hb2 hp hm =>
    subst hm; exact .mailNull v b1 pt b2 ps _ hv hb1 hb2 hp (collect_lastMap ps)
  | mail v b1 x pt b2 e ps m hv hb1 hb2 hx hp hm =>
    subst hm; exact .mail v b1 x pt b2 e ps _ hv hb1 hb2 hx hp (collect_lastMap ps)
  | rcpt v b1 x pt b2 e ps m hv hb1 hb2 hx hp hm =>
    subst hm; exact .rcpt v b1 x pt b2 e ps _ hv hb1 hb2 hx hp (collect_lastMap ps)

/-- C30. The whole language at once: what is parsed is in the language with that command, and every line
of the language parses to its command. -/
theorem c30_language (hL : IpLaws L) (line : Bytes) :
    (∀ c : Command L, Command.parse line = .ok c → CmdLine L line c) ∧
    ∀ c : Command L, CmdLine L line c → ∃ c', Command.parse line = .ok c' ∧ SameCommand c' c := by
  refine ⟨fun c h => collect_cmdLine ((parse_iff_collect hL _ _).1 h), fun c h => ?_⟩
  obtain ⟨c', hc, hs⟩ := cmdLine_collect h
  exact ⟨c', (parse_iff_collect hL _ _).2 hc, hs⟩

/-- C30, non-vacuity: route, brackets, parameters with a duplicate, trailing blanks. -/
example : (match (Command.parse b!"mAil FROM:\t<@a,@b.c:x.y@[127.0.0.1]> SIZE=5  BODY SIZE=7 \r\n" :
        Except ParseErr (Command exampleIp)) with
      | .ok (.mail (some e) m) => some (e.localpart, m)
      | _ => none) =
    some (b!"x.y", [(b!"SIZE", some b!"7"), (b!"BODY", none)]) := by decide +kernel

/-! ### C27, C28: round trips -/

/-- C27. What `send_to` writes for a well-formed command parses to that very command. The model lists the
parameters in the iteration order of the map, and the theorem is for every list: so for every order. -/
theorem c27_roundtrip (hL : IpLaws L) (c : Command L) (h : WFCommand c) :
    Command.parse c.sendTo = .ok c :=
  (parse_iff_collect hL _ _).2 (print_line hL h)

/-- C27. The order of the parameters is irrelevant: any other order of the same map parses to the same
map, for RCPT and for MAIL (the null path included). -/
theorem c27_any_order (hL : IpLaws L) (m m' : Params) (hp : m'.Perm m) :
    (∀ to : Email L, WFCommand (.rcpt to m) →
      ∃ m'', Command.parse (Command.rcpt to m').sendTo = .ok (.rcpt to m'') ∧ SameMap m'' m) ∧
    ∀ from_ : Option (Email L), WFCommand (.mail from_ m) →
      ∃ m'', Command.parse (Command.mail from_ m').sendTo = .ok (.mail from_ m'') ∧ SameMap m'' m := by
  have key : WFParams m → WFParams m' := fun h =>
    ⟨((hp.map _).nodup_iff).2 h.1, fun e he => h.2 e (hp.mem_iff.1 he)⟩
  exact ⟨fun to h => ⟨m', c27_roundtrip hL _ ⟨h.1, key h.2⟩, fun e => hp.mem_iff⟩,
    fun f h => ⟨m', c27_roundtrip hL _ ⟨h.1, key h.2⟩, fun e => hp.mem_iff⟩⟩

/-- C27, non-vacuity: a well-formed RCPT with quoted local part, host name and two parameters. -/
example : WFCommand (.rcpt (L := exampleIp) ⟨b!"\"a\\\" b\"", some (.host b!"ex-1.org")⟩
    [(b!"SIZE", some b!"10"), (b!"X-Y", none)]) := by
  refine ⟨⟨⟨b!"a\" b", .inr ⟨[(b!"a", 97), (b!"\\\"", 34), (b!" ", 32), (b!"b", 98)], ?_, rfl, rfl⟩⟩, ?_⟩, ?_, ?_⟩
  · intro e he
    simp at he
    rcases he with rfl | rfl | rfl | rfl
    · exact .plain _ (by simp [Printable]) (by decide) (by decide)
    · exact .escaped _ (by simp [Printable])
    · exact .plain _ (by simp [Printable]) (by decide) (by decide)
    · exact .plain _ (by simp [Printable]) (by decide) (by decide)
  · intro d hd
    cases hd
    refine ⟨[b!"ex-1", b!"org"], by simp, ?_, rfl⟩
    intro l hl
    simp at hl
    rcases hl with rfl | rfl
    · exact ⟨101, b!"x-1", rfl, by decide +kernel, by decide +kernel⟩
    · exact ⟨111, b!"rg", rfl, by decide +kernel, by decide +kernel⟩
  · decide
  · intro e he
    simp at he
    rcases he with rfl | rfl
    · exact ⟨⟨83, b!"IZE", rfl, by decide +kernel, by decide +kernel⟩, by
        intro v hv; cases hv; exact ⟨by simp, by decide +kernel⟩⟩
    · exact ⟨⟨88, b!"-Y", rfl, by decide +kernel, by decide +kernel⟩, by simp⟩

/-- C28. What is parsed is well-formed. -/
theorem c28_wellformed (hL : IpLaws L) (line : Bytes) (c : Command L) (h : Command.parse line = .ok c) :
    WFCommand c := collectLine_wf ((parse_iff_collect hL _ _).1 h)

/-- C28. Hence sending and parsing again is stable. -/
theorem c28_stable (hL : IpLaws L) (line : Bytes) (c : Command L) (h : Command.parse line = .ok c) :
    Command.parse c.sendTo = .ok c := c27_roundtrip hL c (c28_wellformed hL line c h)

/-! ### C31 - C34: lines and verbs -/

/-- C31. An accepted command is one line. -/
theorem c31_one_line (hL : IpLaws L) (line : Bytes) (c : Command L) (h : Command.parse line = .ok c) :
    OneLine line := collectLine_oneLine hL ((parse_iff_collect hL _ _).1 h)

/-- C32. The case of the verb does not matter: the whole result, accepted or not, is the same. `verbs` are
the eleven verbs, `FROM:` and `TO:` included; `b1` covers the blanks allowed before `EHLO` and `HELO`. -/
theorem c32_case_insensitive (W b1 v v' rest : Bytes)
    (hW : W ∈ [b!"data", b!"ehlo", b!"expn", b!"helo", b!"help", b!"mail from:", b!"noop", b!"quit",
      b!"rcpt to:", b!"rset", b!"vrfy"]) (hb1 : Blanks b1) (hv : IsVerb W v) (hv' : IsVerb W v') :
    (Command.parse (b1 ++ v ++ rest) : Except ParseErr (Command L)) = Command.parse (b1 ++ v' ++ rest) := by
  unfold Command.parse
  rw [List.append_assoc, List.append_assoc, commandP_caseless hW hb1 hv hv']

example : IsVerb b!"mail from:" b!"mAiL frOM:" := rfl

/-- C33. The language is unambiguous: a line is one command at most. -/
theorem c33_unambiguous (hL : IpLaws L) (line : Bytes) (c c' : Command L) (h : CmdLine L line c)
    (h' : CmdLine L line c') : SameCommand c c' := by
  obtain ⟨x, hx, hs⟩ := cmdLine_collect h
  obtain ⟨y, hy, hs'⟩ := cmdLine_collect h'
  rw [← parse_iff_collect hL] at hx hy
  rw [hx] at hy
  cases hy
  revert hs hs'
  cases x <;> cases c <;> cases c' <;> simp only [SameCommand, reduceCtorEq, Command.mail.injEq, Command.rcpt.injEq,
    false_implies, implies_true, Command.ehlo.injEq, Command.helo.injEq, Command.expn.injEq, Command.help.injEq,
    Command.noop.injEq, Command.vrfy.injEq] <;> first
      | (rintro ⟨rfl, h1⟩ ⟨rfl, h2⟩; exact ⟨rfl, fun e => (h1 e).symm.trans (h2 e)⟩)
      | (rintro rfl rfl; rfl)

/-- C33. A line accepted by one alternative of the parser is refused with `Error` by every other one, so
the order of the alternatives is irrelevant: any permutation of them accepts the same lines with the same
commands. -/
theorem c33_order_irrelevant (hL : IpLaws L) (ps : List (Parser (Command L)))
    (hp : ps.Perm [dataArgs, ehloArgs, expnArgs, heloArgs, helpArgs, mailArgs, noopArgs, quitArgs, rcptArgs,
      rsetArgs, vrfyArgs]) (line : Bytes) (c : Command L) :
    nomToResult (ps.foldr alt Parser.fail line) = .ok c ↔ Command.parse line = .ok c := by
  rw [nomToResult_ok, parse_iff_collect hL]
  constructor
  · intro h
    obtain ⟨p, hm, hd⟩ := foldr_alt_some h
    exact alternative_sound (hp.mem_iff.1 hm) hd
  · intro h
    have hd := commandP_complete hL h
    rw [commandP_foldr] at hd
    obtain ⟨p, hm, hpd⟩ := foldr_alt_some hd
    exact foldr_alt_done (fun q hq => alternatives_apart hL h q (hp.mem_iff.1 hq)) ⟨p, hp.mem_iff.2 hm, hpd⟩

/-- C34 is false of the code: the argument of NOOP (likewise EXPN, HELP, VRFY) is public and unchecked, so
`send_to` can be made to write two commands. -/
theorem c34_refuted : ∃ c : Command exampleIp, ¬ OneLine c.sendTo ∧
    ∃ a b : Command exampleIp, Command.parse a.sendTo = .ok a ∧ Command.parse b.sendTo = .ok b ∧
      c.sendTo = a.sendTo ++ b.sendTo := by
  refine ⟨.noop b!"x\r\nQUIT", ?_, .noop b!"x", .quit, ?_, ?_, rfl⟩
  · rintro ⟨body, h1, h2⟩
    apply h2
    have : body = b!"NOOP x\r\nQUIT" := by
      have h3 : b!"NOOP x\r\nQUIT" ++ crlf = body ++ crlf := h1
      exact (List.append_inj_left' h3 rfl).symm
    rw [this]
    exact ⟨b!"NOOP x", b!"QUIT", rfl⟩
  · refine c27_roundtrip exampleIp_laws _ ?_
    exact noCr_noCrlf (by simp [NoCr])
  · exact c27_roundtrip exampleIp_laws _ trivial

/-- C34, what holds: a well-formed command, hence every command obtained by parsing, is written as exactly
one line. Missing: commands built by hand with a CRLF in the text argument, see `c34_refuted`. -/
theorem c34_partial (hL : IpLaws L) (c : Command L) (h : WFCommand c) : OneLine c.sendTo :=
  c31_one_line hL _ c (c27_roundtrip hL c h)

/-- C34. For the four free-text commands the condition is exact. -/
theorem c34_exact (s : Bytes) :
    (OneLine (Command.noop s : Command L).sendTo ↔ NoCrlf s) ∧
    (OneLine (Command.help s : Command L).sendTo ↔ NoCrlf s) ∧
    (OneLine (Command.expn s : Command L).sendTo ↔ NoCrlf s) ∧
    (OneLine (Command.vrfy s : Command L).sendTo ↔ NoCrlf s) := by
  have key (p : Bytes) (hp : NoCr p) : OneLine (p ++ s ++ crlf) ↔ NoCrlf s := by
    constructor
    · rintro ⟨body, h1, h2⟩
      have := List.append_inj_left' h1 rfl
      subst this
      intro h; exact h2 (h.trans (List.suffix_append p s).isInfix)
    · intro h; exact ⟨_, rfl, noCr_append_noCrlf hp h⟩
  exact ⟨key b!"NOOP " (by simp [NoCr]), key b!"HELP " (by simp [NoCr]), key b!"EXPN " (by simp [NoCr]),
    key b!"VRFY " (by simp [NoCr])⟩

/-! ### C35: parameters -/

/-- C35. Parsing parameters in front of the end of a line: every text of the grammar is read completely,
and the map has, for each key, the value of its last occurrence. -/
theorem c35_last_wins (pt bl : Bytes) (ps : List (Bytes × Option Bytes)) (h : ParamsText pt ps) (hb : Blanks bl) :
    ∃ m, parametersP (pt ++ (bl ++ crlf)) = .done (bl ++ crlf) m ∧ IsLastMap ps m :=
  ⟨_, parametersP_complete h hb, collect_lastMap ps⟩

/-- C35. The value found under a key is that of its last occurrence. -/
theorem c35_get (before after : List (Bytes × Option Bytes)) (k : Bytes) (v : Option Bytes)
    (h : k ∉ after.map (·.1)) : Params.get (Params.collect (before ++ [(k, v)] ++ after)) k = some v := by
  have hm := collect_lastMap (before ++ [(k, v)] ++ after)
  have hin := (hm.2 k v).2 ⟨before, after, rfl, h⟩
  have hn := hm.1
  generalize Params.collect (before ++ [(k, v)] ++ after) = m at hin hn
  unfold Params.get
  induction m with
  | nil => simp at hin
  | cons e m ih =>
    obtain ⟨k', v'⟩ := e
    simp only [List.map_cons, List.nodup_cons] at hn
    rw [List.lookup_cons]
    by_cases hk : k = k'
    · subst hk
      rcases List.mem_cons.1 hin with h1 | h1
      · cases h1; simp
      · exact absurd (List.mem_map_of_mem (f := (·.1)) h1) hn.1
    · rcases List.mem_cons.1 hin with h1 | h1
      · cases h1; exact absurd rfl hk
      · have : (k == k') = false := by simpa using hk
        rw [this]
        exact ih h1 hn.2

/-- C35. Sending a map in any iteration order and parsing it back gives the same map. -/
theorem c35_order_irrelevant (m m' : Params) (h : WFParams m) (hp : m'.Perm m) :
    ∃ m'', parametersP (m'.sendTo ++ crlf) = .done crlf m'' ∧ SameMap m'' m := by
  have hn : (m'.map (·.1)).Nodup := ((hp.map _).nodup_iff).2 h.1
  have := parametersP_complete (t := [10]) (params_print (m := m') fun e he => h.2 e (hp.mem_iff.1 he)) blanks_nil
  refine ⟨m', ?_, fun e => hp.mem_iff⟩
  rw [collect_nodup m' hn] at this
  exact this

example : IsLastMap [(b!"A", some b!"1"), (b!"B", none), (b!"A", none)]
    (Params.collect [(b!"A", some b!"1"), (b!"B", none), (b!"A", none)]) ∧
    Params.collect [(b!"A", some b!"1"), (b!"B", none), (b!"A", none)] = [(b!"A", none), (b!"B", none)] :=
  ⟨collect_lastMap _, by decide⟩

/-! ### C36: paths -/

/-- C36. With any source route and with or without angle brackets, RCPT yields the same command as with
the bare address. -/
theorem c36_rcpt (hL : IpLaws L) (v b1 et route pt b2 : Bytes) (e : Email L) (ps : List (Bytes × Option Bytes))
    (hv : IsVerb b!"rcpt to:" v) (hb1 : Blanks b1) (hb2 : Blanks b2) (he : EmailText L et e) (hr : IsRoute L route)
    (hp : ParamsText pt ps) :
    ∃ m, IsLastMap ps m ∧ ∀ x ∈ [et, [60] ++ et ++ [62], route ++ et, [60] ++ (route ++ et) ++ [62]],
      Command.parse (v ++ b1 ++ x ++ pt ++ b2 ++ crlf) = .ok (.rcpt e m) := by
  refine ⟨_, collect_lastMap ps, ?_⟩
  have plain : PathText L et e := ⟨[], et, .inl rfl, he, rfl⟩
  have routed : PathText L (route ++ et) e := ⟨route, et, .inr hr, he, rfl⟩
  intro x hx
  rw [parse_iff_collect hL]
  refine .rcpt v b1 x pt b2 e ps _ hv hb1 hb2 ?_ hp rfl
  simp only [List.mem_cons, List.not_mem_nil, or_false] at hx
  rcases hx with rfl | rfl | rfl | rfl
  · exact .inl plain
  · exact .inr ⟨_, plain, rfl⟩
  · exact .inl routed
  · exact .inr ⟨_, routed, rfl⟩

/-- C36. The same for MAIL. -/
theorem c36_mail (hL : IpLaws L) (v b1 et route pt b2 : Bytes) (e : Email L) (ps : List (Bytes × Option Bytes))
    (hv : IsVerb b!"mail from:" v) (hb1 : Blanks b1) (hb2 : Blanks b2) (he : EmailText L et e) (hr : IsRoute L route)
    (hp : ParamsText pt ps) :
    ∃ m, IsLastMap ps m ∧ ∀ x ∈ [et, [60] ++ et ++ [62], route ++ et, [60] ++ (route ++ et) ++ [62]],
      Command.parse (v ++ b1 ++ x ++ pt ++ b2 ++ crlf) = .ok (.mail (some e) m) := by
  refine ⟨_, collect_lastMap ps, ?_⟩
  have plain : PathText L et e := ⟨[], et, .inl rfl, he, rfl⟩
  have routed : PathText L (route ++ et) e := ⟨route, et, .inr hr, he, rfl⟩
  intro x hx
  rw [parse_iff_collect hL]
  refine .mail v b1 x pt b2 e ps _ hv hb1 hb2 ?_ hp rfl
  simp only [List.mem_cons, List.not_mem_nil, or_false] at hx
  rcases hx with rfl | rfl | rfl | rfl
  · exact .inl plain
  · exact .inr ⟨_, plain, rfl⟩
  · exact .inl routed
  · exact .inr ⟨_, routed, rfl⟩

private theorem ab_text : EmailText exampleIp b!"a@b" ⟨b!"a", some (.host b!"b")⟩ := by
  refine ⟨⟨b!"a", .inl ⟨⟨[b!"a"], by simp, ?_, rfl⟩, rfl⟩⟩, .inr ⟨_, b!"b", rfl, .host _ ?_, rfl⟩⟩
  · intro l hl; simp at hl; subst hl; exact ⟨by simp, by decide +kernel⟩
  · refine ⟨[b!"b"], by simp, ?_, rfl⟩
    intro l hl; simp at hl; subst hl; exact ⟨98, [], rfl, by decide +kernel, by simp⟩

/-- C36, non-vacuity. -/
example : EmailText exampleIp b!"a@b" ⟨b!"a", some (.host b!"b")⟩ ∧ IsRoute exampleIp b!"@b,@[127.0.0.1]:" := by
  refine ⟨ab_text, [b!"@b", b!"@[127.0.0.1]"], ?_, rfl⟩
  intro h hh
  simp at hh
  rcases hh with rfl | rfl
  · refine ⟨b!"b", _, .host _ ⟨[b!"b"], by simp, ?_, rfl⟩, rfl⟩
    intro l hl; simp at hl; subst hl; exact ⟨98, [], rfl, by decide +kernel, by simp⟩
  · exact ⟨_, _, .v4 b!"127.0.0.1" () (by decide) rfl, rfl⟩

/-! ### C37, C38: addresses -/

/-- C37. `Email::parse` accepts exactly the addresses. -/
theorem c37_exact (hL : IpLaws L) (x : Bytes) (e : Email L) :
    Email.parse x = .ok e ↔ EmailText L x e := by
  unfold Email.parse
  rw [nomToResult_ok]
  constructor
  · intro h
    obtain ⟨y, hy, hxy⟩ := emailP_sound h
    rw [List.append_nil] at hxy; subst hxy; exact hy
  · intro h
    have := emailP_complete hL (r := []) h (stopAt_nil _)
    simpa using this

/-- C37. A well-formed address prints to a string that parses back to it. -/
theorem c37_roundtrip (hL : IpLaws L) (e : Email L) (h : WFEmail e) : Email.parse e.sendTo = .ok e :=
  (c37_exact hL _ _).2 (email_print hL h)

/-- C37. An accepted address is well-formed and so survives printing. -/
theorem c37_stable (hL : IpLaws L) (x : Bytes) (e : Email L) (h : Email.parse x = .ok e) :
    WFEmail e ∧ Email.parse e.sendTo = .ok e :=
  have := emailText_wf ((c37_exact hL x e).1 h)
  ⟨this, c37_roundtrip hL e this⟩

example : EmailText exampleIp b!"a@b" ⟨b!"a", some (.host b!"b")⟩ := ab_text

/-- C38. For a parsed address `localpart()` does not panic; it is the content of the local part: the text
itself for a dot-string, the unescaped content for a quoted string. -/
theorem c38_parsed (hL : IpLaws L) (x : Bytes) (e : Email L) (h : Email.parse x = .ok e) :
    ∃ content, e.localpartFn = some content ∧ IsLocal e.localpart content := by
  obtain ⟨⟨content, hc⟩, _⟩ := (c37_exact hL x e).1 h
  exact ⟨content, localpart_unquotes hc, hc⟩

/-- C38. The same for addresses inside parsed commands. -/
theorem c38_command (hL : IpLaws L) (line : Bytes) (e : Email L) (m : Params)
    (h : Command.parse line = .ok (.mail (some e) m) ∨ Command.parse line = .ok (.rcpt e m)) :
    ∃ content, e.localpartFn = some content ∧ IsLocal e.localpart content := by
  have : WFEmail e := by
    rcases h with h | h
    · exact (c28_wellformed hL _ _ h).1 e rfl
    · exact (c28_wellformed hL _ _ h).1
  obtain ⟨⟨content, hc⟩, _⟩ := this
  exact ⟨content, localpart_unquotes hc, hc⟩

/-- C38. A local part has one meaning only. -/
theorem c38_unique (s c c' : Bytes) (h : IsLocal s c) (h' : IsLocal s c') : c = c' := by
  have a := localpart_unquotes (e := (⟨s, none⟩ : Email exampleIp)) h
  have b := localpart_unquotes (e := (⟨s, none⟩ : Email exampleIp)) h'
  rw [a] at b; exact Option.some.inj b

/-- Quoting as a user would do it: a backslash before quotes and backslashes. -/
def quoteLocal (s : Bytes) : Bytes :=
  [34] ++ s.flatMap (fun c => if c = 34 ∨ c = 92 then [92, c] else [c]) ++ [34]

/-- C38. Any printable string can be quoted, parsed and read back unchanged. -/
theorem c38_quote (hL : IpLaws L) (s : Bytes) (hs : ∀ c ∈ s, Printable c) :
    ∃ e : Email L, Email.parse (quoteLocal s) = .ok e ∧ e.localpartFn = some s := by
  have hq : IsQuoted (quoteLocal s) s := by
    refine ⟨s.map fun c => (if c = 34 ∨ c = 92 then [92, c] else [c], c), ?_, ?_, ?_⟩
    · intro e he
      obtain ⟨c, hc, rfl⟩ := List.mem_map.1 he
      by_cases h : c = 34 ∨ c = 92
      · simp only [h, if_true]; exact .escaped c (hs c hc)
      · simp only [h, if_false]; exact .plain c (hs c hc) (fun h' => h (.inl h')) (fun h' => h (.inr h'))
    · simp [quoteLocal, List.flatMap, Function.comp_def]
    · simp [Function.comp_def]
  refine ⟨⟨quoteLocal s, none⟩, (c37_exact hL _ _).2 ⟨⟨s, .inr hq⟩, .inl ⟨rfl, rfl⟩⟩, ?_⟩
  exact localpart_unquotes (.inr hq)

example : quoteLocal b!"a\"b" = b!"\"a\\\"b\"" := by decide

/-! ### C39: domains -/

/-- C39. `Domain::parse` accepts exactly the domains. -/
theorem c39_exact (hL : IpLaws L) (x : Bytes) (d : Domain L) :
    Domain.parse x = .ok d ↔ DomainText L x d := by
  unfold Domain.parse
  rw [nomToResult_ok]
  constructor
  · intro h
    obtain ⟨y, hy, hxy⟩ := hostnameP_sound h
    rw [List.append_nil] at hxy; subst hxy; exact hy
  · intro h
    have := hostnameP_complete hL (r := []) h (stopAt_nil _)
    simpa using this

/-- C39. A well-formed domain survives printing and parsing. -/
theorem c39_roundtrip (hL : IpLaws L) (d : Domain L) (h : WFDomain d) : Domain.parse d.sendTo = .ok d :=
  (c39_exact hL _ _).2 (domain_print hL h)

/-- C39. So does a parsed one. -/
theorem c39_stable (hL : IpLaws L) (x : Bytes) (d : Domain L) (h : Domain.parse x = .ok d) :
    WFDomain d ∧ Domain.parse d.sendTo = .ok d :=
  have := domainText_wf ((c39_exact hL x d).1 h)
  ⟨this, c39_roundtrip hL d this⟩

example : DomainText exampleIp b!"[IPv6:::1]" (.v6 ()) :=
  DomainText.v6 (L := exampleIp) b!"::1" () (by decide) rfl

end Verif
