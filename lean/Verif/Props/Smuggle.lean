import Verif.Spec.Smuggle
import Verif.Props.EndToEnd
/-
C99: line ends other than CRLF.
-/
namespace Verif
open Spec Server
variable {L : IpLib} {S U : Type}

private def Clean (b : Bytes) : Prop := ∀ c ∈ b, TextByte c

private theorem Clean.nil : Clean [] := by simp [Clean]

private theorem Clean.append {a b : Bytes} (ha : Clean a) (hb : Clean b) : Clean (a ++ b) := by
  intro c hc
  rcases List.mem_append.1 hc with h | h
  · exact ha c h
  · exact hb c h

private theorem Clean.flatten {ls : List Bytes} (h : ∀ l ∈ ls, Clean l) : Clean ls.flatten := by
  intro c hc
  obtain ⟨l, hl, hc⟩ := List.mem_flatten.1 hc
  exact h l hl c hc

private theorem Clean.joinWith {sep : UInt8} (hs : TextByte sep) {ls : List Bytes} (h : ∀ l ∈ ls, Clean l) :
    Clean (joinWith sep ls) := by
  induction ls with
  | nil => exact .nil
  | cons l ls ih =>
    cases ls with
    | nil => exact h l (by simp)
    | cons m ms =>
      rw [Spec.joinWith]
      · exact ((h l (by simp)).append (by intro c hc; simp at hc; subst hc; exact hs)).append
          (ih (fun x hx => h x (by simp [hx])))
      · simp

private instance (b : Bytes) : Decidable (Clean b) := by unfold Clean; infer_instance

private theorem alnum_t : ∀ c : UInt8, Alnum c → TextByte c := by decide +kernel
private theorem alnumdash_t : ∀ c : UInt8, AlnumDash c → TextByte c := by decide +kernel
private theorem atext_t : ∀ c : UInt8, Atext c → TextByte c := by decide +kernel
private theorem value_t : ∀ c : UInt8, ValueByte c → TextByte c := by decide +kernel
private theorem blank_t : ∀ c : UInt8, Blank c → TextByte c := by decide +kernel
private theorem ip4_t : ∀ c : UInt8, (IsDigit c ∨ c = 46) → TextByte c := by decide +kernel
private theorem ip6_t : ∀ c : UInt8,
    (IsDigit c ∨ (65 ≤ c ∧ c ≤ 70) ∨ (97 ≤ c ∧ c ≤ 102) ∨ c = 58 ∨ c = 46) → TextByte c := by decide +kernel

private theorem blanks_c {b : Bytes} (h : Blanks b) : Clean b := fun c hc => blank_t c (h c hc)

private theorem label_c {l : Bytes} (h : IsLabel l) : Clean l := by
  obtain ⟨c, r, rfl, h1, h2⟩ := h
  intro x hx
  rcases List.mem_cons.1 hx with rfl | hx
  · exact alnum_t _ h1
  · exact alnumdash_t _ (h2 x hx)

private theorem domain_c (hL : IpLaws L) {x : Bytes} {d : Domain L} (h : DomainText L x d) : Clean x := by
  cases h with
  | host _ h =>
    obtain ⟨ls, _, h1, rfl⟩ := h
    exact Clean.joinWith (by decide) fun l hl => label_c (h1 l hl)
  | v4 x a _ hp =>
    exact ((show Clean b!"[" by decide +kernel).append fun c hc => ip4_t c (hL.chars4 x a hp c hc)).append
      (show Clean b!"]" by decide +kernel)
  | v6 x a _ hp =>
    exact ((show Clean b!"[IPv6:" by decide +kernel).append fun c hc => ip6_t c (hL.chars6 x a hp c hc)).append
      (show Clean b!"]" by decide +kernel)

private theorem local_c {x content : Bytes} (h : IsLocal x content) : Clean x := by
  rcases h with ⟨⟨ls, _, h, rfl⟩, _⟩ | ⟨items, h, rfl, _⟩
  · exact Clean.joinWith (by decide) fun l hl c hc => atext_t c ((h l hl).2 c hc)
  · refine ((show Clean [34] by decide +kernel).append (Clean.flatten ?_)).append (show Clean [34] by decide +kernel)
    intro l hl
    obtain ⟨e, he, rfl⟩ := List.mem_map.1 hl
    have := h e he
    generalize e.1 = t at this ⊢
    cases this with
    | plain c hp => intro c hc; simp at hc; subst hc; exact .inr hp
    | escaped c hp =>
      intro c hc; simp at hc; rcases hc with rfl | rfl
      · decide
      · exact .inr hp

private theorem email_c (hL : IpLaws L) {x : Bytes} {e : Email L} (h : EmailText L x e) : Clean x := by
  obtain ⟨⟨content, hl⟩, ⟨_, rfl⟩ | ⟨d, dt, _, hd, rfl⟩⟩ := h
  · exact local_c hl
  · exact ((local_c hl).append (show Clean [64] by decide +kernel)).append (domain_c hL hd)

private theorem path_c (hL : IpLaws L) {x : Bytes} {e : Email L} (h : PathText L x e) : Clean x := by
  obtain ⟨route, et, hr, he, rfl⟩ := h
  refine Clean.append ?_ (email_c hL he)
  rcases hr with rfl | ⟨hops, hh, rfl⟩
  · exact Clean.nil
  · refine (Clean.joinWith (by decide) ?_).append (show Clean [58] by decide +kernel)
    intro h hm
    obtain ⟨dt, d, hd, rfl⟩ := hh h hm
    exact (show Clean [64] by decide +kernel).append (domain_c hL hd)

private theorem bracketed_c (hL : IpLaws L) {x : Bytes} {e : Email L} (h : MaybeBracketed L x e) : Clean x := by
  rcases h with h | ⟨t, h, rfl⟩
  · exact path_c hL h
  · exact ((show Clean [60] by decide +kernel).append (path_c hL h)).append (show Clean [62] by decide +kernel)

private theorem params_c {x : Bytes} {ps} (h : ParamsText x ps) : Clean x := by
  obtain ⟨ts, h1, rfl, _⟩ := h
  refine Clean.flatten ?_
  intro l hl
  obtain ⟨e, he, rfl⟩ := List.mem_map.1 hl
  obtain ⟨bl, _, hb, hk, ⟨_, h⟩ | ⟨v, _, hv, h⟩⟩ := h1 e he <;> rw [h]
  · exact (blanks_c hb).append (label_c hk)
  · exact (((blanks_c hb).append (label_c hk)).append (show Clean [61] by decide +kernel)).append fun c hc => value_t c (hv.2 c hc)

private theorem verb_t : ∀ c : UInt8, TextByte (if 65 ≤ c ∧ c ≤ 90 then c + 32 else c) → TextByte c := by decide +kernel

private theorem verb_c {w v : Bytes} (h : IsVerb w v) (hw : Clean w) : Clean v := by
  intro c hc
  apply verb_t
  apply hw
  rw [← h]
  exact List.mem_map_of_mem hc

/-- C99. A line that is accepted as a command other than EXPN, VRFY, HELP, NOOP holds nothing but TABs and printable ASCII
before its CRLF: no bare CR or LF, no NUL, nothing beyond ASCII. -/
theorem c99_accepted_clean (hL : IpLaws L) (line : Bytes) (c : Command L) (h : Command.parse line = .ok c) (hc : ¬ FreeText c) :
    ∃ body, line = body ++ crlf ∧ ∀ x ∈ body, TextByte x := by
  have h1 := (c30_language hL line).1 c h
  cases h1 with
  | data v bl hv hb => exact ⟨_, rfl, (verb_c hv (by decide +kernel)).append (blanks_c hb)⟩
  | quit v bl hv hb => exact ⟨_, rfl, (verb_c hv (by decide +kernel)).append (blanks_c hb)⟩
  | rset v bl hv hb => exact ⟨_, rfl, (verb_c hv (by decide +kernel)).append (blanks_c hb)⟩
  | ehlo b1 v b2 dt b3 d hv h1 h2 h3 hd =>
    exact ⟨_, rfl, ((((blanks_c h1).append (verb_c hv (by decide +kernel))).append (blanks_c h2)).append (domain_c hL hd)).append
      (blanks_c h3)⟩
  | helo b1 v b2 dt b3 d hv h1 h2 h3 hd =>
    exact ⟨_, rfl, ((((blanks_c h1).append (verb_c hv (by decide +kernel))).append (blanks_c h2)).append (domain_c hL hd)).append
      (blanks_c h3)⟩
  | expn => exact absurd trivial hc
  | vrfy => exact absurd trivial hc
  | help => exact absurd trivial hc
  | noop => exact absurd trivial hc
  | mailNull v b1 pt b2 ps m hv hb1 hb2 hp hm =>
    exact ⟨_, rfl, ((((verb_c hv (by decide +kernel)).append (blanks_c hb1)).append (show Clean b!"<>" by decide +kernel)).append
      (params_c hp)).append (blanks_c hb2)⟩
  | mail v b1 x pt b2 e ps m hv hb1 hb2 hx hp hm =>
    exact ⟨_, rfl, ((((verb_c hv (by decide +kernel)).append (blanks_c hb1)).append (bracketed_c hL hx)).append
      (params_c hp)).append (blanks_c hb2)⟩
  | rcpt v b1 x pt b2 e ps m hv hb1 hb2 hx hp hm =>
    exact ⟨_, rfl, ((((verb_c hv (by decide +kernel)).append (blanks_c hb1)).append (bracketed_c hL hx)).append
      (params_c hp)).append (blanks_c hb2)⟩

/-- C99. So is everything a client sends for well-formed values of these commands: what it takes from an accepted envelope
cannot break out of the line, however the next server ends its lines. -/
theorem c99_sent_clean (hL : IpLaws L) (c : Command L) (h : WFCommand c) (hc : ¬ FreeText c) :
    ∃ body, c.sendTo = body ++ crlf ∧ ∀ x ∈ body, TextByte x :=
  c99_accepted_clean hL _ c (c27_roundtrip hL c h) hc

/-- C99. The four commands with free text let everything pass but CRLF, in both directions. -/
theorem c99_free_text (hL : IpLaws L) (s : Bytes) (hs : NoCrlf s) :
    (Command.noop s : Command L).sendTo = b!"NOOP " ++ s ++ crlf ∧
    Command.parse (b!"NOOP " ++ s ++ crlf) = .ok (.noop s : Command L) := by
  refine ⟨rfl, ?_⟩
  have := c27_roundtrip hL (.noop s : Command L) hs
  exact this

/-- C99. Inbound: a message ends at CRLF dot CRLF (or at dot CRLF at its very beginning) and at nothing else. -/
theorem c99_only_crlf_ends (s : Prep Bytes) :
    (∃ d, (DStream.new s).readAll.2.complete = .ok (true, d)) ↔ b!".\r\n" <+: s.bytes ∨ b!"\r\n.\r\n" <:+: s.bytes :=
  c03_ok_iff_marker s

/-- C99. Inbound: bare CRs and LFs never end a message, in whatever combination with dots. -/
theorem c99_bare_never_ends (s : Prep Bytes) (h : NoCrlf s.bytes) :
    (DStream.new s).readAll.1.flatten = decodedPart s.bytes ∧ ∃ d, (DStream.new s).readAll.2.complete = .ok (false, d) := by
  have := c03_early_end s [] s.bytes ⟨by simp [linesBytes], by simp, h⟩
  simpa [decodedLines] using this

private theorem undotted {l : Bytes} (h : l.head? ≠ some 46) : dropDot l = l := by
  cases l with
  | nil => rfl
  | cons c r =>
    unfold dropDot
    split
    · rename_i h'; simp at h'; simp [h'.1] at h
    · rfl

private theorem lines_inj {as bs : List Bytes} (ha : ∀ l ∈ as, NoCrlf l) (hb : ∀ l ∈ bs, NoCrlf l)
    (h : linesBytes as = linesBytes bs) : as = bs := by
  induction as generalizing bs with
  | nil => cases bs with
    | nil => rfl
    | cons b bs => simp [linesBytes] at h
  | cons a as ih => cases bs with
    | nil => simp [linesBytes] at h
    | cons b bs =>
      have h' : a ++ crlf ++ linesBytes as = b ++ crlf ++ linesBytes bs := h
      have e := congrArg findCrlf h'
      rw [findCrlf_some (ha a (by simp)), findCrlf_some (hb b (by simp))] at e
      simp only [Option.some.injEq] at e
      rw [List.append_assoc, List.append_assoc] at h'
      obtain ⟨rfl, h''⟩ := List.append_inj h' e
      rw [ih (fun l hl => ha l (by simp [hl])) (fun l hl => hb l (by simp [hl])) (List.append_cancel_left h'')]

private theorem undotted' {l : Bytes} (h : l.head? ≠ some 46) : addDot l = l := by
  cases l with
  | nil => rfl
  | cons c r =>
    unfold addDot
    split
    · rename_i h'; simp at h'; simp [h'.1] at h
    · rfl

/-- C99. Outbound: `DataSink` passes bare CRs and LFs on. For every sequence of lines, none beginning with a dot (say, the
commands of another mail), there is a message that this library's server takes for one message, and that a client built from
this library sends so, in whatever chunks, that a receiver that takes LF for a line end reads a message of one line, and then
these lines as commands. -/
theorem c99_outbound (ps : List Bytes) (hps : ∀ p ∈ ps, NoCrlf p ∧ p.head? ≠ some 46) :
    ∃ raw ls, IsMessage raw ls [] ∧ ∀ chunks, chunks.flatten = decodedLines ls →
      LenientMessage (dataBytes chunks) [b!"x"] (linesBytes ps ++ b!".\r\n") := by
  have hx : NoCrlf b!"x\n." := by unfold NoCrlf; decide
  have hd : decodedLines (b!"x\n." :: ps) = linesBytes (b!"x\n." :: ps) := by
    unfold decodedLines linesBytes
    rw [List.flatMap_cons, List.flatMap_cons]
    congr 1
    clear hx
    induction ps with
    | nil => rfl
    | cons p ps ih =>
      rw [List.flatMap_cons, List.flatMap_cons, undotted (hps p (by simp)).2, ih fun q hq => hps q (by simp [hq])]
  refine ⟨linesBytes (b!"x\n." :: ps) ++ b!".\r\n", b!"x\n." :: ps, ⟨by simp, ?_⟩, ?_⟩
  · intro l hl
    rcases List.mem_cons.1 hl with rfl | hl
    · exact ⟨hx, by decide⟩
    · exact ⟨(hps l hl).1, by intro h; exact (hps l hl).2 (by rw [h]; rfl)⟩
  · intro chunks hc
    obtain ⟨ls, k1, k2, k3⟩ := wire_lines (linesBytes (b!"x\n." :: ps))
    have hw : wholeLines (linesBytes (b!"x\n." :: ps)) = linesBytes (b!"x\n." :: ps) := by
      rw [← hd]
      obtain ⟨l, a, e⟩ : ∃ l a, b!"x\n." :: ps = l ++ [a] := ⟨_, _, (List.dropLast_concat_getLast (by simp)).symm⟩
      unfold wholeLines
      rw [if_pos]
      right
      rw [e]
      exact ⟨decodedLines l ++ dropDot a, by simp [decodedLines]⟩
    have hcr : ∀ l ∈ b!"x\n." :: ps, NoCrlf l := by
      intro l hl
      rcases List.mem_cons.1 hl with rfl | hl
      · exact hx
      · exact (hps l hl).1
    rw [hw] at k3
    obtain rfl := lines_inj hcr k1 k3
    have hm : (b!"x\n." :: ps).map addDot = b!"x\n." :: ps := by
      rw [List.map_cons, undotted' (by simp)]
      congr 1
      conv => rhs; rw [← List.map_id ps]
      exact List.map_congr_left fun p hp => undotted' (hps p hp).2
    rw [dataBytes_wire, hc, hd, k2, hm]
    exact ⟨b!".\r\n", .inr rfl, by simp [linesBytes, crlf], by simp⟩

private theorem upto_lf {a b x y : Bytes} (ha : 10 ∉ a) (hb : 10 ∉ b) (h : a ++ 10 :: x = b ++ 10 :: y) : a = b ∧ x = y := by
  induction a generalizing b with
  | nil => cases b with
    | nil => simpa using h
    | cons c b => simp at h; exact absurd hb (by simp [h.1])
  | cons c a ih => cases b with
    | nil => simp at h; exact absurd ha (by simp [h.1])
    | cons e b =>
      simp only [List.cons_append, List.cons.injEq] at h
      simp only [List.mem_cons, not_or] at ha hb
      obtain ⟨r, s⟩ := ih ha.2 hb.2 h.2
      exact ⟨by rw [h.1, r], s⟩

/-- C99. Such a receiver reads what it is sent in one way only: the text, and what is left for commands, are determined. -/
theorem c99_reading {raw : Bytes} {ls ls' : List Bytes} {rest rest' : Bytes} (h : LenientMessage raw ls rest)
    (h' : LenientMessage raw ls' rest') : ls = ls' ∧ rest = rest' := by
  obtain ⟨dot, hd, rfl, hl⟩ := h
  obtain ⟨dot', hd', e, hl'⟩ := h'
  have cut : ∀ dot : Bytes, (dot = b!".\n" ∨ dot = b!".\r\n") → ∃ p, dot = p ++ [10] ∧ (p = b!"." ∨ p = b!".\r") := by
    rintro dot (rfl | rfl)
    · exact ⟨b!".", rfl, .inl rfl⟩
    · exact ⟨b!".\r", rfl, .inr rfl⟩
  obtain ⟨p, rfl, hp⟩ := cut dot hd
  obtain ⟨p', rfl, hp'⟩ := cut dot' hd'
  have np : 10 ∉ p := by rcases hp with rfl | rfl <;> decide
  have np' : 10 ∉ p' := by rcases hp' with rfl | rfl <;> decide
  clear hd hd' cut
  induction ls generalizing ls' with
  | nil => cases ls' with
    | nil => simpa using (upto_lf np np' (by simpa using e)).2
    | cons l ls' =>
      obtain ⟨k1, k2, k3⟩ := hl' l (by simp)
      obtain rfl := (upto_lf np k1 (by simpa using e)).1
      rcases hp with h | h
      · exact absurd h k2
      · exact absurd h k3
  | cons l ls ih =>
    obtain ⟨k1, k2, k3⟩ := hl l (by simp)
    cases ls' with
    | nil =>
      obtain rfl := (upto_lf k1 np' (by simpa using e)).1
      rcases hp' with h | h
      · exact absurd h k2
      · exact absurd h k3
    | cons l' ls' =>
      obtain ⟨rfl, e'⟩ := upto_lf k1 (hl' l' (by simp)).1
        (by simpa only [List.flatMap_cons, List.append_assoc, List.cons_append, List.nil_append] using e)
      obtain ⟨rfl, r⟩ := ih (ls' := ls') (fun m hm => hl m (by simp [hm])) (fun m hm => hl' m (by simp [hm]))
        (by simpa only [List.append_assoc, List.cons_append, List.nil_append] using e')
      exact ⟨rfl, r⟩

/-- C99, a case: a mail smuggled into another one. -/
theorem c99_example : (∀ p ∈ [b!"MAIL FROM:<a@b>", b!"RCPT TO:<c@d>", b!"DATA", b!"hello"], NoCrlf p ∧ p.head? ≠ some 46) ∧
    dataBytes [b!"x\n.\r\nMAIL FROM:<a@b>\r\nRCPT TO:<c@d>\r\nDATA\r\nhello\r\n"] =
      b!"x\n.\r\nMAIL FROM:<a@b>\r\nRCPT TO:<c@d>\r\nDATA\r\nhello\r\n.\r\n" ∧
    (∃ d, (DStream.new (Prep.new [.pkt b!"a\n.\n\r.\r", .pkt b!"x\n\r.\n"])).readAll.2.complete = .ok (false, d)) ∧
    ((Command.parse b!"NOOP a\nb\r\n" : Except ParseErr (Command exampleIp)) matches .ok (.noop _)) ∧
    ((Command.parse b!"MAIL FROM:<a\n@b>\r\n" : Except ParseErr (Command exampleIp)) matches .error _) := by
  refine ⟨?_, by decide +kernel, ?_, by decide +kernel, by decide +kernel⟩
  · intro p hp
    simp only [List.mem_cons, List.not_mem_nil, or_false] at hp
    rcases hp with rfl | rfl | rfl | rfl <;> exact ⟨by unfold NoCrlf; decide, by simp⟩
  · exact (c99_bare_never_ends _ (by unfold NoCrlf; decide)).2

end Verif
