import Verif.Proofs.Verbs
/-
`Command::parse` on a buffer that may hold more than one line: the lemmas of Proofs/Commands.lean with something left
over behind the line, and what happens when a buffer with a complete line is refused.
-/
namespace Verif
open Nom Spec
variable {L : IpLib}

theorem bare_sound_rest {t w i r : Bytes} {c c' : Command L} (hw : t.map lower = w)
    (h : (do let _ ← tagNoCase t; let _ ← eatSpaces; let _ ← crlfP; return c' : Parser (Command L)) i = .done r c) :
    c = c' ∧ ∃ v bl, IsVerb w v ∧ Blanks bl ∧ i = v ++ bl ++ crlf ++ r := by
  simp only [bind_done, pure_done] at h
  obtain ⟨r1, v, h1, r2, bl, h2, r3, _, h3, rfl, rfl⟩ := h
  obtain ⟨rfl, hv⟩ := (verb_done hw).1 h1
  obtain ⟨rfl, hbl, _⟩ := eatSpaces_done.1 h2
  obtain ⟨rfl, _⟩ := crlfP_done.1 h3
  exact ⟨rfl, v, bl, hv, hbl, by simp⟩

theorem hello_sound_rest {t w i r : Bytes} {c : Command L} {f : Domain L → Command L} (hw : t.map lower = w)
    (h : (do
      let _ ← eatSpaces
      let _ ← tagNoCase t
      let _ ← eatSpaces
      let d ← hostnameP
      let _ ← eatSpaces
      let _ ← tag b!"\r\n"
      return f d : Parser (Command L)) i = .done r c) :
    ∃ b1 v b2 dt b3 d, c = f d ∧ IsVerb w v ∧ Blanks b1 ∧ Blanks b2 ∧ Blanks b3 ∧ DomainText L dt d ∧
      i = b1 ++ v ++ b2 ++ dt ++ b3 ++ crlf ++ r := by
  simp only [bind_done, pure_done] at h
  obtain ⟨r1, b1, h1, r2, v, h2, r3, b2, h3, r4, d, h4, r5, b3, h5, r6, _, h6, rfl, rfl⟩ := h
  obtain ⟨rfl, hb1, _⟩ := eatSpaces_done.1 h1
  obtain ⟨rfl, hv⟩ := (verb_done hw).1 h2
  obtain ⟨rfl, hb2, _⟩ := eatSpaces_done.1 h3
  obtain ⟨dt, hd, rfl⟩ := hostnameP_sound h4
  obtain ⟨rfl, hb3, _⟩ := eatSpaces_done.1 h5
  obtain ⟨rfl, _⟩ := tag_done.1 h6
  exact ⟨b1, v, b2, dt, b3, d, rfl, hv, hb1, hb2, hb3, hd, by simp⟩

theorem text_sound_rest {t w i r : Bytes} {c : Command L} {f : Bytes → Command L} (hw : t.map lower = w)
    (h : (do
      let _ ← tagNoCase t
      let _ ← oneOf spacesC
      let res ← takeUntil b!"\r\n"
      let _ ← tag b!"\r\n"
      return f res : Parser (Command L)) i = .done r c) :
    ∃ v b s, c = f s ∧ IsVerb w v ∧ Blank b ∧ NoCrlf s ∧ i = v ++ [b] ++ s ++ crlf ++ r := by
  simp only [bind_done, pure_done] at h
  obtain ⟨r1, v, h1, r2, b, h2, r3, s, h3, r4, _, h4, rfl, rfl⟩ := h
  obtain ⟨rfl, hv⟩ := (verb_done hw).1 h1
  obtain ⟨rfl, hb⟩ := oneOf_done.1 h2
  obtain ⟨hs, t', rfl, rfl⟩ := takeUntil_crlf.1 h3
  obtain ⟨h4, _⟩ := tag_done.1 h4
  have : t' = r := by simpa using h4
  subst this
  exact ⟨v, b, s, rfl, hv, (mem_spaces b).1 hb, hs, by simp⟩

theorem opttext_sound_rest {t w i r : Bytes} {c : Command L} {f : Bytes → Command L} (hw : t.map lower = w)
    (h : (do
      let _ ← tagNoCase t
      let _ ← opt (oneOf spacesC)
      let res ← takeUntil b!"\r\n"
      let _ ← tag b!"\r\n"
      return f res : Parser (Command L)) i = .done r c) :
    ∃ v bl s, c = f s ∧ IsVerb w v ∧ NoCrlf s ∧ OptBlank bl s ∧ i = v ++ bl ++ s ++ crlf ++ r := by
  simp only [bind_done, pure_done] at h
  obtain ⟨r1, v, h1, r2, b, h2, r3, s, h3, r4, _, h4, rfl, rfl⟩ := h
  obtain ⟨rfl, hv⟩ := (verb_done hw).1 h1
  obtain ⟨hs, t', rfl, rfl⟩ := takeUntil_crlf.1 h3
  obtain ⟨h4, _⟩ := tag_done.1 h4
  have : t' = r := by simpa using h4
  subst this
  rcases opt_done.1 h2 with ⟨b, rfl, h5⟩ | ⟨rfl, h5, h6⟩
  · obtain ⟨rfl, hb⟩ := oneOf_done.1 h5
    exact ⟨v, [b], s, rfl, hv, hs, .inl ⟨b, (mem_spaces b).1 hb, rfl⟩, by simp⟩
  · subst h5
    refine ⟨v, [], s, rfl, hv, hs, .inr ⟨rfl, ?_⟩, by simp⟩
    obtain ⟨d, r', h7, h8⟩ := oneOf_error.1 h6
    intro c hc
    cases s with
    | nil => simp at hc
    | cons e s =>
      simp at hc h7
      rw [← hc, h7.1]; exact fun hb => h8 ((mem_spaces d).2 hb)

theorem mail_sound_rest {i r : Bytes} {c : Command L} (h : mailArgs i = .done r c) : ∃ x, i = x ++ r ∧ CollectLine L x c := by
  unfold mailArgs at h
  simp only [bind_done, pure_done] at h
  obtain ⟨r1, v, h1, r2, b1, h2, r3, fr, h3, r4, m, h4, r5, b2, h5, r6, _, h6, rfl, rfl⟩ := h
  obtain ⟨rfl, hv⟩ := (verb_done (w := b!"mail from:") (by decide)).1 h1
  obtain ⟨rfl, hb1, _⟩ := eatSpaces_done.1 h2
  obtain ⟨rfl, hb2, _⟩ := eatSpaces_done.1 h5
  obtain ⟨rfl, _⟩ := crlfP_done.1 h6
  obtain ⟨pt, ps, hp, rfl, rfl⟩ := parametersP_sound h4 (by simp)
  rcases alt_done.1 h3 with h3 | ⟨_, h3⟩
  · obtain ⟨_, h7, rfl⟩ := mapP_done.1 h3
    obtain ⟨rfl, _⟩ := tag_done.1 h7
    have := CmdLineOf.mailNull (L := L) (M := fun ps m => m = Params.collect ps) v b1 pt b2 ps _ hv hb1 hb2 hp rfl
    exact ⟨_, by simp, this⟩
  · obtain ⟨e, h7, rfl⟩ := mapP_done.1 h3
    obtain ⟨x, hx, rfl⟩ := maybeBracketedP_sound h7
    have := CmdLineOf.mail (M := fun ps m => m = Params.collect ps) v b1 x pt b2 e ps _ hv hb1 hb2 hx hp rfl
    exact ⟨_, by simp, this⟩

theorem rcpt_sound_rest {i r : Bytes} {c : Command L} (h : rcptArgs i = .done r c) : ∃ x, i = x ++ r ∧ CollectLine L x c := by
  unfold rcptArgs at h
  simp only [bind_done, pure_done] at h
  obtain ⟨r1, v, h1, r2, b1, h2, r3, e, h3, r4, m, h4, r5, b2, h5, r6, _, h6, rfl, rfl⟩ := h
  obtain ⟨rfl, hv⟩ := (verb_done (w := b!"rcpt to:") (by decide)).1 h1
  obtain ⟨rfl, hb1, _⟩ := eatSpaces_done.1 h2
  obtain ⟨rfl, hb2, _⟩ := eatSpaces_done.1 h5
  obtain ⟨rfl, _⟩ := crlfP_done.1 h6
  obtain ⟨pt, ps, hp, rfl, rfl⟩ := parametersP_sound h4 (by simp)
  obtain ⟨x, hx, rfl⟩ := maybeBracketedP_sound h3
  have := CmdLineOf.rcpt (M := fun ps m => m = Params.collect ps) v b1 x pt b2 e ps _ hv hb1 hb2 hx hp rfl
  exact ⟨_, by simp, this⟩

theorem bare_complete_rest {t w v bl r : Bytes} {c : Command L} (hw : t.map lower = w) (hv : IsVerb w v)
    (hbl : Blanks bl) :
    (do let _ ← tagNoCase t; let _ ← eatSpaces; let _ ← crlfP; return c : Parser (Command L))
      (v ++ bl ++ crlf ++ r) = .done r c := by
  simp only [bind_done, pure_done]
  exact ⟨bl ++ (crlf ++ r), v, (verb_done hw).2 ⟨by simp, hv⟩, crlf ++ r, bl,
    eatSpaces_complete hbl (stopAt_cons.2 cr_not_space), r, crlf, crlfP_done.2 ⟨by simp, rfl⟩, rfl, trivial⟩

theorem hello_complete_rest (hL : IpLaws L) {t w b1 v b2 dt b3 r : Bytes} {d : Domain L} {f : Domain L → Command L}
    (hw : t.map lower = w) (hv : IsVerb w v) (hv0 : ∃ a u, v = a :: u ∧ a ∉ spacesC)
    (hb1 : Blanks b1) (hb2 : Blanks b2) (hb3 : Blanks b3) (hd : DomainText L dt d) :
    (do
      let _ ← eatSpaces
      let _ ← tagNoCase t
      let _ ← eatSpaces
      let d ← hostnameP
      let _ ← eatSpaces
      let _ ← tag b!"\r\n"
      return f d : Parser (Command L)) (b1 ++ v ++ b2 ++ dt ++ b3 ++ crlf ++ r) = .done r (f d) := by
  obtain ⟨c, u, hcu, hc⟩ := domainText_head hd
  obtain ⟨a, u', rfl, ha⟩ := hv0
  simp only [bind_done, pure_done]
  refine ⟨a :: u' ++ (b2 ++ (dt ++ (b3 ++ (crlf ++ r)))), b1, ?_, b2 ++ (dt ++ (b3 ++ (crlf ++ r))), a :: u',
    (verb_done hw).2 ⟨rfl, hv⟩, dt ++ (b3 ++ (crlf ++ r)), b2, ?_, b3 ++ (crlf ++ r), d, ?_, crlf ++ r, b3, ?_, r, crlf,
    tag_done.2 ⟨by simp, rfl⟩, rfl, rfl⟩
  · exact eatSpaces_done.2 ⟨by simp, hb1, stopAt_cons.2 ha⟩
  · exact eatSpaces_complete hb2 (by rw [hcu]; exact stopAt_cons.2 hc)
  · exact hostnameP_complete hL hd (blankOrCr_host (blankOrCr_blanks hb3))
  · exact eatSpaces_complete hb3 (stopAt_cons.2 cr_not_space)

theorem text_complete_rest {t w v s r : Bytes} {b : UInt8} {f : Bytes → Command L} (hw : t.map lower = w)
    (hv : IsVerb w v) (hb : Blank b) (hs : NoCrlf s) :
    (do
      let _ ← tagNoCase t
      let _ ← oneOf spacesC
      let res ← takeUntil b!"\r\n"
      let _ ← tag b!"\r\n"
      return f res : Parser (Command L)) (v ++ [b] ++ s ++ crlf ++ r) = .done r (f s) := by
  simp only [bind_done, pure_done]
  exact ⟨b :: (s ++ (crlf ++ r)), v, (verb_done hw).2 ⟨by simp, hv⟩, s ++ (crlf ++ r), b,
    oneOf_done.2 ⟨rfl, (mem_spaces b).2 hb⟩, crlf ++ r, s, takeUntil_crlf.2 ⟨hs, r, by simp, by simp⟩,
    r, crlf, tag_done.2 ⟨by simp, rfl⟩, rfl, rfl⟩

theorem opttext_complete_rest {t w v bl s r : Bytes} {f : Bytes → Command L} (hw : t.map lower = w)
    (hv : IsVerb w v) (hs : NoCrlf s) (hb : OptBlank bl s) :
    (do
      let _ ← tagNoCase t
      let _ ← opt (oneOf spacesC)
      let res ← takeUntil b!"\r\n"
      let _ ← tag b!"\r\n"
      return f res : Parser (Command L)) (v ++ bl ++ s ++ crlf ++ r) = .done r (f s) := by
  simp only [bind_done, pure_done]
  rcases hb with ⟨b, hb, rfl⟩ | ⟨rfl, hb⟩
  · exact ⟨b :: (s ++ (crlf ++ r)), v, (verb_done hw).2 ⟨by simp, hv⟩, s ++ (crlf ++ r), some b,
      opt_done.2 (.inl ⟨b, rfl, oneOf_done.2 ⟨rfl, (mem_spaces b).2 hb⟩⟩), crlf ++ r, s,
      takeUntil_crlf.2 ⟨hs, r, by simp, by simp⟩, r, crlf, tag_done.2 ⟨by simp, rfl⟩, rfl, rfl⟩
  · refine ⟨s ++ (crlf ++ r), v, (verb_done hw).2 ⟨by simp, hv⟩, s ++ (crlf ++ r), none,
      opt_done.2 (.inr ⟨rfl, rfl, oneOf_error.2 ?_⟩), crlf ++ r, s,
      takeUntil_crlf.2 ⟨hs, r, by simp, by simp⟩, r, crlf, tag_done.2 ⟨by simp, rfl⟩, rfl, rfl⟩
    cases s with
    | nil => exact ⟨13, 10 :: r, rfl, cr_not_space⟩
    | cons d s => exact ⟨d, s ++ (crlf ++ r), rfl, fun h => hb d rfl ((mem_spaces d).1 h)⟩

theorem mail_complete_rest (hL : IpLaws L) {v b1 x pt b2 r : Bytes} {e : Email L} {ps}
    (hv : IsVerb b!"mail from:" v) (hb1 : Blanks b1) (hb2 : Blanks b2) (hx : MaybeBracketed L x e)
    (hp : ParamsText pt ps) :
    mailArgs (v ++ b1 ++ x ++ pt ++ b2 ++ crlf ++ r) = .done r (.mail (some e) (Params.collect ps)) := by
  obtain ⟨c, t, hxc, hc, hnull⟩ := maybeBracketed_head hx
  unfold mailArgs
  simp only [bind_done, pure_done]
  refine ⟨b1 ++ (x ++ (pt ++ (b2 ++ (crlf ++ r)))), v, (verb_done (w := b!"mail from:") (by decide)).2 ⟨by simp, hv⟩,
    x ++ (pt ++ (b2 ++ (crlf ++ r))), b1, eatSpaces_complete hb1 (by rw [hxc]; exact stopAt_cons.2 hc),
    pt ++ (b2 ++ (crlf ++ r)), some e, alt_done.2 (.inr ⟨mapP_error.2 (hnull _), mapP_done.2 ⟨e,
      maybeBracketedP_complete hL hx (blankOrCr_params hp hb2).email, rfl⟩⟩),
    b2 ++ (crlf ++ r), _, parametersP_complete hp hb2, crlf ++ r, b2,
    eatSpaces_complete hb2 (stopAt_cons.2 cr_not_space), r, crlf, crlfP_done.2 ⟨by simp, rfl⟩, rfl, rfl⟩

theorem mailNull_complete_rest {v b1 pt b2 r : Bytes} {ps}
    (hv : IsVerb b!"mail from:" v) (hb1 : Blanks b1) (hb2 : Blanks b2) (hp : ParamsText pt ps) :
    mailArgs (v ++ b1 ++ b!"<>" ++ pt ++ b2 ++ crlf ++ r) =
      .done r (.mail (none : Option (Email L)) (Params.collect ps)) := by
  unfold mailArgs
  simp only [bind_done, pure_done]
  refine ⟨b1 ++ (b!"<>" ++ (pt ++ (b2 ++ (crlf ++ r)))), v, (verb_done (w := b!"mail from:") (by decide)).2 ⟨by simp, hv⟩,
    b!"<>" ++ (pt ++ (b2 ++ (crlf ++ r))), b1, eatSpaces_complete hb1 (stopAt_cons.2 (by decide)),
    pt ++ (b2 ++ (crlf ++ r)), none, alt_done.2 (.inl (mapP_done.2 ⟨_, tag_append _ _, rfl⟩)),
    b2 ++ (crlf ++ r), _, parametersP_complete hp hb2, crlf ++ r, b2,
    eatSpaces_complete hb2 (stopAt_cons.2 cr_not_space), r, crlf, crlfP_done.2 ⟨by simp, rfl⟩, rfl, rfl⟩

theorem rcpt_complete_rest (hL : IpLaws L) {v b1 x pt b2 r : Bytes} {e : Email L} {ps}
    (hv : IsVerb b!"rcpt to:" v) (hb1 : Blanks b1) (hb2 : Blanks b2) (hx : MaybeBracketed L x e)
    (hp : ParamsText pt ps) :
    rcptArgs (v ++ b1 ++ x ++ pt ++ b2 ++ crlf ++ r) = .done r (.rcpt e (Params.collect ps)) := by
  obtain ⟨c, t, hxc, hc, hnull⟩ := maybeBracketed_head hx
  unfold rcptArgs
  simp only [bind_done, pure_done]
  refine ⟨b1 ++ (x ++ (pt ++ (b2 ++ (crlf ++ r)))), v, (verb_done (w := b!"rcpt to:") (by decide)).2 ⟨by simp, hv⟩,
    x ++ (pt ++ (b2 ++ (crlf ++ r))), b1, eatSpaces_complete hb1 (by rw [hxc]; exact stopAt_cons.2 hc),
    pt ++ (b2 ++ (crlf ++ r)), e, maybeBracketedP_complete hL hx (blankOrCr_params hp hb2).email,
    b2 ++ (crlf ++ r), _, parametersP_complete hp hb2, crlf ++ r, b2,
    eatSpaces_complete hb2 (stopAt_cons.2 cr_not_space), r, crlf, crlfP_done.2 ⟨by simp, rfl⟩, rfl, rfl⟩

theorem commandP_sound_rest {i r : Bytes} {c : Command L} (h : commandP i = .done r c) : ∃ x, i = x ++ r ∧ CollectLine L x c := by
  unfold commandP at h
  rcases alt_done.1 h with h | ⟨_, h⟩
  · obtain ⟨rfl, v, bl, hv, hb, rfl⟩ := bare_sound_rest (w := b!"data") (by decide) h
    exact ⟨_, rfl, .data v bl hv hb⟩
  rcases alt_done.1 h with h | ⟨_, h⟩
  · obtain ⟨b1, v, b2, dt, b3, d, rfl, hv, h1, h2, h3, hd, rfl⟩ := hello_sound_rest (w := b!"ehlo") (by decide) h
    exact ⟨_, rfl, .ehlo b1 v b2 dt b3 d hv h1 h2 h3 hd⟩
  rcases alt_done.1 h with h | ⟨_, h⟩
  · obtain ⟨v, b, s, rfl, hv, hb, hs, rfl⟩ := text_sound_rest (w := b!"expn") (by decide) h
    exact ⟨_, rfl, .expn v b s hv hb hs⟩
  rcases alt_done.1 h with h | ⟨_, h⟩
  · obtain ⟨b1, v, b2, dt, b3, d, rfl, hv, h1, h2, h3, hd, rfl⟩ := hello_sound_rest (w := b!"helo") (by decide) h
    exact ⟨_, rfl, .helo b1 v b2 dt b3 d hv h1 h2 h3 hd⟩
  rcases alt_done.1 h with h | ⟨_, h⟩
  · obtain ⟨v, b, s, rfl, hv, hs, hb, rfl⟩ := opttext_sound_rest (w := b!"help") (by decide) h
    exact ⟨_, rfl, .help v b s hv hs hb⟩
  rcases alt_done.1 h with h | ⟨_, h⟩
  · exact mail_sound_rest h
  rcases alt_done.1 h with h | ⟨_, h⟩
  · obtain ⟨v, b, s, rfl, hv, hs, hb, rfl⟩ := opttext_sound_rest (w := b!"noop") (by decide) h
    exact ⟨_, rfl, .noop v b s hv hs hb⟩
  rcases alt_done.1 h with h | ⟨_, h⟩
  · obtain ⟨rfl, v, bl, hv, hb, rfl⟩ := bare_sound_rest (w := b!"quit") (by decide) h
    exact ⟨_, rfl, .quit v bl hv hb⟩
  rcases alt_done.1 h with h | ⟨_, h⟩
  · exact rcpt_sound_rest h
  rcases alt_done.1 h with h | ⟨_, h⟩
  · obtain ⟨rfl, v, bl, hv, hb, rfl⟩ := bare_sound_rest (w := b!"rset") (by decide) h
    exact ⟨_, rfl, .rset v bl hv hb⟩
  · obtain ⟨v, b, s, rfl, hv, hb, hs, rfl⟩ := text_sound_rest (w := b!"vrfy") (by decide) h
    exact ⟨_, rfl, .vrfy v b s hv hb hs⟩

theorem commandP_complete_rest (hL : IpLaws L) {i : Bytes} (r : Bytes) {c : Command L} (h : CollectLine L i c) :
    commandP (i ++ r) = .done r c := by
  cases h with
  | data v bl hv hb => exact pick_data (bare_complete_rest (r := r) (by decide) hv hb)
  | quit v bl hv hb =>
    have k := bare_complete_rest (r := r) (L := L) (c := .quit) (t := b!"QUIT") (by decide) hv hb
    obtain ⟨a, b, c, d, t, rfl, h1, h2, h3, h4⟩ := verb4 hv
    exact pick_quit h1 h2 h3 h4 k
  | rset v bl hv hb =>
    have k := bare_complete_rest (r := r) (L := L) (c := .rset) (t := b!"RSET") (by decide) hv hb
    obtain ⟨a, b, c, d, t, rfl, h1, h2, h3, h4⟩ := verb4 hv
    exact pick_rset h1 h2 h3 h4 k
  | ehlo b1 v b2 dt b3 d' hv hb1 hb2 hb3 hd =>
    obtain ⟨a, b, c, d, t, rfl, h1, h2, h3, h4⟩ := verb4 hv
    have k := hello_complete_rest (r := r) hL (f := Command.ehlo) (t := b!"EHLO") (by decide) hv
      ⟨a, _, rfl, lower_not_space _ (by rw [h1]; decide)⟩ hb1 hb2 hb3 hd
    have := pick_ehlo (t := t ++ b2 ++ dt ++ b3 ++ crlf ++ r) (r := r) (x := .ehlo d') hb1 h1 h2 h3 h4
      (by unfold ehloArgs; simpa using k)
    simpa using this
  | helo b1 v b2 dt b3 d' hv hb1 hb2 hb3 hd =>
    obtain ⟨a, b, c, d, t, rfl, h1, h2, h3, h4⟩ := verb4 hv
    have k := hello_complete_rest (r := r) hL (f := Command.helo) (t := b!"HELO") (by decide) hv
      ⟨a, _, rfl, lower_not_space _ (by rw [h1]; decide)⟩ hb1 hb2 hb3 hd
    have := pick_helo (t := t ++ b2 ++ dt ++ b3 ++ crlf ++ r) (r := r) (x := .helo d') hb1 h1 h2 h3 h4
      (by unfold heloArgs; simpa using k)
    simpa using this
  | expn v e s hv he hs =>
    have k := text_complete_rest (r := r) (L := L) (f := .expn) (t := b!"EXPN") (by decide) hv he hs
    obtain ⟨a, b, c, d, t, rfl, h1, h2, h3, h4⟩ := verb4 hv
    exact pick_expn h1 h2 h3 h4 k
  | vrfy v e s hv he hs =>
    have k := text_complete_rest (r := r) (L := L) (f := .vrfy) (t := b!"VRFY") (by decide) hv he hs
    obtain ⟨a, b, c, d, t, rfl, h1, h2, h3, h4⟩ := verb4 hv
    exact pick_vrfy h1 h2 h3 h4 k
  | help v bl s hv hs hb =>
    have k := opttext_complete_rest (r := r) (L := L) (f := .help) (t := b!"HELP") (by decide) hv hs hb
    obtain ⟨a, b, c, d, t, rfl, h1, h2, h3, h4⟩ := verb4 hv
    exact pick_help h1 h2 h3 h4 k
  | noop v bl s hv hs hb =>
    have k := opttext_complete_rest (r := r) (L := L) (f := .noop) (t := b!"NOOP") (by decide) hv hs hb
    obtain ⟨a, b, c, d, t, rfl, h1, h2, h3, h4⟩ := verb4 hv
    exact pick_noop h1 h2 h3 h4 k
  | mailNull v b1 pt b2 ps m hv hb1 hb2 hp hm =>
    subst hm
    have k := mailNull_complete_rest (r := r) (L := L) hv hb1 hb2 hp
    obtain ⟨a, b, c, d, t, rfl, h1, h2, h3, h4⟩ := verb4 hv
    exact pick_mail h1 h2 h3 h4 k
  | mail v b1 x pt b2 e ps m hv hb1 hb2 hx hp hm =>
    subst hm
    have k := mail_complete_rest (r := r) hL hv hb1 hb2 hx hp
    obtain ⟨a, b, c, d, t, rfl, h1, h2, h3, h4⟩ := verb4 hv
    exact pick_mail h1 h2 h3 h4 k
  | rcpt v b1 x pt b2 e ps m hv hb1 hb2 hx hp hm =>
    subst hm
    have k := rcpt_complete_rest (r := r) hL hv hb1 hb2 hx hp
    obtain ⟨a, b, c, d, t, rfl, h1, h2, h3, h4⟩ := verb4 hv
    exact pick_rcpt h1 h2 h3 h4 k

/-! ### A complete line in the buffer settles the matter -/

/-- There is a CRLF in the buffer. -/
def HasCrlf (i : Bytes) : Prop := ∃ l t, i = l ++ crlf ++ t

theorem hasCrlf_drop {x i : Bytes} (h : HasCrlf (x ++ i)) (hx : 13 ∉ x) : HasCrlf i := by
  induction x with
  | nil => exact h
  | cons c x ih =>
    simp only [List.mem_cons, not_or] at hx
    refine ih ?_ hx.2
    obtain ⟨l, t, e⟩ := h
    cases l with
    | nil => simp at e; exact absurd e.1.symm hx.1
    | cons d l => simp at e; exact ⟨l, t, by simp [e.2]⟩

theorem hasCrlf_mem {i : Bytes} (h : HasCrlf i) : 13 ∈ i := by
  obtain ⟨l, t, rfl⟩ := h; simp

/-- The parser does not ask for more when there is a complete line. -/
def Settled {α : Type} (p : Parser α) : Prop := ∀ i, HasCrlf i → p i ≠ .incomplete

/-- The parser does not ask for more when there is a complete line, and does not read over its end. -/
def InLine {α : Type} (p : Parser α) : Prop :=
  ∀ i, HasCrlf i → p i ≠ .incomplete ∧ ∀ r a, p i = .done r a → HasCrlf r

section
variable {α β : Type}

theorem InLine.settled {p : Parser α} (h : InLine p) : Settled p := fun i hi => (h i hi).1

theorem inLine_of {p : Parser α} (h1 : Settled p) (h2 : ∀ i r a, p i = .done r a → ∃ x, i = x ++ r ∧ 13 ∉ x) :
    InLine p := fun i hi => ⟨h1 i hi, fun r a h => by
      obtain ⟨x, rfl, hx⟩ := h2 i r a h
      exact hasCrlf_drop hi hx⟩

theorem inLine_bind {p : Parser α} {f : α → Parser β} (hp : InLine p) (hf : ∀ a, InLine (f a)) : InLine (p >>= f) := by
  intro i hi
  have h := hp i hi
  show Parser.bind p f i ≠ _ ∧ ∀ r a, Parser.bind p f i = _ → _
  unfold Parser.bind
  cases e : p i with
  | done r a => exact hf a r (h.2 r a e)
  | error => simp
  | incomplete => exact absurd e h.1

theorem settled_bind {p : Parser α} {f : α → Parser β} (hp : InLine p) (hf : ∀ a, Settled (f a)) : Settled (p >>= f) := by
  intro i hi
  have h := hp i hi
  show Parser.bind p f i ≠ _
  unfold Parser.bind
  cases e : p i with
  | done r a => exact hf a r (h.2 r a e)
  | error => simp
  | incomplete => exact absurd e h.1

theorem settled_last {p : Parser α} {b : α → β} (hp : Settled p) :
    Settled (p >>= fun a => (pure (b a) : Parser β)) := by
  intro i hi
  have h := hp i hi
  show Parser.bind p _ i ≠ _
  unfold Parser.bind
  cases e : p i with
  | done r a => exact nofun
  | error => simp
  | incomplete => exact absurd e h

theorem inLine_pure (a : α) : InLine (pure a : Parser α) := fun i hi => ⟨nofun, fun r b h => by cases h; exact hi⟩
theorem inLine_fail : InLine (Parser.fail : Parser α) := fun i hi => ⟨nofun, nofun⟩

theorem inLine_mapP {p : Parser α} {f : α → β} (hp : InLine p) : InLine (mapP p f) :=
  inLine_bind hp fun a => inLine_pure (f a)

theorem inLine_verify {p : Parser α} {f : α → Bool} (hp : InLine p) : InLine (verify p f) :=
  inLine_bind hp fun a => by
    show InLine (if f a then Parser.pure a else Parser.fail)
    split
    · exact inLine_pure a
    · exact inLine_fail

theorem inLine_opt {p : Parser α} (hp : InLine p) : InLine (opt p) := by
  intro i hi
  have h := hp i hi
  unfold opt
  cases e : p i with
  | done r a => exact ⟨nofun, fun r' a' h' => by cases h'; exact h.2 _ _ e⟩
  | error => exact ⟨nofun, fun r' a' h' => by cases h'; exact hi⟩
  | incomplete => exact absurd e h.1

theorem inLine_complete {p : Parser α} (hp : InLine p) : InLine (complete p) := by
  intro i hi
  have h := hp i hi
  unfold complete
  cases e : p i with
  | done r a => exact ⟨nofun, fun r' a' h' => by cases h'; exact h.2 _ _ e⟩
  | error => exact ⟨nofun, nofun⟩
  | incomplete => exact absurd e h.1

theorem inLine_alt {p q : Parser α} (hp : InLine p) (hq : InLine q) : InLine (alt p q) := by
  intro i hi
  have h := hp i hi
  unfold alt
  cases e : p i with
  | done r a => exact ⟨nofun, fun r' a' h' => by cases h'; exact h.2 _ _ e⟩
  | error => exact hq i hi
  | incomplete => exact absurd e h.1

theorem settled_alt {p q : Parser α} (hp : Settled p) (hq : Settled q) : Settled (alt p q) := by
  intro i hi
  have h := hp i hi
  unfold alt
  cases e : p i with
  | done r a => exact nofun
  | error => exact hq i hi
  | incomplete => exact absurd e h

theorem inLine_preceded {p : Parser α} {q : Parser β} (hp : InLine p) (hq : InLine q) : InLine (preceded p q) :=
  inLine_bind hp fun _ => hq

theorem inLine_recognize {p : Parser α} (hp : InLine p) : InLine (recognize p) := by
  intro i hi
  have h := hp i hi
  unfold recognize
  cases e : p i with
  | done r a => exact ⟨nofun, fun r' a' h' => by cases h'; exact h.2 _ _ e⟩
  | error => exact ⟨nofun, nofun⟩
  | incomplete => exact absurd e h.1

theorem inLine_many0 {p : Parser α} (hp : InLine p) : InLine (many0 p) := by
  intro i hi
  fun_induction many0 p i with
  | case1 => exact absurd (hasCrlf_mem hi) (by simp)
  | case2 i _ e => exact ⟨nofun, fun r a h => by cases h; exact hi⟩
  | case3 i _ e => exact absurd e (hp i hi).1
  | case4 i _ r a e hl r' as e' ih =>
    have k := ih ((hp i hi).2 _ _ e)
    rw [e'] at k
    exact ⟨nofun, fun r a h => by cases h; exact k.2 _ _ rfl⟩
  | case5 => exact ⟨nofun, nofun⟩
  | case6 i _ r a e hl e' ih => exact absurd e' (ih ((hp i hi).2 _ _ e)).1
  | case7 => exact ⟨nofun, nofun⟩

theorem inLine_sepLoop {sep : Parser β} {p : Parser α} (hs : InLine sep) (hp : InLine p) : InLine (sepLoop sep p) := by
  intro i hi
  fun_induction sepLoop sep p i with
  | case1 i e => exact ⟨nofun, fun r a h => by cases h; exact hi⟩
  | case2 i e => exact absurd e (hs i hi).1
  | case3 i i2 b e hl e' => exact ⟨nofun, fun r a h => by cases h; exact hi⟩
  | case4 i i2 b e hl e' => exact absurd e' (hp _ ((hs i hi).2 _ _ e)).1
  | case5 i i2 b e hl i3 a e' hl' r as e2 ih =>
    have k := ih ((hp _ ((hs i hi).2 _ _ e)).2 _ _ e')
    rw [e2] at k
    exact ⟨nofun, fun r a h => by cases h; exact k.2 _ _ rfl⟩
  | case6 => exact ⟨nofun, nofun⟩
  | case7 i i2 b e hl i3 a e' hl' e2 ih =>
    exact absurd e2 (ih ((hp _ ((hs i hi).2 _ _ e)).2 _ _ e')).1
  | case8 => exact ⟨nofun, fun r a h => by cases h; exact hi⟩
  | case9 => exact ⟨nofun, fun r a h => by cases h; exact hi⟩

theorem inLine_sepNonempty {sep : Parser β} {p : Parser α} (hs : InLine sep) (hp : InLine p) :
    InLine (separatedNonemptyList sep p) := by
  intro i hi
  have h := hp i hi
  unfold separatedNonemptyList
  cases e : p i with
  | error => exact ⟨nofun, nofun⟩
  | incomplete => exact absurd e h.1
  | done r a =>
    have k := inLine_sepLoop hs hp r (h.2 _ _ e)
    simp only
    split
    · cases e' : sepLoop sep p r with
      | error => exact ⟨nofun, nofun⟩
      | incomplete => exact absurd e' k.1
      | done r' as => exact ⟨nofun, fun r'' a'' h'' => by cases h''; exact k.2 _ _ e'⟩
    · exact ⟨nofun, nofun⟩

theorem inLine_sepList {sep : Parser β} {p : Parser α} (hs : InLine sep) (hp : InLine p) :
    InLine (separatedList sep p) := by
  intro i hi
  have h := hp i hi
  unfold separatedList
  cases e : p i with
  | error => exact ⟨nofun, fun r a h => by cases h; exact hi⟩
  | incomplete => exact absurd e h.1
  | done r a =>
    have k := inLine_sepLoop hs hp r (h.2 _ _ e)
    simp only
    split
    · cases e' : sepLoop sep p r with
      | error => exact ⟨nofun, nofun⟩
      | incomplete => exact absurd e' k.1
      | done r' as => exact ⟨nofun, fun r'' a'' h'' => by cases h''; exact k.2 _ _ e'⟩
    · exact ⟨nofun, nofun⟩

end

/-! The elementary parsers. -/

theorem compareBy_incomplete {eq : UInt8 → UInt8 → Bool} {i t : Bytes} (h : compareBy eq i t = .incomplete) :
    i.length < t.length ∧ ∀ c ∈ i, ∃ d ∈ t, eq c d = true := by
  induction i generalizing t with
  | nil => cases t <;> simp_all [compareBy]
  | cons c i ih =>
    cases t with
    | nil => simp [compareBy] at h
    | cons d t =>
      simp only [compareBy] at h
      split at h
      · rename_i hc
        obtain ⟨h1, h2⟩ := ih h
        refine ⟨by simp; omega, ?_⟩
        intro x hx
        rcases List.mem_cons.1 hx with rfl | hx
        · exact ⟨d, by simp, hc⟩
        · obtain ⟨y, hy, e⟩ := h2 x hx
          exact ⟨y, by simp [hy], e⟩
      · cases h

theorem settled_tagBy {eq : UInt8 → UInt8 → Bool} {t : Bytes} (h : ∀ d ∈ t, eq 13 d = false) : Settled (tagBy eq t) := by
  intro i hi e
  unfold tagBy at e
  cases h1 : compareBy eq i t <;> rw [h1] at e <;> try cases e
  obtain ⟨d, hd, e⟩ := (compareBy_incomplete h1).2 13 (hasCrlf_mem hi)
  rw [h d hd] at e; cases e

theorem inLine_tag {t : Bytes} (h : 13 ∉ t) : InLine (tag t) := by
  refine inLine_of (settled_tagBy ?_) ?_
  · intro d hd
    by_cases hc : d = 13
    · exact absurd (hc ▸ hd) h
    · simp; exact fun e => hc e.symm
  · intro i r a e
    obtain ⟨rfl, rfl⟩ := tag_done.1 e
    exact ⟨_, rfl, h⟩

theorem inLine_tagNoCase {t : Bytes} (h : ∀ d ∈ t, (lower 13 == lower d) = false) : InLine (tagNoCase t) := by
  refine inLine_of (settled_tagBy h) ?_
  intro i r a e
  obtain ⟨rfl, e0⟩ := tagNoCase_done.1 e
  refine ⟨_, rfl, fun hm => ?_⟩
  have : lower 13 ∈ a.map lower := List.mem_map.2 ⟨13, hm, rfl⟩
  rw [e0] at this
  obtain ⟨d, hd, e⟩ := List.mem_map.1 this
  have := h d hd
  simp [e] at this

theorem settled_crlf : Settled crlfP := by
  intro i hi e
  unfold crlfP tag tagBy at e
  cases h1 : compareBy (· == ·) i b!"\r\n" <;> rw [h1] at e <;> try cases e
  have := (compareBy_incomplete h1).1
  obtain ⟨l, t, rfl⟩ := hi
  simp at this
  omega

theorem inLine_oneOf {s : Bytes} (h : 13 ∉ s) : InLine (oneOf s) := by
  refine inLine_of ?_ ?_
  · intro i hi e
    cases i with
    | nil => exact absurd (hasCrlf_mem hi) (by simp)
    | cons c i => simp only [oneOf] at e; split at e <;> cases e
  · intro i r a e
    obtain ⟨rfl, ha⟩ := oneOf_done.1 e
    exact ⟨[a], rfl, by simp; rintro rfl; exact h ha⟩

theorem inLine_eatSpaces : InLine eatSpaces := by
  refine inLine_of (fun i hi => nofun) ?_
  intro i r a e
  obtain ⟨rfl, ha, _⟩ := eatSpaces_done.1 e
  exact ⟨a, rfl, fun h => cr_not_space ((mem_spaces 13).2 (ha 13 h))⟩

theorem inLine_isA {s : Bytes} (h : 13 ∉ s) : InLine (isA s) := by
  refine inLine_of (fun i hi => isA_not_incomplete) ?_
  intro i r a e
  unfold isA at e
  split at e
  · cases e; exact ⟨[], rfl, by simp⟩
  · split at e
    · cases e
      rename_i c t hc
      refine ⟨_, (List.takeWhile_append_dropWhile ..).symm, fun hm => h (takeWhile_all s _ 13 hm)⟩
    · cases e

theorem inLine_byte {f : UInt8 → Bool} (h : f 13 = false) : InLine (verify (take 1) (fun x => x.all f)) := by
  refine inLine_of ?_ ?_
  · intro i hi e
    cases i with
    | nil => exact absurd (hasCrlf_mem hi) (by simp)
    | cons c i =>
      simp only [verify, Parser.bind, take] at e
      simp at e
      cases hf : f c <;> simp [hf, Parser.pure, Parser.fail] at e
  · intro i r a e
    obtain ⟨e, hf⟩ := verify_done.1 e
    obtain ⟨rfl, ha⟩ := take_done.1 e
    refine ⟨a, rfl, fun hm => ?_⟩
    have := List.all_eq_true.1 hf 13 hm
    rw [h] at this; cases this

theorem inLine_takeUntil : InLine (takeUntil b!"\r\n") := by
  intro i hi
  constructor
  · unfold takeUntil
    obtain ⟨l, t, rfl⟩ := hi
    split
    · rename_i h; simp at h; omega
    · split <;> exact nofun
  · intro r a h
    obtain ⟨_, t, rfl, rfl⟩ := takeUntil_crlf.1 h
    exact ⟨[], t, rfl⟩

theorem inLine_literal {α : Type} {t : Bytes} {f : Bytes → Option α} (ht : 13 ∉ t) (hf : ∀ x a, f x = some a → 13 ∉ x) :
    InLine (mapRes (preceded (tag t) (takeUntilAndConsume b!"]")) f) := by
  refine inLine_of ?_ ?_
  · intro i hi e
    have h1 : Settled (preceded (tag t) (takeUntilAndConsume b!"]")) := by
      refine settled_bind (inLine_tag ht) fun _ i hi => ?_
      obtain ⟨l, t, rfl⟩ := hi
      unfold takeUntilAndConsume
      split
      · rename_i h; simp at h
      · split <;> exact nofun
    unfold mapRes Parser.bind at e
    cases h2 : preceded (tag t) (takeUntilAndConsume b!"]") i with
    | done r x =>
      rw [h2] at e
      cases h3 : f x <;> simp only [h3] at e <;> cases e
    | error => rw [h2] at e; cases e
    | incomplete => exact h1 i hi h2
  · intro i r a e
    obtain ⟨x, e, hx⟩ := mapRes_done.1 e
    obtain ⟨r', y, e1, e2⟩ := preceded_done.1 e
    obtain ⟨rfl, rfl⟩ := tag_done.1 e1
    obtain ⟨e3, rfl⟩ := takeUntilAndConsume_byte.1 e2
    exact ⟨y ++ x ++ [93], by simp, by simp [ht, hf x a hx]⟩

theorem inLine_hostname (hL : IpLaws L) : InLine (hostnameP : Parser (Domain L)) := by
  have h4 : ∀ (x : Bytes) (a : L.V4), L.parse4 x = some a → 13 ∉ x := fun x a h hm => by
    have := hL.chars4 x a h 13 hm
    revert this; unfold IsDigit; decide
  have h6 : ∀ (x : Bytes) (a : L.V6), L.parse6 x = some a → 13 ∉ x := fun x a h hm => by
    have := hL.chars6 x a h 13 hm
    revert this; unfold IsDigit; decide
  refine inLine_alt (inLine_mapP (inLine_recognize (inLine_sepNonempty (inLine_complete (inLine_tag (by decide)))
    (inLine_complete (inLine_preceded (inLine_oneOf (by decide)) (inLine_opt (inLine_isA (by decide)))))))) ?_
  exact inLine_alt (inLine_mapP (inLine_literal (by decide) h6)) (inLine_mapP (inLine_literal (by decide) h4))

theorem inLine_email (hL : IpLaws L) : InLine (emailP : Parser (Email L)) := by
  have hq : InLine quotedItemP :=
    inLine_alt (inLine_preceded (inLine_tag (by decide)) (inLine_byte (by decide))) (inLine_byte (by decide))
  have hl : InLine localpartP := by
    refine inLine_alt (inLine_recognize ?_) (inLine_recognize (inLine_sepNonempty (inLine_complete (inLine_tag (by decide)))
      (inLine_complete (inLine_isA (by decide)))))
    exact inLine_bind (inLine_tag (by decide)) fun _ => inLine_bind (inLine_many0 hq) fun _ =>
      inLine_bind (inLine_tag (by decide)) fun _ => inLine_pure _
  exact inLine_bind hl fun _ => inLine_bind (inLine_opt (inLine_complete (inLine_preceded (inLine_tag (by decide))
    (inLine_hostname hL)))) fun _ => inLine_pure _

theorem inLine_path (hL : IpLaws L) : InLine (addressInPathP : Parser (Email L)) := by
  refine inLine_preceded (inLine_opt ?_) (inLine_email hL)
  refine inLine_bind (inLine_sepList (inLine_tag (by decide)) ?_) fun _ => inLine_bind (inLine_tag (by decide)) fun _ =>
    inLine_pure _
  exact inLine_bind (inLine_tag (by decide)) fun _ => inLine_bind (inLine_hostname hL) fun _ => inLine_pure _

theorem inLine_maybeBracketed (hL : IpLaws L) : InLine (maybeBracketedP : Parser (Email L)) :=
  inLine_alt (inLine_bind (inLine_tag (by decide)) fun _ => inLine_bind (inLine_path hL) fun _ =>
    inLine_bind (inLine_tag (by decide)) fun _ => inLine_pure _) (inLine_path hL)

theorem inLine_parameters : InLine parametersP := by
  refine inLine_bind (inLine_many0 ?_) fun _ => inLine_pure _
  refine inLine_bind (inLine_oneOf (by decide)) fun _ => inLine_bind inLine_eatSpaces fun _ => inLine_bind
    (inLine_recognize (inLine_preceded (inLine_oneOf (by decide)) (inLine_opt (inLine_isA (by decide))))) fun _ =>
    inLine_bind (inLine_opt (inLine_complete (inLine_preceded (inLine_tag (by decide)) (inLine_isA (by decide))))) fun _ =>
    inLine_pure _

theorem settled_bare {t : Bytes} {c : Command L} (h : ∀ d ∈ t, (lower 13 == lower d) = false) :
    Settled (do let _ ← tagNoCase t; let _ ← eatSpaces; let _ ← crlfP; return c : Parser (Command L)) :=
  settled_bind (inLine_tagNoCase h) fun _ => settled_bind inLine_eatSpaces fun _ => settled_last settled_crlf

theorem settled_hello (hL : IpLaws L) {t : Bytes} {f : Domain L → Command L} (h : ∀ d ∈ t, (lower 13 == lower d) = false) :
    Settled (do
      let _ ← eatSpaces
      let _ ← tagNoCase t
      let _ ← eatSpaces
      let d ← hostnameP
      let _ ← eatSpaces
      let _ ← tag b!"\r\n"
      return f d : Parser (Command L)) :=
  settled_bind inLine_eatSpaces fun _ => settled_bind (inLine_tagNoCase h) fun _ => settled_bind inLine_eatSpaces fun _ =>
    settled_bind (inLine_hostname hL) fun _ => settled_bind inLine_eatSpaces fun _ => settled_last settled_crlf

theorem settled_text {t : Bytes} {f : Bytes → Command L} (h : ∀ d ∈ t, (lower 13 == lower d) = false) :
    Settled (do
      let _ ← tagNoCase t
      let _ ← oneOf spacesC
      let res ← takeUntil b!"\r\n"
      let _ ← tag b!"\r\n"
      return f res : Parser (Command L)) :=
  settled_bind (inLine_tagNoCase h) fun _ => settled_bind (inLine_oneOf (by decide)) fun _ =>
    settled_bind inLine_takeUntil fun _ => settled_last settled_crlf

theorem settled_opttext {t : Bytes} {f : Bytes → Command L} (h : ∀ d ∈ t, (lower 13 == lower d) = false) :
    Settled (do
      let _ ← tagNoCase t
      let _ ← opt (oneOf spacesC)
      let res ← takeUntil b!"\r\n"
      let _ ← tag b!"\r\n"
      return f res : Parser (Command L)) :=
  settled_bind (inLine_tagNoCase h) fun _ => settled_bind (inLine_opt (inLine_oneOf (by decide))) fun _ =>
    settled_bind inLine_takeUntil fun _ => settled_last settled_crlf

/-- With a complete line in the buffer, the command parser never asks for more. -/
theorem settled_command (hL : IpLaws L) : Settled (commandP : Parser (Command L)) := by
  have hm : Settled (mailArgs : Parser (Command L)) :=
    settled_bind (inLine_tagNoCase (by decide +kernel)) fun _ => settled_bind inLine_eatSpaces fun _ =>
      settled_bind (inLine_alt (inLine_mapP (inLine_tag (by decide +kernel))) (inLine_mapP (inLine_maybeBracketed hL))) fun _ =>
      settled_bind inLine_parameters fun _ => settled_bind inLine_eatSpaces fun _ => settled_last settled_crlf
  have hr : Settled (rcptArgs : Parser (Command L)) :=
    settled_bind (inLine_tagNoCase (by decide +kernel)) fun _ => settled_bind inLine_eatSpaces fun _ =>
      settled_bind (inLine_maybeBracketed hL) fun _ =>
      settled_bind inLine_parameters fun _ => settled_bind inLine_eatSpaces fun _ => settled_last settled_crlf
  exact settled_alt (settled_bare (by decide +kernel)) <| settled_alt (settled_hello hL (by decide +kernel)) <|
    settled_alt (settled_text (by decide +kernel)) <| settled_alt (settled_hello hL (by decide +kernel)) <|
    settled_alt (settled_opttext (by decide +kernel)) <| settled_alt hm <| settled_alt (settled_opttext (by decide +kernel)) <|
    settled_alt (settled_bare (by decide +kernel)) <| settled_alt hr <| settled_alt (settled_bare (by decide +kernel)) <|
    settled_text (by decide +kernel)

end Verif
