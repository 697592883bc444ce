import Verif.Proofs.CommandText
/-
The verbs: what each alternative of the command parser does with a line that starts with a given verb.
-/
namespace Verif
open Nom Spec

variable {L : IpLib}

section
variable {t0 t1 t2 t3 w0 w1 w2 w3 : UInt8} {ts ws v v' b1 rest : Bytes}

/-- An alternative refuses another verb, and blanks in front of it. -/
theorem verb_other {α : Type} {f : Bytes → Parser α} (hb1 : Blanks b1) (hv : IsVerb (w0 :: w1 :: w2 :: w3 :: ws) v)
    (ht : 97 ≤ lower t0 ∧ lower t0 ≤ 122)
    (h : ¬ (w0 = lower t0 ∧ w1 = lower t1 ∧ w2 = lower t2 ∧ w3 = lower t3)) :
    (tagNoCase (t0 :: t1 :: t2 :: t3 :: ts) >>= f) (b1 ++ (v ++ rest)) = .error := by
  apply bind_of_error
  cases b1 with
  | nil =>
    obtain ⟨a, b, c, d, t, rfl, rfl, rfl, rfl, rfl⟩ := verb4 hv
    exact verb_error h
  | cons e b1 =>
    apply tagNoCase_head_ne
    intro heq
    exact lower_not_space e (by rw [heq]; exact ht) ((mem_spaces e).2 (hb1 e (by simp)))

/-- `EHLO` / `HELO` refuse another verb. -/
theorem hello_other {α : Type} {f : Bytes → Parser α} (hb1 : Blanks b1) (hv : IsVerb (w0 :: w1 :: w2 :: w3 :: ws) v)
    (hw : 97 ≤ w0 ∧ w0 ≤ 122)
    (h : ¬ (w0 = lower t0 ∧ w1 = lower t1 ∧ w2 = lower t2 ∧ w3 = lower t3)) :
    (eatSpaces >>= fun _ => tagNoCase (t0 :: t1 :: t2 :: t3 :: ts) >>= f) (b1 ++ (v ++ rest)) = .error := by
  obtain ⟨a, b, c, d, t, rfl, rfl, rfl, rfl, rfl⟩ := verb4 hv
  have h1 : eatSpaces (b1 ++ (a :: b :: c :: d :: t ++ rest)) = .done (a :: b :: c :: d :: t ++ rest) b1 :=
    eatSpaces_complete hb1 (stopAt_cons.2 (lower_not_space a hw))
  rw [bind_of_done h1]
  exact bind_of_error (verb_error h)

/-- An alternative does not look at the case of its verb. -/
theorem caseless_verb {α : Type} {k : Parser α} (hb1 : Blanks b1) (hv : IsVerb (w0 :: w1 :: w2 :: w3 :: ws) v)
    (hv' : IsVerb (w0 :: w1 :: w2 :: w3 :: ws) v') (ht : 97 ≤ lower t0 ∧ lower t0 ≤ 122)
    (h : (t0 :: t1 :: t2 :: t3 :: ts).map lower = w0 :: w1 :: w2 :: w3 :: ws ∨
      ¬ (w0 = lower t0 ∧ w1 = lower t1 ∧ w2 = lower t2 ∧ w3 = lower t3)) :
    (tagNoCase (t0 :: t1 :: t2 :: t3 :: ts) >>= fun _ => k) (b1 ++ (v ++ rest)) =
      (tagNoCase (t0 :: t1 :: t2 :: t3 :: ts) >>= fun _ => k) (b1 ++ (v' ++ rest)) := by
  rcases h with h | h
  · cases b1 with
    | nil =>
      have e1 : tagNoCase (t0 :: t1 :: t2 :: t3 :: ts) (v ++ rest) = .done rest v :=
        tagNoCase_done.2 ⟨rfl, by rw [h]; exact hv⟩
      have e2 : tagNoCase (t0 :: t1 :: t2 :: t3 :: ts) (v' ++ rest) = .done rest v' :=
        tagNoCase_done.2 ⟨rfl, by rw [h]; exact hv'⟩
      simp only [List.nil_append]
      rw [bind_of_done e1, bind_of_done e2]
    | cons e b1 =>
      have key (x : Bytes) : tagNoCase (t0 :: t1 :: t2 :: t3 :: ts) (e :: x) = .error := by
        apply tagNoCase_head_ne
        intro heq
        exact lower_not_space e (by rw [heq]; exact ht) ((mem_spaces e).2 (hb1 e (by simp)))
      simp only [List.cons_append]
      rw [bind_of_error (key _), bind_of_error (key _)]
  · rw [verb_other hb1 hv ht h, verb_other hb1 hv' ht h]

theorem caseless_hello {α : Type} {k : Parser α} (hb1 : Blanks b1) (hv : IsVerb (w0 :: w1 :: w2 :: w3 :: ws) v)
    (hv' : IsVerb (w0 :: w1 :: w2 :: w3 :: ws) v') (hw : 97 ≤ w0 ∧ w0 ≤ 122)
    (h : (t0 :: t1 :: t2 :: t3 :: ts).map lower = w0 :: w1 :: w2 :: w3 :: ws ∨
      ¬ (w0 = lower t0 ∧ w1 = lower t1 ∧ w2 = lower t2 ∧ w3 = lower t3)) :
    (eatSpaces >>= fun _ => tagNoCase (t0 :: t1 :: t2 :: t3 :: ts) >>= fun _ => k) (b1 ++ (v ++ rest)) =
      (eatSpaces >>= fun _ => tagNoCase (t0 :: t1 :: t2 :: t3 :: ts) >>= fun _ => k) (b1 ++ (v' ++ rest)) := by
  rcases h with h | h
  · have e1 : tagNoCase (t0 :: t1 :: t2 :: t3 :: ts) (v ++ rest) = .done rest v :=
      tagNoCase_done.2 ⟨rfl, by rw [h]; exact hv⟩
    have e2 : tagNoCase (t0 :: t1 :: t2 :: t3 :: ts) (v' ++ rest) = .done rest v' :=
      tagNoCase_done.2 ⟨rfl, by rw [h]; exact hv'⟩
    have key {x : Bytes} (hx : IsVerb (w0 :: w1 :: w2 :: w3 :: ws) x) :
        eatSpaces (b1 ++ (x ++ rest)) = .done (x ++ rest) b1 := by
      obtain ⟨a, b, c, d, t, rfl, rfl, _⟩ := verb4 hx
      exact eatSpaces_complete hb1 (stopAt_cons.2 (lower_not_space a hw))
    rw [bind_of_done (key hv), bind_of_done (key hv'), bind_of_done e1, bind_of_done e2]
  · rw [hello_other hb1 hv hw h, hello_other hb1 hv' hw h]
end

theorem alt_congr {α : Type} {p q : Parser α} {i i' : Bytes} (hp : p i = p i') (hq : q i = q i') :
    alt p q i = alt p q i' := by
  unfold alt
  rw [hp, hq]

/-- The eleven verbs. -/
def verbs : List Bytes :=
  [b!"data", b!"ehlo", b!"expn", b!"helo", b!"help", b!"mail from:", b!"noop", b!"quit", b!"rcpt to:",
    b!"rset", b!"vrfy"]

theorem commandP_caseless {W b1 v v' rest : Bytes} (hW : W ∈ verbs) (hb1 : Blanks b1) (hv : IsVerb W v)
    (hv' : IsVerb W v') : (commandP (b1 ++ (v ++ rest)) : IRes (Command L)) = commandP (b1 ++ (v' ++ rest)) := by
  unfold commandP
  simp only [verbs, List.mem_cons, List.not_mem_nil, or_false] at hW
  rcases hW with rfl | rfl | rfl | rfl | rfl | rfl | rfl | rfl | rfl | rfl | rfl <;>
    (repeat' apply alt_congr) <;>
    first
      | exact caseless_verb hb1 hv hv' (by decide) (by decide)
      | exact caseless_hello hb1 hv hv' (by decide) (by decide)

/-- The alternatives of the command parser. -/
def alternatives (L : IpLib) : List (Parser (Command L)) :=
  [dataArgs, ehloArgs, expnArgs, heloArgs, helpArgs, mailArgs, noopArgs, quitArgs, rcptArgs, rsetArgs, vrfyArgs]

local macro "others" b1:term:max hb1:term:max hv:term:max k:term:max : tactic =>
  `(tactic| (
    unfold alternatives
    repeat' refine List.forall_mem_cons.2 ⟨?_, ?_⟩
    all_goals first
      | (intro _ h; exact absurd h List.not_mem_nil)
      | exact .inr (verb_other (b1 := $b1) $hb1 $hv (by decide) (by decide))
      | exact .inr (hello_other (b1 := $b1) $hb1 $hv (by decide) (by decide))
      | exact .inl $k))

/-- A line of the language is accepted by its own alternative and refused by all others. -/
theorem alternatives_apart (hL : IpLaws L) {i : Bytes} {c : Command L} (h : CollectLine L i c) :
    ∀ p ∈ alternatives L, p i = .done [] c ∨ p i = .error := by
  cases h with
  | data v bl hv hb =>
    have k : dataArgs _ = _ := bare_complete (L := L) (c := .data) (t := b!"DATA") (by decide) hv hb
    rw [List.append_assoc] at k ⊢
    others [] blanks_nil hv k
  | quit v bl hv hb =>
    have k : quitArgs _ = _ := bare_complete (L := L) (c := .quit) (t := b!"QUIT") (by decide) hv hb
    rw [List.append_assoc] at k ⊢
    others [] blanks_nil hv k
  | rset v bl hv hb =>
    have k : rsetArgs _ = _ := bare_complete (L := L) (c := .rset) (t := b!"RSET") (by decide) hv hb
    rw [List.append_assoc] at k ⊢
    others [] blanks_nil hv k
  | ehlo b1 v b2 dt b3 d' hv hb1 hb2 hb3 hd =>
    have k : ehloArgs _ = _ := hello_complete hL (f := Command.ehlo) (t := b!"EHLO") (by decide) hv
      (by obtain ⟨a, b, c, d, t, rfl, h1, h2, h3, h4⟩ := verb4 hv
          exact ⟨a, _, rfl, lower_not_space _ (by rw [h1]; decide)⟩) hb1 hb2 hb3 hd
    simp only [List.append_assoc] at k ⊢
    others b1 hb1 hv k
  | helo b1 v b2 dt b3 d' hv hb1 hb2 hb3 hd =>
    have k : heloArgs _ = _ := hello_complete hL (f := Command.helo) (t := b!"HELO") (by decide) hv
      (by obtain ⟨a, b, c, d, t, rfl, h1, h2, h3, h4⟩ := verb4 hv
          exact ⟨a, _, rfl, lower_not_space _ (by rw [h1]; decide)⟩) hb1 hb2 hb3 hd
    simp only [List.append_assoc] at k ⊢
    others b1 hb1 hv k
  | expn v e s hv he hs =>
    have k : expnArgs _ = _ := text_complete (L := L) (f := .expn) (t := b!"EXPN") (by decide) hv he hs
    simp only [List.append_assoc] at k ⊢
    others [] blanks_nil hv k
  | vrfy v e s hv he hs =>
    have k : vrfyArgs _ = _ := text_complete (L := L) (f := .vrfy) (t := b!"VRFY") (by decide) hv he hs
    simp only [List.append_assoc] at k ⊢
    others [] blanks_nil hv k
  | help v bl s hv hs hb =>
    have k : helpArgs _ = _ := opttext_complete (L := L) (f := .help) (t := b!"HELP") (by decide) hv hs hb
    simp only [List.append_assoc] at k ⊢
    others [] blanks_nil hv k
  | noop v bl s hv hs hb =>
    have k : noopArgs _ = _ := opttext_complete (L := L) (f := .noop) (t := b!"NOOP") (by decide) hv hs hb
    simp only [List.append_assoc] at k ⊢
    others [] blanks_nil hv k
  | mailNull v b1 pt b2 ps m hv hb1 hb2 hp hm =>
    subst hm
    have k := mailNull_complete (L := L) hv hb1 hb2 hp
    simp only [List.append_assoc] at k ⊢
    others [] blanks_nil hv k
  | mail v b1 x pt b2 e ps m hv hb1 hb2 hx hp hm =>
    subst hm
    have k := mail_complete hL hv hb1 hb2 hx hp
    simp only [List.append_assoc] at k ⊢
    others [] blanks_nil hv k
  | rcpt v b1 x pt b2 e ps m hv hb1 hb2 hx hp hm =>
    subst hm
    have k := rcpt_complete hL hv hb1 hb2 hx hp
    simp only [List.append_assoc] at k ⊢
    others [] blanks_nil hv k

theorem foldr_alt_error {ps : List (Parser (Command L))} {i : Bytes} (h : ∀ p ∈ ps, p i = .error) :
    ps.foldr alt Parser.fail i = .error := by
  induction ps with
  | nil => rfl
  | cons p ps ih =>
    exact alt_error.2 ⟨h p (by simp), ih fun q hq => h q (by simp [hq])⟩

theorem foldr_alt_done {ps : List (Parser (Command L))} {i : Bytes} {c : Command L}
    (h : ∀ p ∈ ps, p i = .done [] c ∨ p i = .error) (hex : ∃ p ∈ ps, p i = .done [] c) :
    ps.foldr alt Parser.fail i = .done [] c := by
  induction ps with
  | nil => simp at hex
  | cons p ps ih =>
    rcases h p (by simp) with hp | hp
    · exact alt_done.2 (.inl hp)
    · refine alt_done.2 (.inr ⟨hp, ih (fun q hq => h q (by simp [hq])) ?_⟩)
      obtain ⟨q, hq, hd⟩ := hex
      rcases List.mem_cons.1 hq with rfl | hq
      · rw [hp] at hd; cases hd
      · exact ⟨q, hq, hd⟩

theorem foldr_alt_some {ps : List (Parser (Command L))} {i r : Bytes} {c : Command L}
    (h : ps.foldr alt Parser.fail i = .done r c) : ∃ p ∈ ps, p i = .done r c := by
  induction ps with
  | nil => cases h
  | cons p ps ih =>
    rcases alt_done.1 h with hp | ⟨_, hp⟩
    · exact ⟨p, by simp, hp⟩
    · obtain ⟨q, hq, hd⟩ := ih hp
      exact ⟨q, by simp [hq], hd⟩

theorem commandP_foldr (i : Bytes) : commandP i = (alternatives L).foldr alt Parser.fail i := by
  have key (p : Parser (Command L)) : alt p Parser.fail = p := by
    funext i; unfold alt Parser.fail; cases p i <;> rfl
  simp only [alternatives, List.foldr, key]
  rfl

/-- Each alternative by itself accepts only lines of the language. -/
theorem alternative_sound {p : Parser (Command L)} (hp : p ∈ alternatives L) {i : Bytes} {c : Command L}
    (h : p i = .done [] c) : CollectLine L i c := by
  simp only [alternatives, List.mem_cons, List.not_mem_nil, or_false] at hp
  rcases hp with rfl | rfl | rfl | rfl | rfl | rfl | rfl | rfl | rfl | rfl | rfl
  · obtain ⟨rfl, v, bl, hv, hb, rfl⟩ := bare_sound (w := b!"data") (by decide) h
    exact .data v bl hv hb
  · obtain ⟨b1, v, b2, dt, b3, d, rfl, hv, h1, h2, h3, hd, rfl⟩ := hello_sound (w := b!"ehlo") (by decide) h
    exact .ehlo b1 v b2 dt b3 d hv h1 h2 h3 hd
  · obtain ⟨v, b, s, rfl, hv, hb, hs, rfl⟩ := text_sound (w := b!"expn") (by decide) h
    exact .expn v b s hv hb hs
  · obtain ⟨b1, v, b2, dt, b3, d, rfl, hv, h1, h2, h3, hd, rfl⟩ := hello_sound (w := b!"helo") (by decide) h
    exact .helo b1 v b2 dt b3 d hv h1 h2 h3 hd
  · obtain ⟨v, bl, s, rfl, hv, hs, hb, rfl⟩ := opttext_sound (w := b!"help") (by decide) h
    exact .help v bl s hv hs hb
  · exact mail_sound h
  · obtain ⟨v, bl, s, rfl, hv, hs, hb, rfl⟩ := opttext_sound (w := b!"noop") (by decide) h
    exact .noop v bl s hv hs hb
  · obtain ⟨rfl, v, bl, hv, hb, rfl⟩ := bare_sound (w := b!"quit") (by decide) h
    exact .quit v bl hv hb
  · exact rcpt_sound h
  · obtain ⟨rfl, v, bl, hv, hb, rfl⟩ := bare_sound (w := b!"rset") (by decide) h
    exact .rset v bl hv hb
  · obtain ⟨v, b, s, rfl, hv, hb, hs, rfl⟩ := text_sound (w := b!"vrfy") (by decide) h
    exact .vrfy v b s hv hb hs

end Verif
