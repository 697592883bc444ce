import Verif.Proofs.Commands
/-
Facts about the command language itself: no text of it holds a CR except in free text; printing gives
texts of the language.
-/
namespace Verif
open Nom Spec

variable {L : IpLib}

def NoCr (x : Bytes) : Prop := ∀ c ∈ x, c ≠ 13

theorem NoCr.nil : NoCr [] := by simp [NoCr]
theorem NoCr.append {x y : Bytes} (hx : NoCr x) (hy : NoCr y) : NoCr (x ++ y) := by
  intro c hc
  rcases List.mem_append.1 hc with h | h
  · exact hx c h
  · exact hy c h

theorem NoCr.joinWith {sep : UInt8} (hs : sep ≠ 13) {ls : List Bytes} (h : ∀ l ∈ ls, NoCr l) :
    NoCr (joinWith sep ls) := by
  induction ls with
  | nil => exact NoCr.nil
  | cons l ls ih =>
    cases ls with
    | nil => exact h l (by simp)
    | cons m ms =>
      rw [Spec.joinWith]
      · exact ((h l (by simp)).append (by intro c hc; simp at hc; subst hc; exact hs)).append
          (ih (fun x hx => h x (by simp [hx])))
      · simp

theorem NoCr.flatten {ls : List Bytes} (h : ∀ l ∈ ls, NoCr l) : NoCr ls.flatten := by
  intro c hc
  obtain ⟨l, hl, hc⟩ := List.mem_flatten.1 hc
  exact h l hl c hc

private theorem alnum_ne : ∀ c : UInt8, Alnum c → c ≠ 13 := by decide +kernel
private theorem alnumdash_ne : ∀ c : UInt8, AlnumDash c → c ≠ 13 := by decide +kernel
private theorem atext_ne : ∀ c : UInt8, Atext c → c ≠ 13 := by decide +kernel
private theorem value_ne : ∀ c : UInt8, ValueByte c → c ≠ 13 := by decide +kernel
private theorem printable_ne : ∀ c : UInt8, Printable c → c ≠ 13 := by decide +kernel
private theorem blank_ne : ∀ c : UInt8, Blank c → c ≠ 13 := by decide +kernel
private theorem ip4_ne : ∀ c : UInt8, (IsDigit c ∨ c = 46) → c ≠ 13 := by decide +kernel
private theorem ip6_ne : ∀ c : UInt8,
    (IsDigit c ∨ (65 ≤ c ∧ c ≤ 70) ∨ (97 ≤ c ∧ c ≤ 102) ∨ c = 58 ∨ c = 46) → c ≠ 13 := by decide +kernel
private theorem ip4_close : ∀ c : UInt8, (IsDigit c ∨ c = 46) → c ≠ 93 := by decide +kernel
private theorem ip6_close : ∀ c : UInt8,
    (IsDigit c ∨ (65 ≤ c ∧ c ≤ 70) ∨ (97 ≤ c ∧ c ≤ 102) ∨ c = 58 ∨ c = 46) → c ≠ 93 := by decide +kernel

theorem Spec.Blanks.noCr {b : Bytes} (h : Blanks b) : NoCr b := fun c hc => blank_ne c (h c hc)

theorem Spec.IsLabel.noCr {l : Bytes} (h : IsLabel l) : NoCr l := by
  obtain ⟨c, r, rfl, h1, h2⟩ := h
  intro x hx
  rcases List.mem_cons.1 hx with rfl | hx
  · exact alnum_ne _ h1
  · exact alnumdash_ne _ (h2 x hx)

theorem Spec.IsHost.noCr {l : Bytes} (h : IsHost l) : NoCr l := by
  obtain ⟨ls, _, h1, rfl⟩ := h
  exact NoCr.joinWith (by decide) fun l hl => (h1 l hl).noCr

theorem Spec.DomainText.noCr (hL : IpLaws L) {x : Bytes} {d : Domain L} (h : DomainText L x d) : NoCr x := by
  cases h with
  | host _ h => exact h.noCr
  | v4 x a _ hp =>
    exact ((show NoCr b!"[" by simp [NoCr]).append fun c hc => ip4_ne c (hL.chars4 x a hp c hc)).append
      (show NoCr b!"]" by simp [NoCr])
  | v6 x a _ hp =>
    exact ((show NoCr b!"[IPv6:" by simp [NoCr]).append fun c hc => ip6_ne c (hL.chars6 x a hp c hc)).append
      (show NoCr b!"]" by simp [NoCr])

theorem Spec.IsLocal.noCr {x content : Bytes} (h : IsLocal x content) : NoCr x := by
  rcases h with ⟨⟨ls, _, h, rfl⟩, _⟩ | ⟨items, h, rfl, _⟩
  · exact NoCr.joinWith (by decide) fun l hl c hc => atext_ne c ((h l hl).2 c hc)
  · refine ((show NoCr [34] by simp [NoCr]).append (NoCr.flatten ?_)).append (show NoCr [34] by simp [NoCr])
    intro l hl
    obtain ⟨e, he, rfl⟩ := List.mem_map.1 hl
    have := h e he
    generalize e.1 = t at this ⊢
    cases this with
    | plain c hp => intro c hc; simp at hc; subst hc; exact printable_ne _ hp
    | escaped c hp =>
      intro c hc; simp at hc; rcases hc with rfl | rfl
      · decide
      · exact printable_ne _ hp

theorem Spec.EmailText.noCr (hL : IpLaws L) {x : Bytes} {e : Email L} (h : EmailText L x e) : NoCr x := by
  obtain ⟨⟨content, hl⟩, ⟨_, rfl⟩ | ⟨d, dt, _, hd, rfl⟩⟩ := h
  · exact hl.noCr
  · exact (hl.noCr.append (show NoCr [64] by simp [NoCr])).append (hd.noCr hL)

theorem Spec.PathText.noCr (hL : IpLaws L) {x : Bytes} {e : Email L} (h : PathText L x e) : NoCr x := by
  obtain ⟨route, et, hr, he, rfl⟩ := h
  refine NoCr.append ?_ (he.noCr hL)
  rcases hr with rfl | ⟨hops, hh, rfl⟩
  · exact NoCr.nil
  · refine (NoCr.joinWith (by decide) ?_).append (show NoCr [58] by simp [NoCr])
    intro h hm
    obtain ⟨dt, d, hd, rfl⟩ := hh h hm
    exact (show NoCr [64] by simp [NoCr]).append (hd.noCr hL)

theorem Spec.MaybeBracketed.noCr (hL : IpLaws L) {x : Bytes} {e : Email L} (h : MaybeBracketed L x e) : NoCr x := by
  rcases h with h | ⟨t, h, rfl⟩
  · exact h.noCr hL
  · exact ((show NoCr [60] by simp [NoCr]).append (h.noCr hL)).append (show NoCr [62] by simp [NoCr])

theorem Spec.IsValue.noCr {x : Bytes} (h : IsValue x) : NoCr x := fun c hc => value_ne c (h.2 c hc)

theorem Spec.ParamText.noCr {x : Bytes} {e} (h : ParamText x e) : NoCr x := by
  obtain ⟨bl, _, hb, hk, ⟨_, rfl⟩ | ⟨v, _, hv, rfl⟩⟩ := h
  · exact hb.noCr.append (IsLabel.noCr hk)
  · exact ((hb.noCr.append (IsLabel.noCr hk)).append (show NoCr [61] by simp [NoCr])).append hv.noCr

theorem Spec.ParamsText.noCr {x : Bytes} {ps} (h : ParamsText x ps) : NoCr x := by
  obtain ⟨ts, h1, rfl, _⟩ := h
  refine NoCr.flatten ?_
  intro l hl
  obtain ⟨e, he, rfl⟩ := List.mem_map.1 hl
  exact (h1 e he).noCr

private theorem lower_ne : ∀ c : UInt8, lower c ≠ 13 → c ≠ 13 := by decide +kernel

theorem Spec.IsVerb.noCr {w v : Bytes} (h : IsVerb w v) (hw : NoCr w) : NoCr v := by
  rw [isVerb_iff] at h
  subst h
  intro c hc
  exact lower_ne c (hw _ (List.mem_map_of_mem hc))

theorem noCr_noCrlf {x : Bytes} (h : NoCr x) : NoCrlf x := fun hi =>
  h 13 (hi.subset (by simp)) rfl

/-- Text without CR in front of text without CRLF. -/
theorem noCr_append_noCrlf {x s : Bytes} (hx : NoCr x) (hs : NoCrlf s) : NoCrlf (x ++ s) := by
  rintro ⟨a, b, hab⟩
  rw [List.append_assoc] at hab
  rcases List.append_eq_append_iff.1 hab with ⟨t, h1, h2⟩ | ⟨t, h1, h2⟩
  · cases t with
    | nil => exact hs ⟨[], b, by simpa using h2⟩
    | cons c t =>
      have : c = 13 := by simp [crlf] at h2; exact h2.1.symm
      exact hx c (by rw [h1]; simp) this
  · exact hs ⟨t, b, by rw [h2]; simp⟩

theorem collectLine_oneLine (hL : IpLaws L) {i : Bytes} {c : Command L} (h : CollectLine L i c) : OneLine i := by
  cases h with
  | data v bl hv hb =>
    exact ⟨_, rfl, noCr_noCrlf ((hv.noCr (by simp [NoCr])).append hb.noCr)⟩
  | quit v bl hv hb =>
    exact ⟨_, rfl, noCr_noCrlf ((hv.noCr (by simp [NoCr])).append hb.noCr)⟩
  | rset v bl hv hb =>
    exact ⟨_, rfl, noCr_noCrlf ((hv.noCr (by simp [NoCr])).append hb.noCr)⟩
  | ehlo b1 v b2 dt b3 d hv h1 h2 h3 hd =>
    exact ⟨_, rfl, noCr_noCrlf ((((h1.noCr.append (hv.noCr (by simp [NoCr]))).append h2.noCr).append
      (hd.noCr hL)).append h3.noCr)⟩
  | helo b1 v b2 dt b3 d hv h1 h2 h3 hd =>
    exact ⟨_, rfl, noCr_noCrlf ((((h1.noCr.append (hv.noCr (by simp [NoCr]))).append h2.noCr).append
      (hd.noCr hL)).append h3.noCr)⟩
  | expn v e s hv he hs =>
    exact ⟨_, rfl, noCr_append_noCrlf ((hv.noCr (by simp [NoCr])).append
      (by intro x hx; simp at hx; subst hx; exact blank_ne _ he)) hs⟩
  | vrfy v e s hv he hs =>
    exact ⟨_, rfl, noCr_append_noCrlf ((hv.noCr (by simp [NoCr])).append
      (by intro x hx; simp at hx; subst hx; exact blank_ne _ he)) hs⟩
  | help v bl s hv hs hb =>
    refine ⟨_, rfl, noCr_append_noCrlf ((hv.noCr (by simp [NoCr])).append ?_) hs⟩
    rcases hb with ⟨c, hc, rfl⟩ | ⟨rfl, _⟩
    · intro x hx; simp at hx; subst hx; exact blank_ne _ hc
    · exact NoCr.nil
  | noop v bl s hv hs hb =>
    refine ⟨_, rfl, noCr_append_noCrlf ((hv.noCr (by simp [NoCr])).append ?_) hs⟩
    rcases hb with ⟨c, hc, rfl⟩ | ⟨rfl, _⟩
    · intro x hx; simp at hx; subst hx; exact blank_ne _ hc
    · exact NoCr.nil
  | mailNull v b1 pt b2 ps m hv hb1 hb2 hp hm =>
    exact ⟨_, rfl, noCr_noCrlf (((((hv.noCr (by simp [NoCr])).append hb1.noCr).append
      (show NoCr b!"<>" by simp [NoCr])).append hp.noCr).append hb2.noCr)⟩
  | mail v b1 x pt b2 e ps m hv hb1 hb2 hx hp hm =>
    exact ⟨_, rfl, noCr_noCrlf (((((hv.noCr (by simp [NoCr])).append hb1.noCr).append
      (hx.noCr hL)).append hp.noCr).append hb2.noCr)⟩
  | rcpt v b1 x pt b2 e ps m hv hb1 hb2 hx hp hm =>
    exact ⟨_, rfl, noCr_noCrlf (((((hv.noCr (by simp [NoCr])).append hb1.noCr).append
      (hx.noCr hL)).append hp.noCr).append hb2.noCr)⟩

/-! ### Printing -/

theorem domain_print (hL : IpLaws L) {d : Domain L} (h : WFDomain d) : DomainText L d.sendTo d := by
  cases d with
  | host s => exact .host s h
  | v4 a => exact .v4 _ a (fun hc => ip4_close _ (hL.chars4 _ a (hL.parse_show4 a) _ hc) rfl) (hL.parse_show4 a)
  | v6 a => exact .v6 _ a (fun hc => ip6_close _ (hL.chars6 _ a (hL.parse_show6 a) _ hc) rfl) (hL.parse_show6 a)

theorem domainText_wf {x : Bytes} {d : Domain L} (h : DomainText L x d) : WFDomain d := by
  cases h with
  | host _ h => exact h
  | v4 => exact trivial
  | v6 => exact trivial

theorem email_print (hL : IpLaws L) {e : Email L} (h : WFEmail e) : EmailText L e.sendTo e := by
  obtain ⟨h1, h2⟩ := h
  refine ⟨h1, ?_⟩
  cases hh : e.hostname with
  | none => left; simp [Email.sendTo, hh]
  | some d =>
    right
    exact ⟨d, d.sendTo, rfl, domain_print hL (h2 d hh), by simp [Email.sendTo, hh]⟩

theorem emailText_wf {x : Bytes} {e : Email L} (h : EmailText L x e) : WFEmail e := by
  obtain ⟨h1, ⟨h2, _⟩ | ⟨d, dt, h2, hd, _⟩⟩ := h
  · exact ⟨h1, by simp [h2]⟩
  · exact ⟨h1, by intro d' hd'; rw [h2] at hd'; cases hd'; exact domainText_wf hd⟩

theorem pathText_wf {x : Bytes} {e : Email L} (h : MaybeBracketed L x e) : WFEmail e := by
  rcases h with ⟨_, _, _, h, _⟩ | ⟨_, ⟨_, _, _, h, _⟩, _⟩
  · exact emailText_wf h
  · exact emailText_wf h

theorem email_bracketed {x : Bytes} {e : Email L} (h : EmailText L x e) :
    MaybeBracketed L ([60] ++ x ++ [62]) e :=
  .inr ⟨x, ⟨[], x, .inl rfl, h, rfl⟩, rfl⟩

theorem params_print {m : Params} (h : ∀ e ∈ m, IsKey e.1 ∧ ∀ v, e.2 = some v → IsValue v) :
    ParamsText m.sendTo m := by
  refine ⟨m.map fun e => (b!" " ++ e.1 ++ (match e.2 with | some v => b!"=" ++ v | none => []), e), ?_, ?_, ?_⟩
  · intro x hx
    obtain ⟨e, he, rfl⟩ := List.mem_map.1 hx
    obtain ⟨hk, hv⟩ := h e he
    refine ⟨b!" ", by simp, by intro c hc; simp at hc; simp [hc, Blank], hk, ?_⟩
    cases he2 : e.2 with
    | none => left; exact ⟨rfl, by simp⟩
    | some v => right; exact ⟨v, rfl, hv v he2, by simp⟩
  · rw [List.map_map]; rfl
  · simp [Function.comp_def]

theorem paramsText_wf {x : Bytes} {ps} (h : ParamsText x ps) :
    ∀ e ∈ ps, IsKey e.1 ∧ ∀ v, e.2 = some v → IsValue v := by
  obtain ⟨ts, h1, _, rfl⟩ := h
  intro e he
  obtain ⟨t, ht, rfl⟩ := List.mem_map.1 he
  obtain ⟨bl, _, _, hk, ⟨hn, _⟩ | ⟨v, hs, hv, _⟩⟩ := h1 t ht
  · exact ⟨hk, by simp [hn]⟩
  · exact ⟨hk, by intro v' hv'; rw [hs] at hv'; cases hv'; exact hv⟩

theorem lastMap_wf {ps} {m : Params} (h : ∀ e ∈ ps, IsKey e.1 ∧ ∀ v, e.2 = some v → IsValue v)
    (hm : IsLastMap ps m) : WFParams m := by
  refine ⟨hm.1, ?_⟩
  intro e he
  obtain ⟨b, a, hl, _⟩ := (hm.2 e.1 e.2).1 he
  exact h e (by rw [hl]; simp)

theorem collectLine_wf {i : Bytes} {c : Command L} (h : CollectLine L i c) : WFCommand c := by
  cases h with
  | data => exact trivial
  | quit => exact trivial
  | rset => exact trivial
  | ehlo _ _ _ _ _ _ _ _ _ _ hd => exact domainText_wf hd
  | helo _ _ _ _ _ _ _ _ _ _ hd => exact domainText_wf hd
  | expn _ _ _ _ _ h => exact h
  | vrfy _ _ _ _ _ h => exact h
  | help _ _ _ _ h => exact h
  | noop _ _ _ _ h => exact h
  | mailNull v b1 pt b2 ps m hv hb1 hb2 hp hm =>
    subst hm; exact ⟨by simp, lastMap_wf (paramsText_wf hp) (collect_lastMap ps)⟩
  | mail v b1 x pt b2 e ps m hv hb1 hb2 hx hp hm =>
    subst hm
    exact ⟨by intro e' he; cases he; exact pathText_wf hx, lastMap_wf (paramsText_wf hp) (collect_lastMap ps)⟩
  | rcpt v b1 x pt b2 e ps m hv hb1 hb2 hx hp hm =>
    subst hm; exact ⟨pathText_wf hx, lastMap_wf (paramsText_wf hp) (collect_lastMap ps)⟩

theorem blanks_nil : Blanks [] := by simp [Blanks]
theorem blanks_one : Blanks b!" " := by simp [Blanks, Blank]

/-- What `send_to` writes for a well-formed command is a line of that command. -/
theorem print_line (hL : IpLaws L) {c : Command L} (h : WFCommand c) : CollectLine L c.sendTo c := by
  cases c with
  | data => exact .data b!"DATA" [] rfl blanks_nil
  | quit => exact .quit b!"QUIT" [] rfl blanks_nil
  | rset => exact .rset b!"RSET" [] rfl blanks_nil
  | ehlo d =>
    have := CmdLineOf.ehlo (M := fun ps m => m = Params.collect ps) [] b!"EHLO" b!" " d.sendTo [] d rfl blanks_nil blanks_one blanks_nil
      (domain_print hL h)
    simpa [Command.sendTo] using this
  | helo d =>
    have := CmdLineOf.helo (M := fun ps m => m = Params.collect ps) [] b!"HELO" b!" " d.sendTo [] d rfl blanks_nil blanks_one blanks_nil
      (domain_print hL h)
    simpa [Command.sendTo] using this
  | expn s =>
    have := CmdLineOf.expn (L := L) (M := fun ps m => m = Params.collect ps) b!"EXPN" 32 s rfl (.inl rfl) h
    simpa [Command.sendTo] using this
  | vrfy s =>
    have := CmdLineOf.vrfy (L := L) (M := fun ps m => m = Params.collect ps) b!"VRFY" 32 s rfl (.inl rfl) h
    simpa [Command.sendTo] using this
  | help s =>
    have := CmdLineOf.help (L := L) (M := fun ps m => m = Params.collect ps) b!"HELP" [32] s rfl h (.inl ⟨32, .inl rfl, rfl⟩)
    simpa [Command.sendTo] using this
  | noop s =>
    have := CmdLineOf.noop (L := L) (M := fun ps m => m = Params.collect ps) b!"NOOP" [32] s rfl h (.inl ⟨32, .inl rfl, rfl⟩)
    simpa [Command.sendTo] using this
  | mail f p =>
    obtain ⟨hf, hn, hp⟩ := h
    cases f with
    | none =>
      have := CmdLineOf.mailNull (L := L) (M := fun ps m => m = Params.collect ps) b!"MAIL FROM:" [] p.sendTo [] p p rfl blanks_nil
        blanks_nil (params_print hp) (collect_nodup p hn).symm
      simpa [Command.sendTo, optEmailSendTo] using this
    | some e =>
      have := CmdLineOf.mail (L := L) (M := fun ps m => m = Params.collect ps) b!"MAIL FROM:" [] _ p.sendTo [] e p p rfl blanks_nil
        blanks_nil (email_bracketed (email_print hL (hf e rfl))) (params_print hp) (collect_nodup p hn).symm
      simpa [Command.sendTo, optEmailSendTo] using this
  | rcpt e p =>
    obtain ⟨he, hn, hp⟩ := h
    have := CmdLineOf.rcpt (L := L) (M := fun ps m => m = Params.collect ps) b!"RCPT TO:" [] _ p.sendTo [] e p p rfl blanks_nil
      blanks_nil (email_bracketed (email_print hL he)) (params_print hp) (collect_nodup p hn).symm
    simpa [Command.sendTo] using this

/-! ### Unquoting -/

theorem unescape_items {items : List (Bytes × UInt8)} (h : ∀ e ∈ items, QItem e.1 e.2) (r : Bytes) :
    unescape false ((items.map (·.1)).flatten ++ r) = items.map (·.2) ++ unescape false r := by
  induction items with
  | nil => simp
  | cons e items ih =>
    have he := h e (by simp)
    obtain ⟨t, c⟩ := e
    simp only [List.map_cons, List.flatten_cons, List.append_assoc, List.cons_append]
    rw [← ih fun e he => h e (by simp [he])]
    generalize (List.map (fun x => x.fst) items).flatten ++ r = y
    simp only at he
    cases he with
    | plain _ _ h2 h3 => simp [unescape, h3]
    | escaped _ _ => simp [unescape]

theorem localpart_unquotes {e : Email L} {content : Bytes} (h : IsLocal e.localpart content) :
    e.localpartFn = some content := by
  unfold Email.localpartFn
  rcases h with ⟨hd, rfl⟩ | ⟨items, h1, h2, rfl⟩
  · obtain ⟨c, t, ht, hc⟩ := dotString_head hd
    rw [ht]
    have : c ≠ 34 := (by decide +kernel : ∀ c : UInt8, Atext c → c ≠ 34) c hc
    simp [this]
  · rw [h2]
    simp only [List.cons_append, List.nil_append]
    rw [unescape_items h1]
    simp [unescape]

end Verif
