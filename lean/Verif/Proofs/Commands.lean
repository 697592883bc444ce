import Verif.Proofs.Grammar
/-
Parameters and the eleven commands.
-/
namespace Verif
open Spec Nom

variable {L : IpLib}

/-! ### Blanks -/

theorem blank_stop_email : ∀ c : UInt8, Blank c ∨ c = 13 → c ∉ atextC ++ b!".@" := by decide +kernel
theorem blank_stop_param : ∀ c : UInt8, Blank c ∨ c = 13 → c ∉ graphExceptEquC ++ b!"=" := by decide +kernel
theorem cr_not_space : (13 : UInt8) ∉ spacesC := by decide

/-- What follows an address or a parameter: a blank or the CR of the line end. -/
def BlankOrCr (r : Bytes) : Prop := ∃ c t, r = c :: t ∧ (Blank c ∨ c = 13)

theorem BlankOrCr.email {r : Bytes} (h : BlankOrCr r) : EmailStop r := by
  obtain ⟨c, t, rfl, hc⟩ := h
  exact stopAt_cons.2 (blank_stop_email c hc)

def ParamStop (r : Bytes) : Prop := StopAt (graphExceptEquC ++ b!"=") r

theorem BlankOrCr.param {r : Bytes} (h : BlankOrCr r) : ParamStop r := by
  obtain ⟨c, t, rfl, hc⟩ := h
  exact stopAt_cons.2 (blank_stop_param c hc)

theorem blankOrCr_blanks {bl t : Bytes} (h : Blanks bl) : BlankOrCr (bl ++ 13 :: t) := by
  cases bl with
  | nil => exact ⟨13, t, rfl, .inr rfl⟩
  | cons c bl => exact ⟨c, bl ++ 13 :: t, rfl, .inl (h c (by simp))⟩

theorem eatSpaces_done {i r a : Bytes} :
    eatSpaces i = .done r a ↔ i = a ++ r ∧ Blanks a ∧ StopAt spacesC r := by
  unfold eatSpaces
  rw [eatSeparator_done]
  simp only [Blanks, mem_spaces]

theorem eatSpaces_complete {bl r : Bytes} (h : Blanks bl) (hr : StopAt spacesC r) :
    eatSpaces (bl ++ r) = .done r bl := eatSpaces_done.2 ⟨rfl, h, hr⟩

/-! ### Parameters -/

theorem paramP_sound (i r : Bytes) (e : Bytes × Option Bytes) (h : paramP i = .done r e) (hr : r ≠ []) :
    ∃ x, ParamText x e ∧ i = x ++ r := by
  unfold paramP at h
  simp only [bind_done, pure_done] at h
  obtain ⟨r1, c, h1, r2, bl, h2, r3, key, h3, r4, value, h4, rfl, rfl⟩ := h
  obtain ⟨rfl, hc⟩ := oneOf_done.1 h1
  obtain ⟨rfl, hbl, _⟩ := eatSpaces_done.1 h2
  obtain ⟨a, h3, hk⟩ := recognize_done.1 h3
  obtain ⟨x, hx, rfl, _⟩ := labelP_sound _ _ _ h3
  rw [take_consumed] at hk
  subst hk
  have hb : Blanks (c :: bl) := by
    intro d hd
    rcases List.mem_cons.1 hd with rfl | hd
    · exact (mem_spaces _).1 hc
    · exact hbl d hd
  rcases opt_done.1 h4 with ⟨v, rfl, h5⟩ | ⟨rfl, rfl, _⟩
  · obtain ⟨r5, b, h6, h7⟩ := preceded_done.1 (complete_done.1 h5)
    obtain ⟨rfl, _⟩ := tag_done.1 h6
    obtain ⟨rfl, hv, _, hne⟩ := isA_done.1 h7
    refine ⟨c :: bl ++ key ++ [61] ++ v, ⟨c :: bl, by simp, hb, hx, .inr ⟨v, rfl, ⟨?_, ?_⟩, rfl⟩⟩, by simp⟩
    · intro h0; exact hr (hne h0)
    · intro d hd; exact (mem_graph d).1 (hv d hd)
  · exact ⟨c :: bl ++ key, ⟨c :: bl, by simp, hb, hx, .inl ⟨rfl, rfl⟩⟩, by simp⟩

theorem alnumdash_graph : ∀ c : UInt8, c ∈ alnumdashC → c ∈ graphExceptEquC := by decide +kernel
theorem alnum_not_space : ∀ c : UInt8, Alnum c → c ∉ spacesC := by decide +kernel

theorem ParamStop.key {r : Bytes} (h : ParamStop r) : StopAt alnumdashC r :=
  stopAt_mono (fun c hc => by simp [alnumdash_graph c hc]) h

theorem ParamStop.value {r : Bytes} (h : ParamStop r) : StopAt graphExceptEquC r :=
  stopAt_mono (fun c hc => by simp [hc]) h

theorem ParamStop.equ {r : Bytes} (h : ParamStop r) : StopAt b!"=" r :=
  stopAt_mono (fun c hc => by simp at hc; simp [hc]) h

theorem keyP_complete {k r : Bytes} (hk : IsKey k) (hr : StopAt alnumdashC r) :
    recognize (preceded (oneOf alnumC) (opt (isA alnumdashC))) (k ++ r) = .done r k := by
  obtain ⟨a, h⟩ := labelP_complete k r hk hr
  exact recognize_done.2 ⟨a, h, take_consumed.symm⟩

theorem paramP_complete (x : Bytes) (e : Bytes × Option Bytes) (r : Bytes) (h : ParamText x e)
    (hr : ParamStop r) : paramP (x ++ r) = .done r e := by
  obtain ⟨key, value⟩ := e
  obtain ⟨bl, hne, hbl, hk, h⟩ := h
  obtain ⟨c, bl, rfl⟩ := List.exists_cons_of_ne_nil hne
  have hc : c ∈ spacesC := (mem_spaces c).2 (hbl c (by simp))
  have hbl' : Blanks bl := fun d hd => hbl d (by simp [hd])
  have hks : ∀ t, StopAt spacesC (key ++ t) := by
    intro t
    obtain ⟨d, u, rfl, hd, _⟩ := hk
    exact stopAt_cons.2 (alnum_not_space d hd)
  unfold paramP
  simp only [bind_done, pure_done]
  rcases h with ⟨h1, rfl⟩ | ⟨v, h1, ⟨hvne, hv⟩, rfl⟩ <;> simp at h1 <;> subst h1
  · refine ⟨bl ++ (key ++ r), c, oneOf_done.2 ⟨by simp, hc⟩, key ++ r, bl,
      eatSpaces_complete hbl' (hks r), r, key, keyP_complete hk hr.key, r, none,
      opt_done.2 (.inr ⟨rfl, rfl, ?_⟩), rfl, rfl⟩
    rw [complete_error]
    intro r' a h
    obtain ⟨r3, b, h4, h5⟩ := preceded_done.1 h
    obtain ⟨rfl, _⟩ := tag_done.1 h4
    exact (stopAt_cons.1 hr.equ) (by simp)
  · refine ⟨bl ++ (key ++ ([61] ++ v ++ r)), c, oneOf_done.2 ⟨by simp, hc⟩, key ++ ([61] ++ v ++ r), bl,
      eatSpaces_complete hbl' (hks _), [61] ++ v ++ r, key, keyP_complete hk ?_, r, some v,
      opt_done.2 (.inl ⟨v, rfl, ?_⟩), rfl, rfl⟩
    · exact stopAt_cons.2 (by decide +kernel)
    · refine complete_done.2 (preceded_done.2 ⟨v ++ r, [61], tag_done.2 ⟨by simp, rfl⟩, isA_done.2
        ⟨rfl, fun d hd => (mem_graph d).2 (hv d hd), hr.value, fun h0 => absurd h0 hvne⟩⟩)

theorem cr_not_alnum : (13 : UInt8) ∉ alnumC := by decide +kernel

/-- Parameters end at blanks followed by CR. -/
theorem paramP_end {bl t : Bytes} (h : Blanks bl) : paramP (bl ++ 13 :: t) = .error := by
  unfold paramP
  cases bl with
  | nil => exact bind_of_error (oneOf_error.2 ⟨13, t, rfl, cr_not_space⟩)
  | cons c bl =>
    have h1 : oneOf spacesC (c :: bl ++ 13 :: t) = .done (bl ++ 13 :: t) c :=
      oneOf_done.2 ⟨rfl, (mem_spaces c).2 (h c (by simp))⟩
    have h2 : eatSpaces (bl ++ 13 :: t) = .done (13 :: t) bl :=
      eatSpaces_complete (fun d hd => h d (by simp [hd])) (stopAt_cons.2 cr_not_space)
    rw [bind_of_done h1, bind_of_done h2]
    apply bind_of_error
    rw [recognize_error, preceded_error]
    exact .inl (oneOf_error.2 ⟨13, t, rfl, cr_not_alnum⟩)

theorem parametersP_sound {i r : Bytes} {m : Params} (h : parametersP i = .done r m) (hr : r ≠ []) :
    ∃ x ps, ParamsText x ps ∧ m = Params.collect ps ∧ i = x ++ r := by
  unfold parametersP at h
  simp only [bind_done, pure_done] at h
  obtain ⟨r1, as, h1, rfl, rfl⟩ := h
  obtain ⟨xs, hx, rfl, rfl⟩ := many0_sound paramP_sound hr h1
  exact ⟨_, _, ⟨xs, hx, rfl, rfl⟩, rfl, rfl⟩

theorem paramText_blank {x : Bytes} {e : Bytes × Option Bytes} (h : ParamText x e) :
    ∃ c t, x = c :: t ∧ Blank c := by
  obtain ⟨bl, hne, hbl, hk, h⟩ := h
  obtain ⟨c, bl, rfl⟩ := List.exists_cons_of_ne_nil hne
  rcases h with ⟨_, rfl⟩ | ⟨v, _, _, rfl⟩
  · exact ⟨c, bl ++ e.1, by simp, hbl c (by simp)⟩
  · exact ⟨c, bl ++ e.1 ++ [61] ++ v, by simp, hbl c (by simp)⟩

theorem parametersP_complete {x bl t : Bytes} {ps : List (Bytes × Option Bytes)}
    (h : ParamsText x ps) (hbl : Blanks bl) :
    parametersP (x ++ (bl ++ 13 :: t)) = .done (bl ++ 13 :: t) (Params.collect ps) := by
  obtain ⟨ts, hts, rfl, rfl⟩ := h
  have := many0_complete (p := paramP) (E := ParamText) (St := ParamStop) (r := bl ++ 13 :: t)
    (by intro x a hx; obtain ⟨c, t, rfl, _⟩ := paramText_blank hx; simp)
    paramP_complete
    (by
      intro x a r hx
      obtain ⟨c, t, rfl, hc⟩ := paramText_blank hx
      exact stopAt_cons.2 (blank_stop_param c (.inl hc)))
    (blankOrCr_blanks hbl).param (fun _ => paramP_end hbl) ts hts
  unfold parametersP
  simp only [bind_done, pure_done]
  exact ⟨_, _, this, rfl, rfl⟩

theorem blankOrCr_params {x bl t : Bytes} {ps : List (Bytes × Option Bytes)}
    (h : ParamsText x ps) (hbl : Blanks bl) : BlankOrCr (x ++ (bl ++ 13 :: t)) := by
  obtain ⟨ts, hts, rfl, rfl⟩ := h
  cases ts with
  | nil => simpa using blankOrCr_blanks hbl
  | cons y ys =>
    obtain ⟨c, t', h, hc⟩ := paramText_blank (hts y (by simp))
    exact ⟨c, t' ++ ((ys.map (·.1)).flatten ++ (bl ++ 13 :: t)), by simp [h], .inl hc⟩

/-! ### Verbs -/

theorem isVerb_iff {w v : Bytes} : IsVerb w v ↔ v.map lower = w := Iff.rfl

theorem verb_done {t w i r a : Bytes} (hw : t.map lower = w) :
    tagNoCase t i = .done r a ↔ i = a ++ r ∧ IsVerb w a := by
  rw [tagNoCase_done, hw]; rfl

/-- The first four letters decide. -/
theorem verb_error {a b c d : UInt8} {r : Bytes} {t0 t1 t2 t3 : UInt8} {ts : Bytes}
    (h : ¬ (lower a = lower t0 ∧ lower b = lower t1 ∧ lower c = lower t2 ∧ lower d = lower t3)) :
    tagNoCase (t0 :: t1 :: t2 :: t3 :: ts) (a :: b :: c :: d :: r) = .error := by
  unfold tagNoCase tagBy
  have : compareBy (fun a b => lower a == lower b) (a :: b :: c :: d :: r) (t0 :: t1 :: t2 :: t3 :: ts) =
      .error := by
    simp only [compareBy, beq_iff_eq]
    by_cases h0 : lower a = lower t0
    · by_cases h1 : lower b = lower t1
      · by_cases h2 : lower c = lower t2
        · by_cases h3 : lower d = lower t3
          · exact absurd ⟨h0, h1, h2, h3⟩ h
          · simp [h0, h1, h2, h3]
        · simp [h0, h1, h2]
      · simp [h0, h1]
    · simp [h0]
  rw [this]

theorem verb4 {w0 w1 w2 w3 : UInt8} {ws v : Bytes} (h : IsVerb (w0 :: w1 :: w2 :: w3 :: ws) v) :
    ∃ a b c d t, v = a :: b :: c :: d :: t ∧ lower a = w0 ∧ lower b = w1 ∧ lower c = w2 ∧ lower d = w3 := by
  rw [isVerb_iff] at h
  match v, h with
  | [], h => simp at h
  | [_], h => simp at h
  | [_, _], h => simp at h
  | [_, _, _], h => simp at h
  | a :: b :: c :: d :: t, h =>
    simp at h
    exact ⟨a, b, c, d, t, rfl, h.1, h.2.1, h.2.2.1, h.2.2.2.1⟩

theorem lower_not_space : ∀ a : UInt8, (97 ≤ lower a ∧ lower a ≤ 122) → a ∉ spacesC := by decide +kernel

/-! ### Each command, both ways -/

theorem crlfP_done {i r a : Bytes} : crlfP i = .done r a ↔ i = crlf ++ r ∧ a = crlf := tag_done

/-- Common shape of DATA, QUIT, RSET. -/
theorem bare_sound {t w i : Bytes} {c c' : Command L} (hw : t.map lower = w)
    (h : (do let _ ← tagNoCase t; let _ ← eatSpaces; let _ ← crlfP; return c' : Parser (Command L)) i = .done [] c) :
    c = c' ∧ ∃ v bl, IsVerb w v ∧ Blanks bl ∧ i = v ++ bl ++ crlf := by
  simp only [bind_done, pure_done] at h
  obtain ⟨r1, v, h1, r2, bl, h2, r3, _, h3, rfl, rfl⟩ := h
  obtain ⟨rfl, hv⟩ := (verb_done hw).1 h1
  obtain ⟨rfl, hbl, _⟩ := eatSpaces_done.1 h2
  obtain ⟨rfl, _⟩ := crlfP_done.1 h3
  exact ⟨rfl, v, bl, hv, hbl, by simp⟩

theorem bare_complete {t w v bl : Bytes} {c : Command L} (hw : t.map lower = w) (hv : IsVerb w v)
    (hbl : Blanks bl) :
    (do let _ ← tagNoCase t; let _ ← eatSpaces; let _ ← crlfP; return c : Parser (Command L))
      (v ++ bl ++ crlf) = .done [] c := by
  simp only [bind_done, pure_done]
  exact ⟨bl ++ crlf, v, (verb_done hw).2 ⟨by simp, hv⟩, crlf, bl,
    eatSpaces_complete hbl (stopAt_cons.2 cr_not_space), [], crlf, crlfP_done.2 ⟨by simp, rfl⟩, rfl, trivial⟩

/-- Common shape of EHLO, HELO. -/
theorem hello_sound {t w i : Bytes} {c : Command L} {f : Domain L → Command L} (hw : t.map lower = w)
    (h : (do
      let _ ← eatSpaces
      let _ ← tagNoCase t
      let _ ← eatSpaces
      let d ← hostnameP
      let _ ← eatSpaces
      let _ ← tag b!"\r\n"
      return f d : Parser (Command L)) i = .done [] c) :
    ∃ b1 v b2 dt b3 d, c = f d ∧ IsVerb w v ∧ Blanks b1 ∧ Blanks b2 ∧ Blanks b3 ∧ DomainText L dt d ∧
      i = b1 ++ v ++ b2 ++ dt ++ b3 ++ crlf := by
  simp only [bind_done, pure_done] at h
  obtain ⟨r1, b1, h1, r2, v, h2, r3, b2, h3, r4, d, h4, r5, b3, h5, r6, _, h6, rfl, rfl⟩ := h
  obtain ⟨rfl, hb1, _⟩ := eatSpaces_done.1 h1
  obtain ⟨rfl, hv⟩ := (verb_done hw).1 h2
  obtain ⟨rfl, hb2, _⟩ := eatSpaces_done.1 h3
  obtain ⟨dt, hd, rfl⟩ := hostnameP_sound h4
  obtain ⟨rfl, hb3, _⟩ := eatSpaces_done.1 h5
  obtain ⟨rfl, _⟩ := tag_done.1 h6
  exact ⟨b1, v, b2, dt, b3, d, rfl, hv, hb1, hb2, hb3, hd, by simp⟩

theorem domainText_head {x : Bytes} {d : Domain L} (h : DomainText L x d) :
    ∃ c t, x = c :: t ∧ c ∉ spacesC := by
  cases h with
  | host h hx =>
    obtain ⟨ls, h1, h2, rfl⟩ := hx
    obtain ⟨l, ls, rfl⟩ := List.exists_cons_of_ne_nil h1
    obtain ⟨c, r, rfl, hc, _⟩ := h2 l (by simp)
    exact ⟨c, r ++ ls.flatMap (46 :: ·), by simp [joinWith_cons], alnum_not_space c hc⟩
  | v4 y a => exact ⟨91, y ++ b!"]", by simp, by decide⟩
  | v6 y a => exact ⟨91, b!"IPv6:" ++ y ++ b!"]", by simp, by decide⟩

theorem blankOrCr_host {r : Bytes} (h : BlankOrCr r) : HostStop r := h.email.host

theorem hello_complete (hL : IpLaws L) {t w b1 v b2 dt b3 : Bytes} {d : Domain L} {f : Domain L → Command L}
    (hw : t.map lower = w) (hv : IsVerb w v) (hv0 : ∃ a u, v = a :: u ∧ a ∉ spacesC)
    (hb1 : Blanks b1) (hb2 : Blanks b2) (hb3 : Blanks b3) (hd : DomainText L dt d) :
    (do
      let _ ← eatSpaces
      let _ ← tagNoCase t
      let _ ← eatSpaces
      let d ← hostnameP
      let _ ← eatSpaces
      let _ ← tag b!"\r\n"
      return f d : Parser (Command L)) (b1 ++ v ++ b2 ++ dt ++ b3 ++ crlf) = .done [] (f d) := by
  obtain ⟨c, u, hcu, hc⟩ := domainText_head hd
  obtain ⟨a, u', rfl, ha⟩ := hv0
  simp only [bind_done, pure_done]
  refine ⟨a :: u' ++ (b2 ++ (dt ++ (b3 ++ crlf))), b1, ?_, b2 ++ (dt ++ (b3 ++ crlf)), a :: u',
    (verb_done hw).2 ⟨rfl, hv⟩, dt ++ (b3 ++ crlf), b2, ?_, b3 ++ crlf, d, ?_, crlf, b3, ?_, [], crlf,
    tag_done.2 ⟨by simp, rfl⟩, rfl, rfl⟩
  · exact eatSpaces_done.2 ⟨by simp, hb1, stopAt_cons.2 ha⟩
  · exact eatSpaces_complete hb2 (by rw [hcu]; exact stopAt_cons.2 hc)
  · exact hostnameP_complete hL hd (blankOrCr_host (blankOrCr_blanks hb3))
  · exact eatSpaces_complete hb3 (stopAt_cons.2 cr_not_space)

/-- Common shape of EXPN, VRFY. -/
theorem text_sound {t w i : Bytes} {c : Command L} {f : Bytes → Command L} (hw : t.map lower = w)
    (h : (do
      let _ ← tagNoCase t
      let _ ← oneOf spacesC
      let res ← takeUntil b!"\r\n"
      let _ ← tag b!"\r\n"
      return f res : Parser (Command L)) i = .done [] c) :
    ∃ v b s, c = f s ∧ IsVerb w v ∧ Blank b ∧ NoCrlf s ∧ i = v ++ [b] ++ s ++ crlf := by
  simp only [bind_done, pure_done] at h
  obtain ⟨r1, v, h1, r2, b, h2, r3, s, h3, r4, _, h4, rfl, rfl⟩ := h
  obtain ⟨rfl, hv⟩ := (verb_done hw).1 h1
  obtain ⟨rfl, hb⟩ := oneOf_done.1 h2
  obtain ⟨hs, t', rfl, rfl⟩ := takeUntil_crlf.1 h3
  obtain ⟨h4, _⟩ := tag_done.1 h4
  have : t' = [] := by simpa using h4
  subst this
  exact ⟨v, b, s, rfl, hv, (mem_spaces b).1 hb, hs, by simp⟩

theorem text_complete {t w v s : Bytes} {b : UInt8} {f : Bytes → Command L} (hw : t.map lower = w)
    (hv : IsVerb w v) (hb : Blank b) (hs : NoCrlf s) :
    (do
      let _ ← tagNoCase t
      let _ ← oneOf spacesC
      let res ← takeUntil b!"\r\n"
      let _ ← tag b!"\r\n"
      return f res : Parser (Command L)) (v ++ [b] ++ s ++ crlf) = .done [] (f s) := by
  simp only [bind_done, pure_done]
  exact ⟨b :: (s ++ crlf), v, (verb_done hw).2 ⟨by simp, hv⟩, s ++ crlf, b,
    oneOf_done.2 ⟨rfl, (mem_spaces b).2 hb⟩, crlf, s, takeUntil_crlf.2 ⟨hs, [], by simp, by simp⟩,
    [], crlf, tag_done.2 ⟨by simp, rfl⟩, rfl, rfl⟩

/-- The optional blank of HELP and NOOP. -/
def OptBlank (bl s : Bytes) : Prop :=
  (∃ c, Blank c ∧ bl = [c]) ∨ (bl = [] ∧ ∀ c, s.head? = some c → ¬ Blank c)

/-- Common shape of HELP, NOOP. -/
theorem opttext_sound {t w i : Bytes} {c : Command L} {f : Bytes → Command L} (hw : t.map lower = w)
    (h : (do
      let _ ← tagNoCase t
      let _ ← opt (oneOf spacesC)
      let res ← takeUntil b!"\r\n"
      let _ ← tag b!"\r\n"
      return f res : Parser (Command L)) i = .done [] c) :
    ∃ v bl s, c = f s ∧ IsVerb w v ∧ NoCrlf s ∧ OptBlank bl s ∧ i = v ++ bl ++ s ++ crlf := by
  simp only [bind_done, pure_done] at h
  obtain ⟨r1, v, h1, r2, b, h2, r3, s, h3, r4, _, h4, rfl, rfl⟩ := h
  obtain ⟨rfl, hv⟩ := (verb_done hw).1 h1
  obtain ⟨hs, t', rfl, rfl⟩ := takeUntil_crlf.1 h3
  obtain ⟨h4, _⟩ := tag_done.1 h4
  have : t' = [] := by simpa using h4
  subst this
  rcases opt_done.1 h2 with ⟨b, rfl, h5⟩ | ⟨rfl, h5, h6⟩
  · obtain ⟨rfl, hb⟩ := oneOf_done.1 h5
    exact ⟨v, [b], s, rfl, hv, hs, .inl ⟨b, (mem_spaces b).1 hb, rfl⟩, by simp⟩
  · subst h5
    refine ⟨v, [], s, rfl, hv, hs, .inr ⟨rfl, ?_⟩, by simp⟩
    obtain ⟨d, r', h7, h8⟩ := oneOf_error.1 h6
    intro c hc
    cases s with
    | nil => simp at hc
    | cons e s =>
      simp at hc h7
      rw [← hc, h7.1]; exact fun hb => h8 ((mem_spaces d).2 hb)

theorem opttext_complete {t w v bl s : Bytes} {f : Bytes → Command L} (hw : t.map lower = w)
    (hv : IsVerb w v) (hs : NoCrlf s) (hb : OptBlank bl s) :
    (do
      let _ ← tagNoCase t
      let _ ← opt (oneOf spacesC)
      let res ← takeUntil b!"\r\n"
      let _ ← tag b!"\r\n"
      return f res : Parser (Command L)) (v ++ bl ++ s ++ crlf) = .done [] (f s) := by
  simp only [bind_done, pure_done]
  rcases hb with ⟨b, hb, rfl⟩ | ⟨rfl, hb⟩
  · exact ⟨b :: (s ++ crlf), v, (verb_done hw).2 ⟨by simp, hv⟩, s ++ crlf, some b,
      opt_done.2 (.inl ⟨b, rfl, oneOf_done.2 ⟨rfl, (mem_spaces b).2 hb⟩⟩), crlf, s,
      takeUntil_crlf.2 ⟨hs, [], by simp, by simp⟩, [], crlf, tag_done.2 ⟨by simp, rfl⟩, rfl, rfl⟩
  · refine ⟨s ++ crlf, v, (verb_done hw).2 ⟨by simp, hv⟩, s ++ crlf, none,
      opt_done.2 (.inr ⟨rfl, rfl, oneOf_error.2 ?_⟩), crlf, s,
      takeUntil_crlf.2 ⟨hs, [], by simp, by simp⟩, [], crlf, tag_done.2 ⟨by simp, rfl⟩, rfl, rfl⟩
    cases s with
    | nil => exact ⟨13, [10], rfl, cr_not_space⟩
    | cons d s => exact ⟨d, s ++ crlf, rfl, fun h => hb d rfl ((mem_spaces d).1 h)⟩

abbrev CollectLine (L : IpLib) := CmdLineOf L (fun ps m => m = Params.collect ps)

theorem mail_sound {i : Bytes} {c : Command L} (h : mailArgs i = .done [] c) : CollectLine L i c := by
  unfold mailArgs at h
  simp only [bind_done, pure_done] at h
  obtain ⟨r1, v, h1, r2, b1, h2, r3, fr, h3, r4, m, h4, r5, b2, h5, r6, _, h6, rfl, rfl⟩ := h
  obtain ⟨rfl, hv⟩ := (verb_done (w := b!"mail from:") (by decide)).1 h1
  obtain ⟨rfl, hb1, _⟩ := eatSpaces_done.1 h2
  obtain ⟨rfl, hb2, _⟩ := eatSpaces_done.1 h5
  obtain ⟨rfl, _⟩ := crlfP_done.1 h6
  obtain ⟨pt, ps, hp, rfl, rfl⟩ := parametersP_sound h4 (by simp)
  rcases alt_done.1 h3 with h3 | ⟨_, h3⟩
  · obtain ⟨_, h7, rfl⟩ := mapP_done.1 h3
    obtain ⟨rfl, _⟩ := tag_done.1 h7
    have := CmdLineOf.mailNull (L := L) (M := fun ps m => m = Params.collect ps) v b1 pt b2 ps _ hv hb1 hb2 hp rfl
    simpa using this
  · obtain ⟨e, h7, rfl⟩ := mapP_done.1 h3
    obtain ⟨x, hx, rfl⟩ := maybeBracketedP_sound h7
    have := CmdLineOf.mail (M := fun ps m => m = Params.collect ps) v b1 x pt b2 e ps _ hv hb1 hb2 hx hp rfl
    simpa using this

theorem rcpt_sound {i : Bytes} {c : Command L} (h : rcptArgs i = .done [] c) : CollectLine L i c := by
  unfold rcptArgs at h
  simp only [bind_done, pure_done] at h
  obtain ⟨r1, v, h1, r2, b1, h2, r3, e, h3, r4, m, h4, r5, b2, h5, r6, _, h6, rfl, rfl⟩ := h
  obtain ⟨rfl, hv⟩ := (verb_done (w := b!"rcpt to:") (by decide)).1 h1
  obtain ⟨rfl, hb1, _⟩ := eatSpaces_done.1 h2
  obtain ⟨rfl, hb2, _⟩ := eatSpaces_done.1 h5
  obtain ⟨rfl, _⟩ := crlfP_done.1 h6
  obtain ⟨pt, ps, hp, rfl, rfl⟩ := parametersP_sound h4 (by simp)
  obtain ⟨x, hx, rfl⟩ := maybeBracketedP_sound h3
  have := CmdLineOf.rcpt (M := fun ps m => m = Params.collect ps) v b1 x pt b2 e ps _ hv hb1 hb2 hx hp rfl
  simpa using this

theorem maybeBracketed_head {x : Bytes} {e : Email L} (h : MaybeBracketed L x e) :
    ∃ c t, x = c :: t ∧ c ∉ spacesC ∧ ∀ r, tag b!"<>" (x ++ r) = .error := by
  rcases h with h | ⟨t, h, rfl⟩
  · obtain ⟨c, t, rfl, hc⟩ := pathText_head h
    have := pathHead_props c hc
    exact ⟨c, t, rfl, fun h => this.2.2.2 ((mem_spaces c).1 h), fun r => tag_head_ne this.1⟩
  · obtain ⟨c, t, rfl, hc⟩ := pathText_head h
    have := pathHead_props c hc
    refine ⟨60, c :: t ++ [62], rfl, by decide, fun r => ?_⟩
    simp [tag, tagBy, compareBy, this.2.1]

theorem mail_complete (hL : IpLaws L) {v b1 x pt b2 : Bytes} {e : Email L} {ps}
    (hv : IsVerb b!"mail from:" v) (hb1 : Blanks b1) (hb2 : Blanks b2) (hx : MaybeBracketed L x e)
    (hp : ParamsText pt ps) :
    mailArgs (v ++ b1 ++ x ++ pt ++ b2 ++ crlf) = .done [] (.mail (some e) (Params.collect ps)) := by
  obtain ⟨c, t, hxc, hc, hnull⟩ := maybeBracketed_head hx
  unfold mailArgs
  simp only [bind_done, pure_done]
  refine ⟨b1 ++ (x ++ (pt ++ (b2 ++ crlf))), v, (verb_done (w := b!"mail from:") (by decide)).2 ⟨by simp, hv⟩,
    x ++ (pt ++ (b2 ++ crlf)), b1, eatSpaces_complete hb1 (by rw [hxc]; exact stopAt_cons.2 hc),
    pt ++ (b2 ++ crlf), some e, alt_done.2 (.inr ⟨mapP_error.2 (hnull _), mapP_done.2 ⟨e,
      maybeBracketedP_complete hL hx (blankOrCr_params hp hb2).email, rfl⟩⟩),
    b2 ++ crlf, _, parametersP_complete hp hb2, crlf, b2,
    eatSpaces_complete hb2 (stopAt_cons.2 cr_not_space), [], crlf, crlfP_done.2 ⟨by simp, rfl⟩, rfl, rfl⟩

theorem mailNull_complete {v b1 pt b2 : Bytes} {ps}
    (hv : IsVerb b!"mail from:" v) (hb1 : Blanks b1) (hb2 : Blanks b2) (hp : ParamsText pt ps) :
    mailArgs (v ++ b1 ++ b!"<>" ++ pt ++ b2 ++ crlf) =
      .done [] (.mail (none : Option (Email L)) (Params.collect ps)) := by
  unfold mailArgs
  simp only [bind_done, pure_done]
  refine ⟨b1 ++ (b!"<>" ++ (pt ++ (b2 ++ crlf))), v, (verb_done (w := b!"mail from:") (by decide)).2 ⟨by simp, hv⟩,
    b!"<>" ++ (pt ++ (b2 ++ crlf)), b1, eatSpaces_complete hb1 (stopAt_cons.2 (by decide)),
    pt ++ (b2 ++ crlf), none, alt_done.2 (.inl (mapP_done.2 ⟨_, tag_append _ _, rfl⟩)),
    b2 ++ crlf, _, parametersP_complete hp hb2, crlf, b2,
    eatSpaces_complete hb2 (stopAt_cons.2 cr_not_space), [], crlf, crlfP_done.2 ⟨by simp, rfl⟩, rfl, rfl⟩

theorem rcpt_complete (hL : IpLaws L) {v b1 x pt b2 : Bytes} {e : Email L} {ps}
    (hv : IsVerb b!"rcpt to:" v) (hb1 : Blanks b1) (hb2 : Blanks b2) (hx : MaybeBracketed L x e)
    (hp : ParamsText pt ps) :
    rcptArgs (v ++ b1 ++ x ++ pt ++ b2 ++ crlf) = .done [] (.rcpt e (Params.collect ps)) := by
  obtain ⟨c, t, hxc, hc, hnull⟩ := maybeBracketed_head hx
  unfold rcptArgs
  simp only [bind_done, pure_done]
  refine ⟨b1 ++ (x ++ (pt ++ (b2 ++ crlf))), v, (verb_done (w := b!"rcpt to:") (by decide)).2 ⟨by simp, hv⟩,
    x ++ (pt ++ (b2 ++ crlf)), b1, eatSpaces_complete hb1 (by rw [hxc]; exact stopAt_cons.2 hc),
    pt ++ (b2 ++ crlf), e, maybeBracketedP_complete hL hx (blankOrCr_params hp hb2).email,
    b2 ++ crlf, _, parametersP_complete hp hb2, crlf, b2,
    eatSpaces_complete hb2 (stopAt_cons.2 cr_not_space), [], crlf, crlfP_done.2 ⟨by simp, rfl⟩, rfl, rfl⟩

/-! ### The whole grammar -/

theorem commandP_sound {i : Bytes} {c : Command L} (h : commandP i = .done [] c) : CollectLine L i c := by
  unfold commandP at h
  rcases alt_done.1 h with h | ⟨_, h⟩
  · obtain ⟨rfl, v, bl, hv, hb, rfl⟩ := bare_sound (w := b!"data") (by decide) h
    exact .data v bl hv hb
  rcases alt_done.1 h with h | ⟨_, h⟩
  · obtain ⟨b1, v, b2, dt, b3, d, rfl, hv, h1, h2, h3, hd, rfl⟩ := hello_sound (w := b!"ehlo") (by decide) h
    exact .ehlo b1 v b2 dt b3 d hv h1 h2 h3 hd
  rcases alt_done.1 h with h | ⟨_, h⟩
  · obtain ⟨v, b, s, rfl, hv, hb, hs, rfl⟩ := text_sound (w := b!"expn") (by decide) h
    exact .expn v b s hv hb hs
  rcases alt_done.1 h with h | ⟨_, h⟩
  · obtain ⟨b1, v, b2, dt, b3, d, rfl, hv, h1, h2, h3, hd, rfl⟩ := hello_sound (w := b!"helo") (by decide) h
    exact .helo b1 v b2 dt b3 d hv h1 h2 h3 hd
  rcases alt_done.1 h with h | ⟨_, h⟩
  · obtain ⟨v, b, s, rfl, hv, hs, hb, rfl⟩ := opttext_sound (w := b!"help") (by decide) h
    exact .help v b s hv hs hb
  rcases alt_done.1 h with h | ⟨_, h⟩
  · exact mail_sound h
  rcases alt_done.1 h with h | ⟨_, h⟩
  · obtain ⟨v, b, s, rfl, hv, hs, hb, rfl⟩ := opttext_sound (w := b!"noop") (by decide) h
    exact .noop v b s hv hs hb
  rcases alt_done.1 h with h | ⟨_, h⟩
  · obtain ⟨rfl, v, bl, hv, hb, rfl⟩ := bare_sound (w := b!"quit") (by decide) h
    exact .quit v bl hv hb
  rcases alt_done.1 h with h | ⟨_, h⟩
  · exact rcpt_sound h
  rcases alt_done.1 h with h | ⟨_, h⟩
  · obtain ⟨rfl, v, bl, hv, hb, rfl⟩ := bare_sound (w := b!"rset") (by decide) h
    exact .rset v bl hv hb
  · obtain ⟨v, b, s, rfl, hv, hb, hs, rfl⟩ := text_sound (w := b!"vrfy") (by decide) h
    exact .vrfy v b s hv hb hs

/-- `EHLO` / `HELO` refuse another verb, also after blanks. -/
theorem hello_error {t0 t1 t2 t3 : UInt8} {ts : Bytes} {f : Domain L → Command L} {b1 : Bytes}
    {a b c d : UInt8} {r : Bytes} (hb1 : Blanks b1) (ha : a ∉ spacesC)
    (h : ¬ (lower a = lower t0 ∧ lower b = lower t1 ∧ lower c = lower t2 ∧ lower d = lower t3)) :
    (do
      let _ ← eatSpaces
      let _ ← tagNoCase (t0 :: t1 :: t2 :: t3 :: ts)
      let _ ← eatSpaces
      let d ← hostnameP
      let _ ← eatSpaces
      let _ ← tag b!"\r\n"
      return f d : Parser (Command L)) (b1 ++ (a :: b :: c :: d :: r)) = .error := by
  have h1 : eatSpaces (b1 ++ (a :: b :: c :: d :: r)) = .done (a :: b :: c :: d :: r) b1 :=
    eatSpaces_complete hb1 (stopAt_cons.2 ha)
  rw [bind_of_done h1]
  exact bind_of_error (verb_error h)

theorem alt_skip {α : Type} {p q : Parser α} {i r : Bytes} {a : α} (hp : p i = .error) (hq : q i = .done r a) :
    alt p q i = .done r a := alt_done.2 (.inr ⟨hp, hq⟩)

theorem alt_take {α : Type} {p q : Parser α} {i r : Bytes} {a : α} (hp : p i = .done r a) :
    alt p q i = .done r a := alt_done.2 (.inl hp)

/-- refuses the verb by its first four letters -/
local macro "wrong_verb" ha:term:max hb:term:max hc:term:max hd:term:max : tactic =>
  `(tactic| first
    | exact bind_of_error (verb_error (by rw [$ha:term, $hb:term, $hc:term, $hd:term]; decide))
    | exact hello_error (b1 := []) (by simp [Blanks])
        (lower_not_space _ (by rw [$ha:term]; decide))
        (by rw [$ha:term, $hb:term, $hc:term, $hd:term]; decide))

section
variable {a b c d : UInt8} {t r : Bytes} {x : Command L}

theorem pick_data {i : Bytes} (h : dataArgs i = .done r x) : commandP i = .done r x := alt_take h

theorem pick_expn (ha : lower a = 101) (hb : lower b = 120) (hc : lower c = 112) (hd : lower d = 110)
    (h : expnArgs (a :: b :: c :: d :: t) = .done r x) : commandP (a :: b :: c :: d :: t) = .done r x := by
  unfold commandP
  iterate 2 refine alt_skip (by wrong_verb ha hb hc hd) ?_
  exact alt_take h

theorem pick_help (ha : lower a = 104) (hb : lower b = 101) (hc : lower c = 108) (hd : lower d = 112)
    (h : helpArgs (a :: b :: c :: d :: t) = .done r x) : commandP (a :: b :: c :: d :: t) = .done r x := by
  unfold commandP
  iterate 4 refine alt_skip (by wrong_verb ha hb hc hd) ?_
  exact alt_take h

theorem pick_mail (ha : lower a = 109) (hb : lower b = 97) (hc : lower c = 105) (hd : lower d = 108)
    (h : mailArgs (a :: b :: c :: d :: t) = .done r x) : commandP (a :: b :: c :: d :: t) = .done r x := by
  unfold commandP
  iterate 5 refine alt_skip (by wrong_verb ha hb hc hd) ?_
  exact alt_take h

theorem pick_noop (ha : lower a = 110) (hb : lower b = 111) (hc : lower c = 111) (hd : lower d = 112)
    (h : noopArgs (a :: b :: c :: d :: t) = .done r x) : commandP (a :: b :: c :: d :: t) = .done r x := by
  unfold commandP
  iterate 6 refine alt_skip (by wrong_verb ha hb hc hd) ?_
  exact alt_take h

theorem pick_quit (ha : lower a = 113) (hb : lower b = 117) (hc : lower c = 105) (hd : lower d = 116)
    (h : quitArgs (a :: b :: c :: d :: t) = .done r x) : commandP (a :: b :: c :: d :: t) = .done r x := by
  unfold commandP
  iterate 7 refine alt_skip (by wrong_verb ha hb hc hd) ?_
  exact alt_take h

theorem pick_rcpt (ha : lower a = 114) (hb : lower b = 99) (hc : lower c = 112) (hd : lower d = 116)
    (h : rcptArgs (a :: b :: c :: d :: t) = .done r x) : commandP (a :: b :: c :: d :: t) = .done r x := by
  unfold commandP
  iterate 8 refine alt_skip (by wrong_verb ha hb hc hd) ?_
  exact alt_take h

theorem pick_rset (ha : lower a = 114) (hb : lower b = 115) (hc : lower c = 101) (hd : lower d = 116)
    (h : rsetArgs (a :: b :: c :: d :: t) = .done r x) : commandP (a :: b :: c :: d :: t) = .done r x := by
  unfold commandP
  iterate 9 refine alt_skip (by wrong_verb ha hb hc hd) ?_
  exact alt_take h

theorem pick_vrfy (ha : lower a = 118) (hb : lower b = 114) (hc : lower c = 102) (hd : lower d = 121)
    (h : vrfyArgs (a :: b :: c :: d :: t) = .done r x) : commandP (a :: b :: c :: d :: t) = .done r x := by
  unfold commandP
  iterate 10 refine alt_skip (by wrong_verb ha hb hc hd) ?_
  exact h

/-- A verb parser refuses a line that starts with a blank. -/
theorem verb_blank_error {t0 : UInt8} {ts : Bytes} {e : UInt8} {u : Bytes} {f : Bytes → Parser (Command L)}
    (he : Blank e) (h : 97 ≤ lower t0 ∧ lower t0 ≤ 122) : (tagNoCase (t0 :: ts) >>= f) (e :: u) = .error := by
  apply bind_of_error
  apply tagNoCase_head_ne
  intro heq
  exact lower_not_space e (by rw [heq]; exact h) ((mem_spaces e).2 he)

theorem pick_ehlo {b1 : Bytes} (hb1 : Blanks b1) (ha : lower a = 101) (hb : lower b = 104) (hc : lower c = 108)
    (hd : lower d = 111) (h : ehloArgs (b1 ++ (a :: b :: c :: d :: t)) = .done r x) :
    commandP (b1 ++ (a :: b :: c :: d :: t)) = .done r x := by
  unfold commandP
  refine alt_skip ?_ (alt_take h)
  cases b1 with
  | nil => wrong_verb ha hb hc hd
  | cons e b1 => exact verb_blank_error (hb1 e (by simp)) (by decide)

theorem pick_helo {b1 : Bytes} (hb1 : Blanks b1) (ha : lower a = 104) (hb : lower b = 101) (hc : lower c = 108)
    (hd : lower d = 111) (h : heloArgs (b1 ++ (a :: b :: c :: d :: t)) = .done r x) :
    commandP (b1 ++ (a :: b :: c :: d :: t)) = .done r x := by
  unfold commandP
  refine alt_skip ?_ (alt_skip ?_ (alt_skip ?_ (alt_take h)))
  · cases b1 with
    | nil => wrong_verb ha hb hc hd
    | cons e b1 => exact verb_blank_error (hb1 e (by simp)) (by decide)
  · exact hello_error hb1 (lower_not_space _ (by rw [ha]; decide)) (by rw [ha, hb, hc, hd]; decide)
  · cases b1 with
    | nil => wrong_verb ha hb hc hd
    | cons e b1 => exact verb_blank_error (hb1 e (by simp)) (by decide)
end

theorem commandP_complete (hL : IpLaws L) {i : Bytes} {c : Command L} (h : CollectLine L i c) :
    commandP i = .done [] c := by
  cases h with
  | data v bl hv hb => exact pick_data (bare_complete (by decide) hv hb)
  | quit v bl hv hb =>
    have k := bare_complete (L := L) (c := .quit) (t := b!"QUIT") (by decide) hv hb
    obtain ⟨a, b, c, d, t, rfl, h1, h2, h3, h4⟩ := verb4 hv
    exact pick_quit h1 h2 h3 h4 k
  | rset v bl hv hb =>
    have k := bare_complete (L := L) (c := .rset) (t := b!"RSET") (by decide) hv hb
    obtain ⟨a, b, c, d, t, rfl, h1, h2, h3, h4⟩ := verb4 hv
    exact pick_rset h1 h2 h3 h4 k
  | ehlo b1 v b2 dt b3 d' hv hb1 hb2 hb3 hd =>
    obtain ⟨a, b, c, d, t, rfl, h1, h2, h3, h4⟩ := verb4 hv
    have k := hello_complete hL (f := Command.ehlo) (t := b!"EHLO") (by decide) hv
      ⟨a, _, rfl, lower_not_space _ (by rw [h1]; decide)⟩ hb1 hb2 hb3 hd
    have := pick_ehlo (t := t ++ b2 ++ dt ++ b3 ++ crlf) (r := []) (x := .ehlo d') hb1 h1 h2 h3 h4
      (by unfold ehloArgs; simpa using k)
    simpa using this
  | helo b1 v b2 dt b3 d' hv hb1 hb2 hb3 hd =>
    obtain ⟨a, b, c, d, t, rfl, h1, h2, h3, h4⟩ := verb4 hv
    have k := hello_complete hL (f := Command.helo) (t := b!"HELO") (by decide) hv
      ⟨a, _, rfl, lower_not_space _ (by rw [h1]; decide)⟩ hb1 hb2 hb3 hd
    have := pick_helo (t := t ++ b2 ++ dt ++ b3 ++ crlf) (r := []) (x := .helo d') hb1 h1 h2 h3 h4
      (by unfold heloArgs; simpa using k)
    simpa using this
  | expn v e s hv he hs =>
    have k := text_complete (L := L) (f := .expn) (t := b!"EXPN") (by decide) hv he hs
    obtain ⟨a, b, c, d, t, rfl, h1, h2, h3, h4⟩ := verb4 hv
    exact pick_expn h1 h2 h3 h4 k
  | vrfy v e s hv he hs =>
    have k := text_complete (L := L) (f := .vrfy) (t := b!"VRFY") (by decide) hv he hs
    obtain ⟨a, b, c, d, t, rfl, h1, h2, h3, h4⟩ := verb4 hv
    exact pick_vrfy h1 h2 h3 h4 k
  | help v bl s hv hs hb =>
    have k := opttext_complete (L := L) (f := .help) (t := b!"HELP") (by decide) hv hs hb
    obtain ⟨a, b, c, d, t, rfl, h1, h2, h3, h4⟩ := verb4 hv
    exact pick_help h1 h2 h3 h4 k
  | noop v bl s hv hs hb =>
    have k := opttext_complete (L := L) (f := .noop) (t := b!"NOOP") (by decide) hv hs hb
    obtain ⟨a, b, c, d, t, rfl, h1, h2, h3, h4⟩ := verb4 hv
    exact pick_noop h1 h2 h3 h4 k
  | mailNull v b1 pt b2 ps m hv hb1 hb2 hp hm =>
    subst hm
    have k := mailNull_complete (L := L) hv hb1 hb2 hp
    obtain ⟨a, b, c, d, t, rfl, h1, h2, h3, h4⟩ := verb4 hv
    exact pick_mail h1 h2 h3 h4 k
  | mail v b1 x pt b2 e ps m hv hb1 hb2 hx hp hm =>
    subst hm
    have k := mail_complete hL hv hb1 hb2 hx hp
    obtain ⟨a, b, c, d, t, rfl, h1, h2, h3, h4⟩ := verb4 hv
    exact pick_mail h1 h2 h3 h4 k
  | rcpt v b1 x pt b2 e ps m hv hb1 hb2 hx hp hm =>
    subst hm
    have k := rcpt_complete hL hv hb1 hb2 hx hp
    obtain ⟨a, b, c, d, t, rfl, h1, h2, h3, h4⟩ := verb4 hv
    exact pick_rcpt h1 h2 h3 h4 k

theorem nomToResult_ok {α : Type} {x : IRes α} {a : α} : nomToResult x = .ok a ↔ x = .done [] a := by
  cases x with
  | done r b => cases r <;> simp [nomToResult]
  | error => simp [nomToResult]
  | incomplete => simp [nomToResult]

/-- `Command::parse` accepts exactly the command language (parameters in the order of the model). -/
theorem parse_iff_collect (hL : IpLaws L) (i : Bytes) (c : Command L) :
    Command.parse i = .ok c ↔ CollectLine L i c := by
  unfold Command.parse
  rw [nomToResult_ok]
  exact ⟨commandP_sound, commandP_complete hL⟩

/-! ### Parameter maps -/

theorem collect_append (l : List (Bytes × Option Bytes)) (e : Bytes × Option Bytes) :
    Params.collect (l ++ [e]) = (Params.collect l).insert e.1 e.2 := by
  simp [Params.collect]

theorem insert_keys (m : Params) (k : Bytes) (v : Option Bytes) :
    (m.insert k v).map (·.1) = if k ∈ m.map (·.1) then m.map (·.1) else m.map (·.1) ++ [k] := by
  unfold Params.insert
  by_cases h : k ∈ m.map (·.1)
  · have h' : m.any (·.1 == k) = true := by
      simp at h ⊢; exact h
    rw [if_pos h', if_pos h]
    rw [List.map_map]
    apply List.map_congr_left
    intro e _
    simp only [Function.comp]
    by_cases he : e.1 = k <;> simp [he]
  · have h' : ¬ m.any (·.1 == k) = true := by
      simp at h ⊢; exact h
    rw [if_neg h', if_neg h]
    simp

theorem insert_mem (m : Params) (k : Bytes) (v : Option Bytes) (e : Bytes × Option Bytes) :
    e ∈ m.insert k v ↔ (e = (k, v)) ∨ (e.1 ≠ k ∧ e ∈ m) := by
  unfold Params.insert
  by_cases h' : m.any (·.1 == k) = true
  · rw [if_pos h']
    simp at h'
    obtain ⟨b, hab⟩ := h'
    rw [List.mem_map]
    constructor
    · rintro ⟨x, hx, rfl⟩
      by_cases he : x.1 = k
      · left; simp [he]
      · right; simp [he, hx]
    · rintro (rfl | ⟨h1, h2⟩)
      · exact ⟨_, hab, by simp⟩
      · exact ⟨e, h2, by simp [h1]⟩
  · rw [if_neg h']
    simp at h'
    simp
    constructor
    · rintro (h | h)
      · right; exact ⟨fun hk => h' e.2 (by rw [← hk]; exact h), h⟩
      · left; exact h
    · rintro (h | ⟨_, h⟩)
      · right; exact h
      · left; exact h

theorem collect_lastMap (l : List (Bytes × Option Bytes)) : IsLastMap l (Params.collect l) := by
  obtain ⟨n, hn⟩ : ∃ n, l.length = n := ⟨_, rfl⟩
  induction n generalizing l with
  | zero =>
    have : l = [] := List.length_eq_zero_iff.1 hn
    subst this
    exact ⟨by simp [Params.collect], by simp [Params.collect]⟩
  | succ n ih =>
    have hne : l ≠ [] := by rintro rfl; simp at hn
    obtain ⟨l, e, rfl⟩ : ∃ l' e, l = l' ++ [e] := ⟨_, _, (List.dropLast_concat_getLast hne).symm⟩
    obtain ⟨ih1, ih2⟩ := ih l (by simpa using hn)
    rw [collect_append]
    refine ⟨?_, ?_⟩
    · rw [insert_keys]
      split
      · exact ih1
      · rename_i h
        rw [List.nodup_append]
        refine ⟨ih1, by simp, ?_⟩
        intro a ha b hb hab
        simp at hb; subst hb; subst hab; exact h ha
    · intro k v
      rw [insert_mem]
      constructor
      · rintro (h | ⟨hne, hm⟩)
        · exact ⟨l, [], by simp [h], by simp⟩
        · obtain ⟨b, a, h1, h2⟩ := (ih2 k v).1 hm
          refine ⟨b, a ++ [e], by simp [h1], ?_⟩
          simp only [List.map_append, List.mem_append, not_or]
          exact ⟨h2, by simpa using hne⟩
      · rintro ⟨b, a, h1, h2⟩
        by_cases ha : a = []
        · subst ha
          left
          have := (List.append_inj' (t₁ := [e]) (t₂ := [(k, v)]) (by simpa using h1) rfl).2
          simp at this
          exact this.symm
        · right
          obtain ⟨a', e', rfl⟩ : ∃ l' e, a = l' ++ [e] := ⟨_, _, (List.dropLast_concat_getLast ha).symm⟩
          have h3 : l ++ [e] = (b ++ [(k, v)] ++ a') ++ [e'] := by simpa using h1
          have h4 := List.append_inj' h3 rfl
          have : e = e' := by simpa using h4.2
          subst this
          simp only [List.map_append, List.mem_append, not_or] at h2
          refine ⟨by simpa using h2.2, (ih2 k v).2 ⟨b, a', h4.1, h2.1⟩⟩

theorem lastMap_unique {l : List (Bytes × Option Bytes)} {m m' : Params} (h : IsLastMap l m)
    (h' : IsLastMap l m') : SameMap m m' := by
  rintro ⟨k, v⟩
  rw [h.2, h'.2]

/-- Parameters with distinct keys are collected as they are. -/
theorem collect_nodup (l : List (Bytes × Option Bytes)) (h : (l.map (·.1)).Nodup) :
    Params.collect l = l := by
  obtain ⟨n, hn⟩ : ∃ n, l.length = n := ⟨_, rfl⟩
  induction n generalizing l with
  | zero =>
    have : l = [] := List.length_eq_zero_iff.1 hn
    subst this; rfl
  | succ n ih =>
    have hne : l ≠ [] := by rintro rfl; simp at hn
    obtain ⟨l, e, rfl⟩ : ∃ l' e, l = l' ++ [e] := ⟨_, _, (List.dropLast_concat_getLast hne).symm⟩
    rw [List.map_append, List.nodup_append] at h
    rw [collect_append, ih l h.1 (by simpa using hn)]
    unfold Params.insert
    rw [if_neg]
    simp
    intro b hab
    exact h.2.2 e.1 (by simp; exact ⟨b, hab⟩) e.1 (by simp) rfl

end Verif
