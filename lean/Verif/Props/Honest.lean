import Verif.Props.AddressErrors
/-
C106: `IncompleteString` is honest: more bytes can make the input acceptable.
-/
namespace Verif
open Spec Nom
variable {L : IpLib} {α β : Type}

theorem tag_more {t i : Bytes} (h : tag t i = .incomplete) : ∃ more, i ++ more = t := (tag_incomplete.1 h).1

theorem tagNoCase_more {t i : Bytes} (h : tagNoCase t i = .incomplete) : ∃ more, IsVerb (t.map lower) (i ++ more) := by
  have key : ∀ (t i : Bytes), compareBy (fun a b => lower a == lower b) i t = .incomplete →
      ∃ more, (i ++ more).map lower = t.map lower := by
    intro t
    induction t with
    | nil => intro i h; simp [compareBy] at h
    | cons c t ih =>
      intro i h
      cases i with
      | nil => exact ⟨c :: t, rfl⟩
      | cons d i =>
        simp only [compareBy] at h
        split at h
        · rename_i hc
          obtain ⟨more, hm⟩ := ih i h
          exact ⟨more, by simp at hm ⊢; exact ⟨by simpa using hc, hm⟩⟩
        · cases h
  apply key
  unfold tagNoCase at h
  replace h : (match compareBy (fun a b => lower a == lower b) i t with
    | .ok r => IRes.done r (i.take t.length) | .error => .error | .incomplete => .incomplete) = .incomplete := h
  cases hc : compareBy (fun a b => lower a == lower b) i t <;> rw [hc] at h <;> simp at h ⊢

theorem eatSpaces_ne_incomplete {i : Bytes} : eatSpaces i ≠ .incomplete := nofun

theorem bind_inc {p : Parser α} {f : α → Parser β} {i : Bytes} (h : (p >>= f) i = .incomplete) :
    p i = .incomplete ∨ ∃ r a, p i = .done r a ∧ f a r = .incomplete := bind_incomplete.1 h

theorem pure_ne_incomplete {a : α} {i : Bytes} : (pure a : Parser α) i ≠ .incomplete := nofun

theorem oneOf_incomplete {s i : Bytes} (h : oneOf s i = .incomplete) : i = [] := by
  unfold oneOf at h
  split at h
  · rfl
  · split at h <;> cases h

theorem opt_incomplete {p : Parser α} {i : Bytes} (h : opt p i = .incomplete) : p i = .incomplete := by
  unfold opt at h
  split at h
  · cases h
  · cases h
  · assumption

theorem isA_ne_incomplete {s i : Bytes} : isA s i ≠ .incomplete := by
  unfold isA
  split
  · simp
  · split <;> simp

/-! ### Domains and addresses -/

theorem hostname_more (hL : IpLaws L) (a6 : L.V6) {b : Bytes} (h : (hostnameP b : IRes (Domain L)) = .incomplete) :
    ∃ more d, DomainText L (b ++ more) d := by
  obtain ⟨rest, hr⟩ := hostnameP_incomplete.1 h
  refine ⟨rest ++ L.show6 a6 ++ b!"]", .v6 a6, ?_⟩
  have : b ++ (rest ++ L.show6 a6 ++ b!"]") = b!"[IPv6:" ++ L.show6 a6 ++ b!"]" := by rw [← hr]; simp
  rw [this]
  refine .v6 _ _ (fun hm => ?_) (hL.parse_show6 a6)
  have := hL.chars6 _ _ (hL.parse_show6 a6) 93 hm
  revert this
  decide

theorem email_more {b : Bytes} (h : (emailP b : IRes (Email L)) = .incomplete) :
    ∃ more, ∃ e : Email L, EmailText L (b ++ more) e := by
  obtain ⟨q, content, hq, ⟨rest, hr⟩, _⟩ := emailP_incomplete.1 h
  exact ⟨rest, ⟨q, none⟩, ⟨content, .inr hq⟩, .inl ⟨rfl, hr⟩⟩

/-! ### Source routes and paths -/

theorem hop_more (hL : IpLaws L) (a6 : L.V6) {i : Bytes} (h : hopP L i = .incomplete) :
    ∃ more, ∃ dt d, DomainText L dt d ∧ i ++ more = [64] ++ dt := by
  have hb := bind_inc h; clear h; rcases hb with h | ⟨r, _, h1, h⟩
  · obtain ⟨more, hm⟩ := tag_more h
    exact ⟨more ++ b!"a", b!"a", .host b!"a", .host _ ⟨[b!"a"], by simp, fun l hl => by
      simp at hl; subst hl; exact ⟨97, [], rfl, by decide, by simp⟩, rfl⟩, by rw [← List.append_assoc, hm]⟩
  · obtain ⟨rfl, _⟩ := tag_done.1 h1
    have hb := bind_inc h; clear h; rcases hb with h | ⟨_, _, _, h⟩
    · obtain ⟨more, d, hd⟩ := hostname_more hL a6 h
      exact ⟨more, r ++ more, d, hd, by simp⟩
    · cases h

theorem sepLoop_more {sep : Parser β} {p : Parser α} {c : UInt8} {E : Bytes → Prop}
    (hsep : ∀ i r b, sep i = .done r b → i = c :: r) (hsi : ∀ i, sep i = .incomplete → i = [])
    (hp : ∀ i r a, p i = .done r a → r.length < i.length → ∃ x, E x ∧ i = x ++ r)
    (hpi : ∀ i, p i = .incomplete → ∃ more, E (i ++ more))
    {i : Bytes} (h : sepLoop sep p i = .incomplete) :
    ∃ (more : Bytes) (xs : List Bytes), (∀ x ∈ xs, E x) ∧ i ++ more = xs.flatMap (c :: ·) := by
  fun_induction sepLoop sep p i with
  | case1 => cases h
  | case2 i h1 => exact ⟨[], [], by simp, by simp [hsi i h1]⟩
  | case3 => cases h
  | case4 i i2 b h1 hlt h2 =>
    obtain ⟨more, hm⟩ := hpi i2 h2
    exact ⟨more, [i2 ++ more], by simpa using hm, by rw [hsep _ _ _ h1]; simp⟩
  | case5 => cases h
  | case6 => cases h
  | case7 i i2 b h1 hlt i3 a h2 hlt3 h3 ih =>
    obtain ⟨more, xs, hx, e⟩ := ih h3
    obtain ⟨x, hx1, rfl⟩ := hp _ _ _ h2 hlt3
    exact ⟨more, x :: xs, by simpa using ⟨hx1, hx⟩, by rw [hsep _ _ _ h1]; simp [e]⟩
  | case8 => cases h
  | case9 => cases h

theorem route_more (hL : IpLaws L) (a6 : L.V6) {i : Bytes} (h : routeP L i = .incomplete) :
    ∃ more, IsRoute L (i ++ more) := by
  have hb := bind_inc h; clear h; rcases hb with h | ⟨r, as, h1, h⟩
  · unfold separatedList at h
    split at h
    · cases h
    · rename_i hh
      obtain ⟨more, dt, d, hd, e⟩ := hop_more hL a6 hh
      exact ⟨more ++ [58], [i ++ more], by simpa using ⟨dt, ⟨d, hd⟩, e⟩, by simp [joinWith]⟩
    · rename_i r a hh
      split at h
      · rename_i hlt
        split at h
        · cases h
        · cases h
        · rename_i hs
          obtain ⟨more, xs, hx, e⟩ := sepLoop_more (c := 44) (E := fun x => ∃ dt d, DomainText L dt d ∧ x = [64] ++ dt)
            (fun i r b h => (tag_done.1 h).1)
            (fun i h => by
              obtain ⟨more, hm⟩ := tag_more h
              have hne := (tag_incomplete.1 h).2
              cases i with
              | nil => rfl
              | cons c i => simp at hm; exact absurd (by simp [hm]) hne)
            hopP_sound
            (fun i h => by
              obtain ⟨more, dt, d, hd, e⟩ := hop_more hL a6 h
              exact ⟨more, dt, d, hd, e⟩) hs
          obtain ⟨x, hx1, rfl⟩ := hopP_sound _ _ _ hh hlt
          exact ⟨more ++ [58], x :: xs, by
            intro h hm
            rcases List.mem_cons.1 hm with rfl | hm
            · exact hx1
            · exact hx h hm, by rw [joinWith_cons, ← e]; simp⟩
      · cases h
  · have hb := bind_inc h; clear h; rcases hb with h | ⟨_, _, _, h⟩
    · obtain ⟨more, hm⟩ := tag_more h
      obtain ⟨xs, hx, rfl⟩ := sepList_sound (c := 44) (E := fun x => ∃ dt d, DomainText L dt d ∧ x = [64] ++ dt)
        (fun i r b h => (tag_done.1 h).1) hopP_sound h1
      exact ⟨more, xs, hx, by simp [hm]⟩
    · cases h

theorem plain_email : EmailText L b!"a" ⟨b!"a", none⟩ :=
  ⟨⟨b!"a", .inl ⟨⟨[b!"a"], by simp, fun l hl => by
    simp at hl; subst hl; exact ⟨by simp, fun c hc => by simp at hc; subst hc; decide⟩, rfl⟩, rfl⟩⟩, .inl ⟨rfl, rfl⟩⟩

theorem path_more (hL : IpLaws L) (a6 : L.V6) {i : Bytes} (h : (addressInPathP i : IRes (Email L)) = .incomplete) :
    ∃ more, ∃ e : Email L, PathText L (i ++ more) e := by
  have hb := bind_inc h; clear h; rcases hb with h | ⟨r, x, h1, h⟩
  · obtain ⟨more, hr⟩ := route_more hL a6 (opt_incomplete h)
    exact ⟨more ++ b!"a", _, i ++ more, b!"a", .inr hr, plain_email, by simp⟩
  · obtain ⟨more, e, he⟩ := email_more h
    rcases opt_done.1 h1 with ⟨_, _, h3⟩ | ⟨_, h3, _⟩
    · obtain ⟨x, hx, rfl⟩ := routeP_sound h3
      exact ⟨more, e, x, r ++ more, .inr hx, he, by simp⟩
    · subst h3
      exact ⟨more, e, [], _, .inl rfl, he, rfl⟩

theorem maybeBracketed_more (hL : IpLaws L) (a6 : L.V6) {i : Bytes}
    (h : (maybeBracketedP i : IRes (Email L)) = .incomplete) :
    ∃ more, ∃ e : Email L, MaybeBracketed L (i ++ more) e := by
  have ha := alt_incomplete.1 h; clear h; rcases ha with h | ⟨_, h⟩
  · have hb := bind_inc h; clear h; rcases hb with h | ⟨r, _, h1, h⟩
    · obtain ⟨more, hm⟩ := tag_more h
      exact ⟨more ++ b!"a>", _, .inr ⟨b!"a", ⟨[], b!"a", .inl rfl, plain_email, rfl⟩, by
        rw [← List.append_assoc, hm]; rfl⟩⟩
    · obtain ⟨rfl, _⟩ := tag_done.1 h1
      have hb := bind_inc h; clear h; rcases hb with h | ⟨r2, e, h2, h⟩
      · obtain ⟨more, e, he⟩ := path_more hL a6 h
        exact ⟨more ++ [62], e, .inr ⟨r ++ more, he, by simp⟩⟩
      · obtain ⟨x, hx, rfl⟩ := addressInPathP_sound h2
        have hb := bind_inc h; clear h; rcases hb with h | ⟨_, _, _, h⟩
        · obtain ⟨more, hm⟩ := tag_more h
          exact ⟨more, e, .inr ⟨x, hx, by simp [hm]⟩⟩
        · cases h
  · obtain ⟨more, e, he⟩ := path_more hL a6 h
    exact ⟨more, e, .inl he⟩

/-! ### Parameters -/

theorem param_more {i : Bytes} (hi : i ≠ []) (h : paramP i = .incomplete) : Blanks i := by
  have hb := bind_inc h; clear h; rcases hb with h | ⟨r, c, h1, h⟩
  · exact absurd (oneOf_incomplete h) hi
  · obtain ⟨rfl, hc⟩ := oneOf_done.1 h1
    have hb := bind_inc h; clear h; rcases hb with h | ⟨r2, bl, h2, h⟩
    · exact absurd h eatSpaces_ne_incomplete
    · obtain ⟨rfl, hbl, _⟩ := eatSpaces_done.1 h2
      have hb := bind_inc h; clear h; rcases hb with h | ⟨r3, k, _, h⟩
      · rw [recognize_incomplete] at h
        rcases bind_incomplete.1 h with h | ⟨_, _, _, h⟩
        · have := oneOf_incomplete h
          subst this
          intro d hd
          simp only [List.append_nil] at hd
          rcases List.mem_cons.1 hd with rfl | hd
          · exact (mem_spaces _).1 hc
          · exact hbl d hd
        · exact absurd (opt_incomplete h) isA_ne_incomplete
      · have hb := bind_inc h; clear h; rcases hb with h | ⟨_, _, _, h⟩
        · exact absurd (opt_incomplete h) complete_ne_incomplete
        · cases h

/-- A parameter at the very end of the input: `key=` is accepted there, with an empty value. -/
theorem param_end {i : Bytes} {e : Bytes × Option Bytes} (h : paramP i = .done [] e) :
    ∃ more e', ParamText (i ++ more) e' := by
  unfold paramP at h
  simp only [bind_done, pure_done] at h
  obtain ⟨r1, c, h1, r2, bl, h2, r3, key, h3, r4, value, h4, rfl, rfl⟩ := h
  obtain ⟨rfl, hc⟩ := oneOf_done.1 h1
  obtain ⟨rfl, hbl, _⟩ := eatSpaces_done.1 h2
  obtain ⟨a, h3, hk⟩ := recognize_done.1 h3
  obtain ⟨x, hx, rfl, _⟩ := labelP_sound _ _ _ h3
  rw [take_consumed] at hk
  subst hk
  have hb : Blanks (c :: bl) := by
    intro d hd
    rcases List.mem_cons.1 hd with rfl | hd
    · exact (mem_spaces _).1 hc
    · exact hbl d hd
  rcases opt_done.1 h4 with ⟨v, rfl, h5⟩ | ⟨rfl, rfl, _⟩
  · obtain ⟨r5, b, h6, h7⟩ := preceded_done.1 (complete_done.1 h5)
    obtain ⟨rfl, _⟩ := tag_done.1 h6
    obtain ⟨rfl, hv, _, _⟩ := isA_done.1 h7
    refine ⟨b!"v", (key, some (v ++ b!"v")), c :: bl, by simp, hb, hx, .inr ⟨_, rfl, ⟨by simp, ?_⟩, by simp⟩⟩
    intro d hd
    rcases List.mem_append.1 hd with hd | hd
    · exact (mem_graph d).1 (hv d hd)
    · simp at hd; subst hd; decide
  · exact ⟨[], (key, none), c :: bl, by simp, hb, hx, .inl ⟨rfl, by simp⟩⟩

theorem many0_params_end {i : Bytes} :
    (many0 paramP i = .incomplete → ∃ pt ps bl, ParamsText pt ps ∧ Blanks bl ∧ i = pt ++ bl) ∧
    ∀ as, many0 paramP i = .done [] as → ∃ more ps, ParamsText (i ++ more) ps := by
  fun_induction many0 paramP i with
  | case1 => exact ⟨nofun, fun _ _ => ⟨[], [], [], by simp, rfl, rfl⟩⟩
  | case2 i hi h1 => exact ⟨nofun, fun as h => by cases h; exact absurd rfl hi⟩
  | case3 i hi h1 => exact ⟨fun _ => ⟨[], [], i, ⟨[], by simp, rfl, rfl⟩, param_more hi h1, rfl⟩, nofun⟩
  | case4 i hi r1 a h1 hlt r2 as2 h2 ih =>
    refine ⟨nofun, fun as h => ?_⟩
    cases h
    by_cases hr : r1 = []
    · subst hr
      obtain ⟨more, e, he⟩ := param_end h1
      exact ⟨more, [e], [(i ++ more, e)], by simpa using he, by simp, rfl⟩
    · obtain ⟨more, ps, ts, h3, h4, rfl⟩ := ih.2 _ h2
      obtain ⟨x, hx, rfl⟩ := paramP_sound _ _ _ h1 hr
      exact ⟨more, _, (x, a) :: ts, by simpa using ⟨hx, by simpa using h3⟩, by simp [h4], rfl⟩
  | case5 => exact ⟨nofun, nofun⟩
  | case6 i hi r1 a h1 hlt h2 ih =>
    refine ⟨fun _ => ?_, nofun⟩
    have hr : r1 ≠ [] := by rintro rfl; rw [many0] at h2; simp at h2
    obtain ⟨pt, ps, bl, ⟨ts, h3, rfl, rfl⟩, hb, rfl⟩ := ih.1 h2
    obtain ⟨x, hx, rfl⟩ := paramP_sound _ _ _ h1 hr
    exact ⟨_, _, bl, ⟨(x, a) :: ts, by simpa using ⟨hx, by simpa using h3⟩, rfl, rfl⟩, hb, by simp⟩
  | case7 => exact ⟨nofun, nofun⟩

theorem tail_more {f : Params → α} {i : Bytes}
    (h : (do let ps ← parametersP; let _ ← eatSpaces; let _ ← crlfP; return f ps : Parser α) i = .incomplete) :
    ∃ more pt ps bl, ParamsText pt ps ∧ Blanks bl ∧ i ++ more = pt ++ bl ++ crlf := by
  have hb := bind_inc h; clear h; rcases hb with h | ⟨r, m, h1, h⟩
  · have hb := bind_inc h; clear h; rcases hb with h | ⟨_, _, _, h⟩
    · obtain ⟨pt, ps, bl, h1, h2, rfl⟩ := many0_params_end.1 h
      exact ⟨crlf, pt, ps, bl, h1, h2, rfl⟩
    · cases h
  · by_cases hr : r = []
    · subst hr
      unfold parametersP at h1
      obtain ⟨r', as, h2, h3⟩ := bind_done.1 h1
      cases h3
      obtain ⟨more, ps, hp⟩ := many0_params_end.2 _ h2
      exact ⟨more ++ crlf, i ++ more, ps, [], hp, by simp [Blanks], by simp⟩
    · obtain ⟨pt, ps, hp, _, rfl⟩ := parametersP_sound h1 hr
      have hb := bind_inc h; clear h; rcases hb with h | ⟨r2, bl, h2, h⟩
      · exact absurd h eatSpaces_ne_incomplete
      · obtain ⟨rfl, hbl, _⟩ := eatSpaces_done.1 h2
        have hb := bind_inc h; clear h; rcases hb with h | ⟨_, _, _, h⟩
        · obtain ⟨more, hm⟩ := tag_more h
          exact ⟨more, pt, ps, bl, hp, hbl, by
            have : r2 ++ more = crlf := hm
            simp [this]⟩
        · cases h

/-! ### Commands -/

/-- Some continuation of the input is a command. -/
def Extends (L : IpLib) (b : Bytes) : Prop := ∃ more, ∃ c : Command L, CollectLine L (b ++ more) c

theorem bare_more {t : Bytes} {c : Command L} {i : Bytes}
    (hc : ∀ v bl, IsVerb (t.map lower) v → Blanks bl → CollectLine L (v ++ bl ++ crlf) c)
    (h : (do let _ ← tagNoCase t; let _ ← eatSpaces; let _ ← crlfP; return c : Parser (Command L)) i = .incomplete) :
    Extends L i := by
  have hb := bind_inc h; clear h; rcases hb with h | ⟨r, v, h1, h⟩
  · obtain ⟨more, hm⟩ := tagNoCase_more h
    exact ⟨more ++ crlf, c, by simpa using hc _ [] hm (by simp [Blanks])⟩
  · obtain ⟨rfl, hv⟩ := (verb_done rfl).1 h1
    have hb := bind_inc h; clear h; rcases hb with h | ⟨r2, bl, h2, h⟩
    · exact absurd h eatSpaces_ne_incomplete
    · obtain ⟨rfl, hbl, _⟩ := eatSpaces_done.1 h2
      have hb := bind_inc h; clear h; rcases hb with h | ⟨_, _, _, h⟩
      · obtain ⟨more, hm⟩ := tag_more h
        have hm : r2 ++ more = crlf := hm
        exact ⟨more, c, by simpa [hm] using hc v bl hv hbl⟩
      · cases h

theorem hello_more (hL : IpLaws L) (a6 : L.V6) {t : Bytes} {f : Domain L → Command L} {i : Bytes}
    (hc : ∀ b1 v b2 dt b3 d, IsVerb (t.map lower) v → Blanks b1 → Blanks b2 → Blanks b3 → DomainText L dt d →
      CollectLine L (b1 ++ v ++ b2 ++ dt ++ b3 ++ crlf) (f d))
    (h : (do
      let _ ← eatSpaces
      let _ ← tagNoCase t
      let _ ← eatSpaces
      let d ← hostnameP
      let _ ← eatSpaces
      let _ ← tag b!"\r\n"
      return f d : Parser (Command L)) i = .incomplete) : Extends L i := by
  have hn : Blanks [] := by simp [Blanks]
  have hb := bind_inc h; clear h; rcases hb with h | ⟨r, b1, h1, h⟩
  · exact absurd h eatSpaces_ne_incomplete
  obtain ⟨rfl, hb1, _⟩ := eatSpaces_done.1 h1
  have hb := bind_inc h; clear h; rcases hb with h | ⟨r2, v, h2, h⟩
  · obtain ⟨more, hm⟩ := tagNoCase_more h
    have ha : DomainText L b!"a" (.host b!"a") := .host _ ⟨[b!"a"], by simp, fun l hl => by
      simp at hl; subst hl; exact ⟨97, [], rfl, by decide, by simp⟩, rfl⟩
    exact ⟨more ++ b!"a" ++ crlf, _, by simpa using hc b1 _ [] _ [] _ hm hb1 hn hn ha⟩
  obtain ⟨rfl, hv⟩ := (verb_done rfl).1 h2
  have hb := bind_inc h; clear h; rcases hb with h | ⟨r3, b2, h3, h⟩
  · exact absurd h eatSpaces_ne_incomplete
  obtain ⟨rfl, hb2, _⟩ := eatSpaces_done.1 h3
  have hb := bind_inc h; clear h; rcases hb with h | ⟨r4, d, h4, h⟩
  · obtain ⟨more, d, hd⟩ := hostname_more hL a6 h
    exact ⟨more ++ crlf, f d, by simpa using hc b1 v b2 _ [] d hv hb1 hb2 hn hd⟩
  obtain ⟨dt, hd, rfl⟩ := hostnameP_sound h4
  have hb := bind_inc h; clear h; rcases hb with h | ⟨r5, b3, h5, h⟩
  · exact absurd h eatSpaces_ne_incomplete
  obtain ⟨rfl, hb3, _⟩ := eatSpaces_done.1 h5
  have hb := bind_inc h; clear h; rcases hb with h | ⟨_, _, _, h⟩
  · obtain ⟨more, hm⟩ := tag_more h
    have hm : r5 ++ more = crlf := hm
    exact ⟨more, f d, by simpa [hm] using hc b1 v b2 dt b3 d hv hb1 hb2 hb3 hd⟩
  · cases h

theorem noCrlf_short {b : Bytes} (h : b.length < 2) : NoCrlf b := by
  intro hi
  have := hi.length_le
  simp [crlf] at this
  omega

theorem until_more {f : Bytes → Command L} {i : Bytes}
    (h : (do let res ← takeUntil b!"\r\n"; let _ ← tag b!"\r\n"; return f res : Parser (Command L)) i = .incomplete) :
    i.length < 2 := by
  have hb := bind_inc h; clear h; rcases hb with h | ⟨r, v, h1, h⟩
  · unfold takeUntil at h
    split at h
    · assumption
    · split at h <;> cases h
  · have hb := bind_inc h; clear h; rcases hb with h | ⟨_, _, _, h⟩
    · obtain ⟨_, t, rfl, _⟩ := takeUntil_crlf.1 h1
      have := (tag_incomplete.1 h).1
      obtain ⟨s, hs⟩ := this
      have hl := congrArg List.length hs
      simp [crlf] at hl
      exact absurd (by simp [hl.1, crlf]) (tag_incomplete.1 h).2
    · cases h

theorem text_more {t : Bytes} {f : Bytes → Command L} {i : Bytes}
    (hc : ∀ v c s, IsVerb (t.map lower) v → Blank c → NoCrlf s → CollectLine L (v ++ [c] ++ s ++ crlf) (f s))
    (h : (do
      let _ ← tagNoCase t
      let _ ← oneOf spacesC
      let res ← takeUntil b!"\r\n"
      let _ ← tag b!"\r\n"
      return f res : Parser (Command L)) i = .incomplete) : Extends L i := by
  have hn : NoCrlf [] := noCrlf_short (by simp)
  have hsp : Blank 32 := by decide
  have hb := bind_inc h; clear h; rcases hb with h | ⟨r, v, h1, h⟩
  · obtain ⟨more, hm⟩ := tagNoCase_more h
    exact ⟨more ++ [32] ++ crlf, f [], by simpa using hc _ 32 [] hm hsp hn⟩
  obtain ⟨rfl, hv⟩ := (verb_done rfl).1 h1
  have hb := bind_inc h; clear h; rcases hb with h | ⟨r2, c, h2, h⟩
  · have := oneOf_incomplete h
    subst this
    exact ⟨[32] ++ crlf, f [], by simpa using hc v 32 [] hv hsp hn⟩
  obtain ⟨rfl, hbl⟩ := oneOf_done.1 h2
  exact ⟨crlf, f r2, by simpa using hc v c r2 hv ((mem_spaces _).1 hbl) (noCrlf_short (until_more h))⟩

theorem opttext_more {t : Bytes} {f : Bytes → Command L} {i : Bytes}
    (hc : ∀ v bl s, IsVerb (t.map lower) v → NoCrlf s →
      ((∃ c, Blank c ∧ bl = [c]) ∨ (bl = [] ∧ ∀ c, s.head? = some c → ¬ Blank c)) →
      CollectLine L (v ++ bl ++ s ++ crlf) (f s))
    (h : (do
      let _ ← tagNoCase t
      let _ ← opt (oneOf spacesC)
      let res ← takeUntil b!"\r\n"
      let _ ← tag b!"\r\n"
      return f res : Parser (Command L)) i = .incomplete) : Extends L i := by
  have hn : NoCrlf [] := noCrlf_short (by simp)
  have hb := bind_inc h; clear h; rcases hb with h | ⟨r, v, h1, h⟩
  · obtain ⟨more, hm⟩ := tagNoCase_more h
    exact ⟨more ++ crlf, f [], by simpa using hc _ [] [] hm hn (.inr ⟨rfl, by simp⟩)⟩
  obtain ⟨rfl, hv⟩ := (verb_done rfl).1 h1
  have hb := bind_inc h; clear h; rcases hb with h | ⟨r2, c, h2, h⟩
  · have := oneOf_incomplete (opt_incomplete h)
    subst this
    exact ⟨crlf, f [], by simpa using hc v [] [] hv hn (.inr ⟨rfl, by simp⟩)⟩
  have hl := noCrlf_short (until_more h)
  rcases opt_done.1 h2 with ⟨c, _, h3⟩ | ⟨_, rfl, h3⟩
  · obtain ⟨rfl, hbl⟩ := oneOf_done.1 h3
    exact ⟨crlf, f r2, by simpa using hc v [_] r2 hv hl (.inl ⟨_, (mem_spaces _).1 hbl, rfl⟩)⟩
  · refine ⟨crlf, f r2, ?_⟩
    have hz : ∀ c, r2.head? = some c → ¬ Blank c := ?_
    · simpa using hc v [] r2 hv hl (.inr ⟨rfl, hz⟩)
    intro c hh hb
    cases r2 with
    | nil => cases hh
    | cons d r => simp at hh; subst hh; unfold oneOf at h3; simp [(mem_spaces d).2 hb] at h3

theorem mail_more (hL : IpLaws L) (a6 : L.V6) {i : Bytes} (h : (mailArgs i : IRes (Command L)) = .incomplete) :
    Extends L i := by
  have hn : Blanks [] := by simp [Blanks]
  have hp : ParamsText [] [] := ⟨[], by simp, rfl, rfl⟩
  have hb := bind_inc h; clear h; rcases hb with h | ⟨r, v, h1, h⟩
  · obtain ⟨more, hm⟩ := tagNoCase_more h
    exact ⟨more ++ b!"<>" ++ crlf, _, by
      simpa using CmdLineOf.mailNull (L := L) (M := fun ps m => m = Params.collect ps) _ [] [] [] _ _ hm hn hn hp rfl⟩
  obtain ⟨rfl, hv⟩ := (verb_done rfl).1 h1
  have hb := bind_inc h; clear h; rcases hb with h | ⟨r2, b1, h2, h⟩
  · exact absurd h eatSpaces_ne_incomplete
  obtain ⟨rfl, hb1, _⟩ := eatSpaces_done.1 h2
  have hb := bind_inc h; clear h; rcases hb with h | ⟨r3, fr, h3, h⟩
  · rcases alt_incomplete.1 h with h | ⟨_, h⟩
    · obtain ⟨more, hm⟩ := tag_more (mapP_incomplete.1 h)
      refine ⟨more ++ crlf, .mail none (Params.collect []), ?_⟩
      have := CmdLineOf.mailNull (L := L) _ b1 [] [] _ _ hv hb1 hn hp rfl (M := fun ps m => m = Params.collect ps)
      rw [← hm] at this
      simpa using this
    · obtain ⟨more, e, he⟩ := maybeBracketed_more hL a6 (mapP_incomplete.1 h)
      exact ⟨more ++ crlf, _, by
        simpa using CmdLineOf.mail (L := L) (M := fun ps m => m = Params.collect ps) _ b1 _ [] [] e _ _ hv hb1 hn he hp rfl⟩
  · obtain ⟨more, pt, ps, bl, hpt, hbl, e⟩ := tail_more h
    rcases alt_done.1 h3 with h3 | ⟨_, h3⟩
    · obtain ⟨_, h3, _⟩ := mapP_done.1 h3
      obtain ⟨rfl, _⟩ := tag_done.1 h3
      exact ⟨more, _, by
        have := CmdLineOf.mailNull (L := L) (M := fun ps m => m = Params.collect ps) _ b1 pt bl _ _ hv hb1 hbl hpt rfl
        simp only [List.append_assoc] at this e ⊢
        rw [e]; exact this⟩
    · obtain ⟨em, h3, _⟩ := mapP_done.1 h3
      obtain ⟨x, hx, rfl⟩ := maybeBracketedP_sound h3
      exact ⟨more, _, by
        have := CmdLineOf.mail (L := L) (M := fun ps m => m = Params.collect ps) _ b1 x pt bl em _ _ hv hb1 hbl hx hpt rfl
        simp only [List.append_assoc] at this e ⊢
        rw [e]; exact this⟩

theorem rcpt_more (hL : IpLaws L) (a6 : L.V6) {i : Bytes} (h : (rcptArgs i : IRes (Command L)) = .incomplete) :
    Extends L i := by
  have hn : Blanks [] := by simp [Blanks]
  have hp : ParamsText [] [] := ⟨[], by simp, rfl, rfl⟩
  have hb := bind_inc h; clear h; rcases hb with h | ⟨r, v, h1, h⟩
  · obtain ⟨more, hm⟩ := tagNoCase_more h
    exact ⟨more ++ b!"a" ++ crlf, _, by
      simpa using CmdLineOf.rcpt (L := L) (M := fun ps m => m = Params.collect ps) _ [] b!"a" [] [] _ _ _ hm hn hn
        (.inl ⟨[], b!"a", .inl rfl, plain_email, rfl⟩) hp rfl⟩
  obtain ⟨rfl, hv⟩ := (verb_done rfl).1 h1
  have hb := bind_inc h; clear h; rcases hb with h | ⟨r2, b1, h2, h⟩
  · exact absurd h eatSpaces_ne_incomplete
  obtain ⟨rfl, hb1, _⟩ := eatSpaces_done.1 h2
  have hb := bind_inc h; clear h; rcases hb with h | ⟨r3, em, h3, h⟩
  · obtain ⟨more, e, he⟩ := maybeBracketed_more hL a6 h
    exact ⟨more ++ crlf, _, by
      simpa using CmdLineOf.rcpt (L := L) (M := fun ps m => m = Params.collect ps) _ b1 _ [] [] e _ _ hv hb1 hn he hp rfl⟩
  · obtain ⟨more, pt, ps, bl, hpt, hbl, e⟩ := tail_more h
    obtain ⟨x, hx, rfl⟩ := maybeBracketedP_sound h3
    exact ⟨more, _, by
      have := CmdLineOf.rcpt (L := L) (M := fun ps m => m = Params.collect ps) _ b1 x pt bl em _ _ hv hb1 hbl hx hpt rfl
      simp only [List.append_assoc] at this e ⊢
      rw [e]; exact this⟩

theorem command_more (hL : IpLaws L) (a6 : L.V6) {i : Bytes} (h : (commandP i : IRes (Command L)) = .incomplete) :
    Extends L i := by
  rcases alt_incomplete.1 h with h | ⟨_, h⟩
  · exact bare_more (t := b!"DATA") (fun v bl => .data v bl) h
  rcases alt_incomplete.1 h with h | ⟨_, h⟩
  · exact hello_more (t := b!"EHLO") hL a6 (fun b1 v b2 dt b3 d => .ehlo b1 v b2 dt b3 d) h
  rcases alt_incomplete.1 h with h | ⟨_, h⟩
  · exact text_more (t := b!"EXPN") (fun v c s => .expn v c s) h
  rcases alt_incomplete.1 h with h | ⟨_, h⟩
  · exact hello_more (t := b!"HELO") hL a6 (fun b1 v b2 dt b3 d => .helo b1 v b2 dt b3 d) h
  rcases alt_incomplete.1 h with h | ⟨_, h⟩
  · exact opttext_more (t := b!"HELP") (fun v bl s => .help v bl s) h
  rcases alt_incomplete.1 h with h | ⟨_, h⟩
  · exact mail_more hL a6 h
  rcases alt_incomplete.1 h with h | ⟨_, h⟩
  · exact opttext_more (t := b!"NOOP") (fun v bl s => .noop v bl s) h
  rcases alt_incomplete.1 h with h | ⟨_, h⟩
  · exact bare_more (t := b!"QUIT") (fun v bl => .quit v bl) h
  rcases alt_incomplete.1 h with h | ⟨_, h⟩
  · exact rcpt_more hL a6 h
  rcases alt_incomplete.1 h with h | ⟨_, h⟩
  · exact bare_more (t := b!"RSET") (fun v bl => .rset v bl) h
  · exact text_more (t := b!"VRFY") (fun v c s => .vrfy v c s) h

theorem nomToResult_inc {r : IRes α} (h : nomToResult r = .error .incompleteString) : r = .incomplete := by
  cases r with
  | done r a => unfold nomToResult at h; simp only at h; split at h <;> cases h
  | error => cases h
  | incomplete => rfl

/-- C106. If `Command::parse` says the input is incomplete, some continuation of it is accepted. -/
theorem c106_command (hL : IpLaws L) (a6 : L.V6) (b : Bytes)
    (h : (Command.parse b : Except ParseErr (Command L)) = .error .incompleteString) :
    ∃ more, ∃ c : Command L, Command.parse (b ++ more) = .ok c := by
  obtain ⟨more, c, hc⟩ := command_more hL a6 (nomToResult_inc h)
  exact ⟨more, c, (parse_iff_collect hL _ _).2 hc⟩

/-- C106. The same for `Domain::parse`. -/
theorem c106_domain (hL : IpLaws L) (a6 : L.V6) (b : Bytes)
    (h : (Domain.parse b : Except ParseErr (Domain L)) = .error .incompleteString) :
    ∃ more, ∃ d : Domain L, Domain.parse (b ++ more) = .ok d := by
  obtain ⟨more, d, hd⟩ := hostname_more hL a6 (nomToResult_inc h)
  exact ⟨more, d, (c39_exact hL _ _).2 hd⟩

/-- C106. The same for `Email::parse`. -/
theorem c106_email (hL : IpLaws L) (b : Bytes)
    (h : (Email.parse b : Except ParseErr (Email L)) = .error .incompleteString) :
    ∃ more, ∃ e : Email L, Email.parse (b ++ more) = .ok e := by
  obtain ⟨more, e, he⟩ := email_more (L := L) (nomToResult_inc h)
  exact ⟨more, e, (c37_exact hL _ _).2 he⟩

theorem reply_extends {b : Bytes} : (∃ more l, ReplyLine.parse (b ++ more) = .ok l) ↔
    ∃ more d s t, CodeField d ∧ (s = 32 ∨ s = 45) ∧ NoCrlf t ∧ b ++ more = d ++ [s] ++ t ++ crlf := by
  constructor
  · rintro ⟨more, l, h⟩
    unfold ReplyLine.parse at h
    rw [nomToResult_ok] at h
    obtain ⟨d, s, t, hd, hs, ht, e⟩ := ((replyParser_cases _).2 []).1 ⟨l, h⟩
    exact ⟨more, d, s, t, hd, hs, ht, by simpa using e⟩
  · rintro ⟨more, d, s, t, hd, hs, ht, e⟩
    obtain ⟨l, h⟩ := ((replyParser_cases (b ++ more)).2 []).2 ⟨d, s, t, hd, hs, ht, by simpa using e⟩
    exact ⟨more, l, by unfold ReplyLine.parse; rw [nomToResult_ok]; exact h⟩

/-- C106. `ReplyLine::parse` is honest from the third byte on. -/
theorem c106_reply (b : Bytes) (h3 : 3 ≤ b.length) (h : ReplyLine.parse b = .error .incompleteString) :
    ∃ more l, ReplyLine.parse (b ++ more) = .ok l := by
  rw [reply_extends]
  rcases (c87_reply_incomplete b).1 h with h | h | ⟨d, s, t, hd, hs, ht, rfl⟩
  · omega
  · exact ⟨[32] ++ crlf, b, 32, [], h, .inl rfl, noCrlf_short (by simp), by simp⟩
  · exact ⟨crlf, d, s, t, hd, hs, noCrlf_short ht, rfl⟩

/-- C106. On one or two bytes it always asks for more, whatever they are; more bytes help exactly when these can begin a code. -/
theorem c106_reply_short (b : Bytes) (h3 : b.length < 3) :
    ReplyLine.parse b = .error .incompleteString ∧
      ((∃ more l, ReplyLine.parse (b ++ more) = .ok l) ↔ ∃ more, CodeField (b ++ more)) := by
  refine ⟨(c87_reply_incomplete b).2 (.inl h3), ?_⟩
  rw [reply_extends]
  constructor
  · rintro ⟨more, d, s, t, hd, hs, ht, e⟩
    have hl : d.length = 3 := by obtain ⟨x, y, z, rfl, _⟩ := hd; rfl
    refine ⟨d.drop b.length, ?_⟩
    have : b ++ d.drop b.length = d := by
      have e1 : (b ++ more).take b.length = b := by simp
      rw [e] at e1
      have e2 : d.take b.length = b := by
        rw [List.append_assoc, List.append_assoc, List.take_append_of_le_length (by omega)] at e1
        exact e1
      conv => lhs; arg 1; rw [← e2]
      exact List.take_append_drop _ _
    rw [this]
    exact hd
  · rintro ⟨more, hd⟩
    exact ⟨more ++ [32] ++ crlf, b ++ more, 32, [], hd, .inl rfl, noCrlf_short (by simp), by simp⟩

/-- C106. The cases are inhabited: an address literal in a `HELO`, an open quote, a reply's code, and the one-byte input `x` that
asks for more in vain. -/
theorem c106_example :
    (Command.parse b!"HELO [IPv6:" : Except ParseErr (Command exampleIp)) = .error .incompleteString ∧
    (Command.parse b!"mail from:<@a,@" : Except ParseErr (Command exampleIp)) = .error .incompleteString ∧
    (Domain.parse b!"[IP" : Except ParseErr (Domain exampleIp)) = .error .incompleteString ∧
    (Email.parse b!"\"a" : Except ParseErr (Email exampleIp)) = .error .incompleteString ∧
    ReplyLine.parse b!"250-a" = .error .incompleteString ∧
    ReplyLine.parse b!"x" = .error .incompleteString ∧
    ¬ ∃ more l, ReplyLine.parse (b!"x" ++ more) = .ok l := by
  refine ⟨errorOf_some (by decide +kernel), errorOf_some (by decide +kernel), errorOf_some (by decide +kernel),
    errorOf_some (by decide +kernel), errorOf_some (by decide +kernel), errorOf_some (by decide +kernel), ?_⟩
  rw [(c106_reply_short b!"x" (by decide)).2]
  rintro ⟨more, a, b, c, e, h, _⟩
  simp at e
  obtain ⟨rfl, _⟩ := e
  revert h
  decide

end Verif
