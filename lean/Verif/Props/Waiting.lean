import Verif.Spec.Waiting
import Verif.Props.Honest
import Verif.Proofs.Verbs
/-
C108: exactly when `Command::parse` asks for more.
-/
namespace Verif
open Spec Nom
variable {L : IpLib} {α β : Type}

theorem tagNoCase_incomplete {t i : Bytes} : tagNoCase t i = .incomplete ↔ BegunVerb (t.map lower) i := by
  have key : ∀ (t i : Bytes), compareBy (fun a b => lower a == lower b) i t = .incomplete ↔
      ∃ more, more ≠ [] ∧ (i ++ more).map lower = t.map lower := by
    intro t
    induction t with
    | nil => intro i; simp +contextual [compareBy]
    | cons c t ih =>
      intro i
      cases i with
      | nil => simp only [compareBy, true_iff]; exact ⟨c :: t, by simp, rfl⟩
      | cons d i =>
        simp only [compareBy]
        split
        · rename_i hc
          rw [ih]
          simp at hc
          simp [hc]
        · rename_i hc
          simp at hc
          simp [hc]
  rw [show BegunVerb (t.map lower) i ↔ _ from (key t i).symm]
  show (match compareBy (fun a b => lower a == lower b) i t with
    | .ok r => IRes.done r (i.take t.length) | .error => .error | .incomplete => .incomplete) = .incomplete ↔ _
  cases hc : compareBy (fun a b => lower a == lower b) i t <;> simp

theorem binc {p : Parser α} {f : α → Parser β} {i : Bytes} :
    (p >>= f) i = .incomplete ↔ p i = .incomplete ∨ ∃ r a, p i = .done r a ∧ f a r = .incomplete := bind_incomplete

theorem inc_step {p : Parser α} {f : α → Parser β} {i r : Bytes} {a : α} (h : p i = .done r a) :
    (p >>= f) i = .incomplete ↔ f a r = .incomplete := by rw [bind_of_done h]

theorem inc_last {p : Parser α} {b : β} {i : Bytes} :
    (do let _ ← p; return b : Parser β) i = .incomplete ↔ p i = .incomplete := by
  rw [binc]
  constructor
  · rintro (h | ⟨_, _, _, h⟩)
    · exact h
    · cases h
  · exact .inl

theorem begunCrlf_iff {i : Bytes} : tag b!"\r\n" i = .incomplete ↔ BegunCrlf i := by
  rw [tag_incomplete]
  constructor
  · rintro ⟨⟨r, h⟩, hne⟩
    match i, h with
    | [], _ => exact .inl rfl
    | [c], h => simp at h; exact .inr (by simp [h.1])
    | c :: d :: i, h =>
      simp at h
      exact absurd (by simp [h]) hne
  · rintro (rfl | rfl) <;> decide

theorem begunCrlf_stop {e : Bytes} (h : BegunCrlf e) : StopAt spacesC e := by
  rcases h with rfl | rfl
  · exact stopAt_nil _
  · exact stopAt_cons.2 (by decide)

/-- Blanks and then the line end. -/
theorem lineEnd_incomplete {b : β} {i : Bytes} :
    (do let _ ← eatSpaces; let _ ← tag b!"\r\n"; return b : Parser β) i = .incomplete ↔
      ∃ bl e, Blanks bl ∧ BegunCrlf e ∧ i = bl ++ e := by
  constructor
  · intro h
    have hb := binc.1 h; clear h; rcases hb with h | ⟨r, bl, h1, h⟩
    · exact absurd h eatSpaces_ne_incomplete
    obtain ⟨rfl, hbl, _⟩ := eatSpaces_done.1 h1
    exact ⟨bl, r, hbl, begunCrlf_iff.1 (inc_last.1 h), rfl⟩
  · rintro ⟨bl, e, hbl, he, rfl⟩
    rw [inc_step (eatSpaces_complete hbl (begunCrlf_stop he)), inc_last]
    exact begunCrlf_iff.2 he

theorem bare_incomplete {t : Bytes} {c : Command L} {i : Bytes} :
    (do let _ ← tagNoCase t; let _ ← eatSpaces; let _ ← crlfP; return c : Parser (Command L)) i = .incomplete ↔
      BegunVerb (t.map lower) i ∨
      ∃ v bl e, IsVerb (t.map lower) v ∧ Blanks bl ∧ BegunCrlf e ∧ i = v ++ bl ++ e := by
  rw [binc, tagNoCase_incomplete]
  refine or_congr Iff.rfl ?_
  constructor
  · rintro ⟨r, v, h1, h⟩
    obtain ⟨rfl, hv⟩ := (verb_done rfl).1 h1
    obtain ⟨bl, e, hbl, he, rfl⟩ := lineEnd_incomplete.1 h
    exact ⟨v, bl, e, hv, hbl, he, by simp⟩
  · rintro ⟨v, bl, e, hv, hbl, he, rfl⟩
    exact ⟨bl ++ e, v, (verb_done rfl).2 ⟨by simp, hv⟩, lineEnd_incomplete.2 ⟨bl, e, hbl, he, rfl⟩⟩

theorem until_incomplete {f : Bytes → Command L} {i : Bytes} :
    (do let res ← takeUntil b!"\r\n"; let _ ← tag b!"\r\n"; return f res : Parser (Command L)) i = .incomplete ↔
      i.length < 2 := by
  refine ⟨until_more, fun h => binc.2 (.inl ?_)⟩
  unfold takeUntil
  rw [if_pos (by simpa using h)]

theorem text_incomplete {t : Bytes} {f : Bytes → Command L} {i : Bytes} :
    (do
      let _ ← tagNoCase t
      let _ ← oneOf spacesC
      let res ← takeUntil b!"\r\n"
      let _ ← tag b!"\r\n"
      return f res : Parser (Command L)) i = .incomplete ↔
      BegunVerb (t.map lower) i ∨ IsVerb (t.map lower) i ∨
      ∃ v c s, IsVerb (t.map lower) v ∧ Blank c ∧ s.length < 2 ∧ i = v ++ [c] ++ s := by
  rw [binc, tagNoCase_incomplete]
  refine or_congr Iff.rfl ?_
  constructor
  · rintro ⟨r, v, h1, h⟩
    obtain ⟨rfl, hv⟩ := (verb_done rfl).1 h1
    have hb := binc.1 h; clear h; rcases hb with h | ⟨r2, c, h2, h⟩
    · have := oneOf_incomplete h
      subst this
      exact .inl (by simpa using hv)
    · obtain ⟨rfl, hc⟩ := oneOf_done.1 h2
      exact .inr ⟨v, c, r2, hv, (mem_spaces c).1 hc, until_incomplete.1 h, by simp⟩
  · rintro (hv | ⟨v, c, s, hv, hc, hs, rfl⟩)
    · exact ⟨[], i, (verb_done rfl).2 ⟨by simp, hv⟩, binc.2 (.inl rfl)⟩
    · refine ⟨c :: s, v, (verb_done rfl).2 ⟨by simp, hv⟩, ?_⟩
      rw [inc_step (oneOf_done.2 ⟨rfl, (mem_spaces c).2 hc⟩)]
      exact until_incomplete.2 hs

theorem opttext_incomplete {t : Bytes} {f : Bytes → Command L} {i : Bytes} :
    (do
      let _ ← tagNoCase t
      let _ ← opt (oneOf spacesC)
      let res ← takeUntil b!"\r\n"
      let _ ← tag b!"\r\n"
      return f res : Parser (Command L)) i = .incomplete ↔
      BegunVerb (t.map lower) i ∨
      ∃ v bl s, IsVerb (t.map lower) v ∧ s.length < 2 ∧ OptBlank bl s ∧ i = v ++ bl ++ s := by
  rw [binc, tagNoCase_incomplete]
  refine or_congr Iff.rfl ?_
  constructor
  · rintro ⟨r, v, h1, h⟩
    obtain ⟨rfl, hv⟩ := (verb_done rfl).1 h1
    have hb := binc.1 h; clear h; rcases hb with h | ⟨r2, c, h2, h⟩
    · have := oneOf_incomplete (opt_incomplete h)
      subst this
      exact ⟨v, [], [], hv, by simp, .inr ⟨rfl, by simp⟩, by simp⟩
    · have hl := until_incomplete.1 h
      rcases opt_done.1 h2 with ⟨c, _, h3⟩ | ⟨_, rfl, h3⟩
      · obtain ⟨rfl, hc⟩ := oneOf_done.1 h3
        exact ⟨v, [c], r2, hv, hl, .inl ⟨c, (mem_spaces c).1 hc, rfl⟩, by simp⟩
      · obtain ⟨d, r', rfl, hd⟩ := oneOf_error.1 h3
        exact ⟨v, [], _, hv, hl, .inr ⟨rfl, by simpa using fun hb => hd ((mem_spaces d).2 hb)⟩, by simp⟩
  · rintro ⟨v, bl, s, hv, hs, hb, rfl⟩
    refine ⟨bl ++ s, v, (verb_done rfl).2 ⟨by simp, hv⟩, ?_⟩
    rcases hb with ⟨c, hc, rfl⟩ | ⟨rfl, hz⟩
    · rw [List.cons_append, List.nil_append, inc_step (opt_done.2 (.inl ⟨c, rfl, oneOf_done.2 ⟨rfl, (mem_spaces c).2 hc⟩⟩))]
      exact until_incomplete.2 hs
    · cases s with
      | nil => exact binc.2 (.inl rfl)
      | cons d s =>
        have hd : d ∉ spacesC := fun hm => hz d (by simp) ((mem_spaces d).1 hm)
        rw [List.nil_append, inc_step (opt_done.2 (.inr ⟨rfl, rfl, oneOf_error.2 ⟨d, s, rfl, hd⟩⟩))]
        exact until_incomplete.2 hs

theorem begunVerb_stop {t i : Bytes} (ht : ∀ c ∈ t, 97 ≤ lower c ∧ lower c ≤ 122) (h : BegunVerb (t.map lower) i) :
    StopAt spacesC i := by
  intro c hc
  obtain ⟨more, _, h⟩ := h
  cases i with
  | nil => cases hc
  | cons d i =>
    simp at hc; subst hc
    cases t with
    | nil => cases h
    | cons e t =>
      have he := ht e (by simp)
      rw [isVerb_iff] at h
      simp at h
      rw [← h.1] at he
      exact lower_not_space d he

theorem isVerb_stop {t v r : Bytes} (ht : ∀ c ∈ t, 97 ≤ lower c ∧ lower c ≤ 122) (ht0 : t ≠ [])
    (h : IsVerb (t.map lower) v) : StopAt spacesC (v ++ r) := by
  rw [isVerb_iff] at h
  cases t with
  | nil => exact absurd rfl ht0
  | cons e t =>
    cases v with
    | nil => cases h
    | cons d v =>
      have he := ht e (by simp)
      simp at h
      rw [← h.1] at he
      exact stopAt_cons.2 (lower_not_space d he)

theorem ipv6_stop {x : Bytes} (h : x <+: b!"[IPv6:") : StopAt spacesC x := by
  cases x with
  | nil => exact stopAt_nil _
  | cons c x =>
    obtain ⟨rfl, _⟩ := List.cons_prefix_cons.1 h
    exact stopAt_cons.2 (by decide)

theorem hello_incomplete (hL : IpLaws L) {t : Bytes} {f : Domain L → Command L} {i : Bytes}
    (ht : ∀ c ∈ t, 97 ≤ lower c ∧ lower c ≤ 122) (ht0 : t ≠ []) :
    (do
      let _ ← eatSpaces
      let _ ← tagNoCase t
      let _ ← eatSpaces
      let d ← hostnameP
      let _ ← eatSpaces
      let _ ← tag b!"\r\n"
      return f d : Parser (Command L)) i = .incomplete ↔
      (∃ b1 b, Blanks b1 ∧ BegunVerb (t.map lower) b ∧ i = b1 ++ b) ∨
      (∃ b1 v b2 x, Blanks b1 ∧ IsVerb (t.map lower) v ∧ Blanks b2 ∧ x <+: b!"[IPv6:" ∧ i = b1 ++ v ++ b2 ++ x) ∨
      ∃ b1 v b2 dt d b3 e, Blanks b1 ∧ IsVerb (t.map lower) v ∧ Blanks b2 ∧ DomainText L dt d ∧ Blanks b3 ∧ BegunCrlf e ∧
        i = b1 ++ v ++ b2 ++ dt ++ b3 ++ e := by
  constructor
  · intro h
    have hb := binc.1 h; clear h; rcases hb with h | ⟨r, b1, h1, h⟩
    · exact absurd h eatSpaces_ne_incomplete
    obtain ⟨rfl, hb1, _⟩ := eatSpaces_done.1 h1
    have hb := binc.1 h; clear h; rcases hb with h | ⟨r2, v, h2, h⟩
    · exact .inl ⟨b1, r, hb1, tagNoCase_incomplete.1 h, rfl⟩
    obtain ⟨rfl, hv⟩ := (verb_done rfl).1 h2
    have hb := binc.1 h; clear h; rcases hb with h | ⟨r3, b2, h3, h⟩
    · exact absurd h eatSpaces_ne_incomplete
    obtain ⟨rfl, hb2, _⟩ := eatSpaces_done.1 h3
    have hb := binc.1 h; clear h; rcases hb with h | ⟨r4, d, h4, h⟩
    · exact .inr (.inl ⟨b1, v, b2, r3, hb1, hv, hb2, hostnameP_incomplete.1 h, by simp⟩)
    obtain ⟨dt, hd, rfl⟩ := hostnameP_sound h4
    obtain ⟨b3, e, hb3, he, rfl⟩ := lineEnd_incomplete.1 h
    exact .inr (.inr ⟨b1, v, b2, dt, d, b3, e, hb1, hv, hb2, hd, hb3, he, by simp⟩)
  · rintro (⟨b1, b, hb1, hb, rfl⟩ | ⟨b1, v, b2, x, hb1, hv, hb2, hx, rfl⟩ | ⟨b1, v, b2, dt, d, b3, e, hb1, hv, hb2, hd, hb3, he, rfl⟩)
    · rw [inc_step (eatSpaces_complete hb1 (begunVerb_stop ht hb))]
      exact binc.2 (.inl (tagNoCase_incomplete.2 hb))
    · simp only [List.append_assoc]
      rw [inc_step (eatSpaces_complete hb1 (isVerb_stop ht ht0 hv)), inc_step ((verb_done rfl).2 ⟨rfl, hv⟩),
        inc_step (eatSpaces_complete hb2 (ipv6_stop hx))]
      exact binc.2 (.inl (hostnameP_incomplete.2 hx))
    · have hst : HostStop (b3 ++ e) := by
        cases b3 with
        | nil =>
          rcases he with rfl | rfl
          · exact stopAt_nil _
          · exact blankOrCr_host ⟨13, [], rfl, .inr rfl⟩
        | cons c b3 => exact blankOrCr_host ⟨c, b3 ++ e, rfl, .inl (hb3 c (by simp))⟩
      have hds : StopAt spacesC (dt ++ (b3 ++ e)) := by
        obtain ⟨c, t, rfl, hc⟩ := domainText_head hd
        exact stopAt_cons.2 hc
      simp only [List.append_assoc]
      rw [inc_step (eatSpaces_complete hb1 (isVerb_stop ht ht0 hv)), inc_step ((verb_done rfl).2 ⟨rfl, hv⟩),
        inc_step (eatSpaces_complete hb2 hds), inc_step (hostnameP_complete hL hd hst)]
      exact lineEnd_incomplete.2 ⟨b3, e, hb3, he, rfl⟩

/-! ### Source routes and paths -/

theorem tagByte_incomplete {c : UInt8} {i : Bytes} : tag [c] i = .incomplete ↔ i = [] := by
  rw [tag_incomplete]
  cases i with
  | nil => simp
  | cons d i => simp

theorem hop_incomplete {i : Bytes} :
    hopP L i = .incomplete ↔ i = [] ∨ ∃ x, x <+: b!"[IPv6:" ∧ i = [64] ++ x := by
  constructor
  · intro h
    have hb := binc.1 h; clear h; rcases hb with h | ⟨r, _, h1, h⟩
    · exact .inl (tagByte_incomplete.1 h)
    · obtain ⟨rfl, _⟩ := tag_done.1 h1
      exact .inr ⟨r, hostnameP_incomplete.1 (inc_last.1 h), rfl⟩
  · rintro (rfl | ⟨x, hx, rfl⟩)
    · rfl
    · unfold hopP
      rw [inc_step (tag_done.2 ⟨rfl, rfl⟩), inc_last]
      exact hostnameP_incomplete.2 hx

theorem hop_stop (i : Bytes) : HostStop (44 :: i) := stopAt_cons.2 (by decide +kernel)

/-- The end of a list of hops that is not finished. -/
def LastHop (L : IpLib) (last : Bytes) : Prop :=
  last = [] ∨ IsHop L last ∨ ∃ x, x <+: b!"[IPv6:" ∧ last = [64] ++ x

theorem hopLoop_incomplete (hL : IpLaws L) {i : Bytes} :
    sepLoop (tag b!",") (hopP L) i = .incomplete ↔
      i = [] ∨ ∃ hops last, (∀ h ∈ hops, IsHop L h) ∧ LastHop L last ∧ i = (hops ++ [last]).flatMap (44 :: ·) := by
  constructor
  · intro h
    fun_induction sepLoop (tag b!",") (hopP L) i with
    | case1 => cases h
    | case2 i h1 => exact .inl (tagByte_incomplete.1 h1)
    | case3 => cases h
    | case4 i i2 b h1 hlt h2 =>
      obtain ⟨rfl, _⟩ := tag_done.1 h1
      refine .inr ⟨[], i2, by simp, ?_, by simp⟩
      rcases hop_incomplete.1 h2 with h | h
      · exact .inl h
      · exact .inr (.inr h)
    | case5 => cases h
    | case6 => cases h
    | case7 i i2 b h1 hlt i3 a h2 hlt3 h3 ih =>
      obtain ⟨rfl, _⟩ := tag_done.1 h1
      obtain ⟨x, hx, rfl⟩ := hopP_sound _ _ _ h2 hlt3
      rcases ih h3 with rfl | ⟨hops, last, hh, hl, rfl⟩
      · exact .inr ⟨[], x, by simp, .inr (.inl hx), by simp⟩
      · exact .inr ⟨x :: hops, last, List.forall_mem_cons.2 ⟨hx, hh⟩, hl, by simp⟩
    | case8 => cases h
    | case9 => cases h
  · rintro (rfl | ⟨hops, last, hh, hl, rfl⟩)
    · rw [sepLoop]; rfl
    · have step : ∀ x r, IsHop L x → HostStop r → sepLoop (tag b!",") (hopP L) r = .incomplete →
          sepLoop (tag b!",") (hopP L) (44 :: (x ++ r)) = .incomplete := by
        intro x r hx hr h
        have hp : hopP L (x ++ r) = .done r () := hopP_complete hL hx hr
        have hl : 0 < x.length := by obtain ⟨dt, d, _, rfl⟩ := hx; simp
        have ht : tag b!"," (44 :: (x ++ r)) = .done (x ++ r) [44] := tag_cons 44 _
        rw [sepLoop]
        simp only [ht, hp, h]
        rw [dif_pos (by simp), dif_pos (by simp; omega)]
      induction hops with
      | nil =>
        simp only [List.nil_append, List.flatMap_cons, List.flatMap_nil, List.append_nil]
        rcases hl with rfl | hl | hl
        · rw [sepLoop]; rfl
        · simpa using step last [] hl (stopAt_nil _) (by rw [sepLoop]; rfl)
        · have ht : tag b!"," (44 :: last) = .done last [44] := tag_cons 44 _
          have hp := hop_incomplete (L := L).2 (.inr hl)
          rw [sepLoop]
          simp only [ht, hp]
          rw [dif_pos (by simp)]
      | cons x hops ih =>
        have := ih (fun h hm => hh h (by simp [hm]))
        simp only [List.cons_append, List.flatMap_cons]
        refine step x _ (hh x (by simp)) ?_ this
        cases hops with
        | nil => exact hop_stop _
        | cons y ys => exact hop_stop _

theorem route_incomplete (hL : IpLaws L) {i : Bytes} : routeP L i = .incomplete ↔ BegunRoute L i := by
  have colon : ∀ r as, separatedList (tag b!",") (hopP L) i = .done r as → tag b!":" r = .incomplete → False := by
    intro r as h1 h
    have hr := tagByte_incomplete.1 h
    subst hr
    unfold separatedList at h1
    split at h1
    · rename_i hh
      cases h1
      cases hh
    · cases h1
    · rename_i r a hh
      split at h1
      · split at h1
        · rename_i r' as' hs
          cases h1
          revert hs
          suffices key : ∀ i as, sepLoop (tag b!",") (hopP L) i ≠ .done [] as by exact key _ _
          intro i as h
          fun_induction sepLoop (tag b!",") (hopP L) i generalizing as with
          | case1 i h1 => cases h; cases h1
          | case2 => cases h
          | case3 i i2 b h1 => cases h; cases h1
          | case4 => cases h
          | case5 i i2 b h1 hlt i3 a h2 hlt3 r' as' h3 ih => cases h; exact ih _ h3
          | case6 => cases h
          | case7 => cases h
          | case8 i i2 b h1 => cases h; cases h1
          | case9 i i2 b h1 => cases h; cases h1
        · cases h1
        · cases h1
      · cases h1
  constructor
  · intro h
    have hb := binc.1 h; clear h; rcases hb with h | ⟨r, as, h1, h⟩
    · unfold separatedList at h
      split at h
      · cases h
      · rename_i hh
        refine ⟨[], i, by simp, ?_, by simp [joinWith]⟩
        rcases hop_incomplete.1 hh with h | h
        · exact .inl h
        · exact .inr (.inr h)
      · rename_i r a hh
        split at h
        · rename_i hlt
          split at h
          · cases h
          · cases h
          · rename_i hs
            obtain ⟨x, hx, rfl⟩ := hopP_sound _ _ _ hh hlt
            rcases (hopLoop_incomplete hL).1 hs with rfl | ⟨hops, last, hho, hl, rfl⟩
            · exact ⟨[], x, by simp, .inr (.inl hx), by simp [joinWith]⟩
            · exact ⟨x :: hops, last, List.forall_mem_cons.2 ⟨hx, hho⟩, hl, by rw [List.cons_append, joinWith_cons]⟩
        · cases h
    · exact (colon r as h1 (inc_last.1 h)).elim
  · rintro ⟨hops, last, hh, hl, rfl⟩
    refine binc.2 (.inl ?_)
    have first : ∀ x r, IsHop L x → HostStop r → sepLoop (tag b!",") (hopP L) r = .incomplete →
        separatedList (tag b!",") (hopP L) (x ++ r) = .incomplete := by
      intro x r hx hr h
      have hp : hopP L (x ++ r) = .done r () := hopP_complete hL hx hr
      have hl : 0 < x.length := by obtain ⟨dt, d, _, rfl⟩ := hx; simp
      unfold separatedList
      simp only [hp, h]
      rw [if_pos (by simp; omega)]
    cases hops with
    | nil =>
      simp only [List.nil_append, joinWith]
      have ni : ∀ i, hopP L i = .incomplete → separatedList (tag b!",") (hopP L) i = .incomplete := by
        intro i h; unfold separatedList; simp only [h]
      rcases hl with rfl | hl | hl
      · exact ni _ rfl
      · simpa using first last [] hl (stopAt_nil _) (by rw [sepLoop]; rfl)
      · exact ni _ (hop_incomplete.2 (.inr hl))
    | cons x hops =>
      rw [List.cons_append, joinWith_cons]
      refine first x _ (hh x (by simp)) ?_
        ((hopLoop_incomplete hL).2 (.inr ⟨hops, last, fun h hm => hh h (by simp [hm]), hl, rfl⟩))
      cases hops with
      | nil => exact hop_stop _
      | cons y ys => exact hop_stop _

theorem routeP_head_error {c : UInt8} {t : Bytes} (h64 : c ≠ 64) (h58 : c ≠ 58) : routeP L (c :: t) = .error := by
  unfold routeP
  refine bind_error.2 (.inr ⟨c :: t, [], ?_, bind_of_error (tag_head_ne h58)⟩)
  have : hopP L (c :: t) = .error := bind_of_error (tag_head_ne h64)
  simp [separatedList, this]

theorem unclosed_head {q : Bytes} (h : UnclosedQuote q) : q = [] ∨ ∃ t, q = 34 :: t := by
  obtain ⟨s, content, ⟨items, _, rfl, _⟩, hp, _⟩ := h
  cases q with
  | nil => exact .inl rfl
  | cons c q =>
    obtain ⟨rfl, _⟩ := List.cons_prefix_cons.1 hp
    exact .inr ⟨q, rfl⟩

theorem path_incomplete (hL : IpLaws L) {i : Bytes} :
    (addressInPathP i : IRes (Email L)) = .incomplete ↔ BegunPath L i := by
  constructor
  · intro h
    have hb := binc.1 h; clear h; rcases hb with h | ⟨r, x, h1, h⟩
    · exact .inl ((route_incomplete hL).1 (opt_incomplete h))
    · have hq := emailP_incomplete.1 h
      rcases opt_done.1 h1 with ⟨_, _, h3⟩ | ⟨_, rfl, _⟩
      · obtain ⟨x, hx, rfl⟩ := routeP_sound h3
        exact .inr ⟨x, r, .inr hx, hq, rfl⟩
      · exact .inr ⟨[], _, .inl rfl, hq, rfl⟩
  · have viaRoute : ∀ i, routeP L i = .incomplete → (addressInPathP i : IRes (Email L)) = .incomplete := by
      intro i h
      refine binc.2 (.inl ?_)
      unfold opt; rw [h]
    rintro (h | ⟨route, q, rfl | hr, hq, rfl⟩)
    · exact viaRoute i ((route_incomplete hL).2 h)
    · rcases unclosed_head hq with rfl | ⟨t, rfl⟩
      · exact viaRoute [] rfl
      · have he : routeP L (34 :: t) = .error := routeP_head_error (by decide) (by decide)
        refine binc.2 (.inr ⟨34 :: t, none, opt_done.2 (.inr ⟨rfl, rfl, he⟩), emailP_incomplete.2 hq⟩)
    · exact binc.2 (.inr ⟨q, some (), opt_done.2 (.inl ⟨(), rfl, routeP_complete hL hr⟩), emailP_incomplete.2 hq⟩)

theorem path_head_bracket {t : Bytes} : (addressInPathP (60 :: t) : IRes (Email L)) = .error := by
  refine bind_error.2 (.inr ⟨60 :: t, none, opt_done.2 (.inr ⟨rfl, rfl, routeP_head_error (by decide) (by decide)⟩), ?_⟩)
  cases h : (emailP (60 :: t) : IRes (Email L)) with
  | error => rfl
  | incomplete =>
    rcases unclosed_head (emailP_incomplete.1 h) with h | ⟨_, h⟩ <;> simp at h
  | done r e =>
    obtain ⟨x, hx, e⟩ := emailP_sound h
    obtain ⟨c, t', rfl, hc⟩ := emailText_head hx
    simp at e
    obtain ⟨rfl, _⟩ := e
    exact absurd hc (by decide +kernel)

theorem bracketed_incomplete (hL : IpLaws L) {i : Bytes} :
    (maybeBracketedP i : IRes (Email L)) = .incomplete ↔ BegunBracketed L i := by
  unfold maybeBracketedP
  rw [alt_incomplete]
  constructor
  · rintro (h | ⟨_, h⟩)
    · have hb := binc.1 h; clear h; rcases hb with h | ⟨r, _, h1, h⟩
      · have := tagByte_incomplete.1 h
        subst this
        exact .inl (.inl ⟨[], [], by simp, .inl rfl, rfl⟩)
      · obtain ⟨rfl, _⟩ := tag_done.1 h1
        have hb := binc.1 h; clear h; rcases hb with h | ⟨r2, e, h2, h⟩
        · exact .inr ⟨r, .inl ((path_incomplete hL).1 h), rfl⟩
        · obtain ⟨x, hx, rfl⟩ := addressInPathP_sound h2
          have := tagByte_incomplete.1 (inc_last.1 h)
          subst this
          exact .inr ⟨x, .inr ⟨e, hx⟩, by simp⟩
    · exact .inl ((path_incomplete hL).1 h)
  · rintro (h | ⟨t, ht, rfl⟩)
    · have hp := (path_incomplete hL).2 h
      cases i with
      | nil => exact .inl rfl
      | cons c i =>
        by_cases hc : c = 60
        · subst hc
          rw [path_head_bracket] at hp
          cases hp
        · exact .inr ⟨bind_of_error (tag_head_ne hc), hp⟩
    · refine .inl ?_
      rw [inc_step (tag_done.2 ⟨rfl, rfl⟩)]
      rcases ht with h | ⟨e, h⟩
      · exact binc.2 (.inl ((path_incomplete hL).2 h))
      · have := addressInPathP_complete (r := []) hL h (stopAt_nil _)
        rw [List.append_nil] at this
        rw [inc_step this]
        rfl

/-! ### Parameters -/

theorem blank_param_incomplete {bl : Bytes} (hne : bl ≠ []) (hbl : Blanks bl) : paramP bl = .incomplete := by
  cases bl with
  | nil => exact absurd rfl hne
  | cons c bl =>
    have hc : c ∈ spacesC := (mem_spaces c).2 (hbl c (by simp))
    have h1 : eatSpaces bl = .done [] bl :=
      eatSpaces_done.2 ⟨by simp, fun d hd => hbl d (by simp [hd]), stopAt_nil _⟩
    unfold paramP
    rw [inc_step (oneOf_done.2 ⟨rfl, hc⟩), inc_step h1]
    exact binc.2 (.inl (recognize_incomplete.2 (bind_incomplete.2 (.inl rfl))))

/-- A parameter whose value is missing, at the end of the input. -/
theorem param_equ {bl k : Bytes} (hne : bl ≠ []) (hbl : Blanks bl) (hk : IsKey k) :
    paramP (bl ++ k ++ b!"=") = .done [] (k, some []) := by
  cases bl with
  | nil => exact absurd rfl hne
  | cons c bl =>
    have hc : c ∈ spacesC := (mem_spaces c).2 (hbl c (by simp))
    have hks : StopAt spacesC (k ++ b!"=") := by
      obtain ⟨d, r, rfl, hd, _⟩ := hk
      exact stopAt_cons.2 (alnum_not_space d hd)
    unfold paramP
    simp only [List.cons_append, List.append_assoc]
    rw [bind_of_done (oneOf_done.2 ⟨rfl, hc⟩),
      bind_of_done (eatSpaces_complete (fun d hd => hbl d (by simp [hd])) hks),
      bind_of_done (keyP_complete hk (stopAt_cons.2 (by decide +kernel)))]
    rfl

theorem param_cases {i r : Bytes} {e : Bytes × Option Bytes} (h : paramP i = .done r e) :
    (∃ x, ParamText x e ∧ i = x ++ r) ∨ (r = [] ∧ ∃ bl k, bl ≠ [] ∧ Blanks bl ∧ IsKey k ∧ i = bl ++ k ++ b!"=") := by
  unfold paramP at h
  simp only [bind_done, pure_done] at h
  obtain ⟨r1, c, h1, r2, bl, h2, r3, key, h3, r4, value, h4, rfl, rfl⟩ := h
  obtain ⟨rfl, hc⟩ := oneOf_done.1 h1
  obtain ⟨rfl, hbl, _⟩ := eatSpaces_done.1 h2
  obtain ⟨a, h3, hk⟩ := recognize_done.1 h3
  obtain ⟨x, hx, rfl, _⟩ := labelP_sound _ _ _ h3
  rw [take_consumed] at hk
  subst hk
  have hb : Blanks (c :: bl) := by
    intro d hd
    rcases List.mem_cons.1 hd with rfl | hd
    · exact (mem_spaces _).1 hc
    · exact hbl d hd
  rcases opt_done.1 h4 with ⟨v, rfl, h5⟩ | ⟨rfl, rfl, _⟩
  · obtain ⟨r5, b, h6, h7⟩ := preceded_done.1 (complete_done.1 h5)
    obtain ⟨rfl, _⟩ := tag_done.1 h6
    obtain ⟨rfl, hv, _, hnil⟩ := isA_done.1 h7
    by_cases hv0 : v = []
    · subst hv0
      exact .inr ⟨hnil rfl, c :: bl, key, by simp, hb, hx, by simp [hnil rfl]⟩
    · exact .inl ⟨c :: bl ++ key ++ [61] ++ v, ⟨c :: bl, by simp, hb, hx,
        .inr ⟨v, rfl, ⟨hv0, fun d hd => (mem_graph d).1 (hv d hd)⟩, rfl⟩⟩, by simp⟩
  · exact .inl ⟨c :: bl ++ key, ⟨c :: bl, by simp, hb, hx, .inl ⟨rfl, rfl⟩⟩, by simp⟩

/-- The parameters in front of the tail. -/
theorem many0_params_front
    {ts : List (Bytes × (Bytes × Option Bytes))} (hts : ∀ e ∈ ts, ParamText e.1 e.2) {r : Bytes} (hr : ParamStop r) :
    (many0 paramP r = .incomplete → many0 paramP ((ts.map (·.1)).flatten ++ r) = .incomplete) ∧
    ∀ r' as, many0 paramP r = .done r' as → ∃ as', many0 paramP ((ts.map (·.1)).flatten ++ r) = .done r' as' := by
  induction ts with
  | nil => exact ⟨id, fun r' as h => ⟨as, h⟩⟩
  | cons e ts ih =>
    have ih := ih (fun e he => hts e (by simp [he]))
    have he := hts e (by simp)
    obtain ⟨c, t, hc, hcb⟩ := paramText_blank he
    have hst : ParamStop ((ts.map (·.1)).flatten ++ r) := by
      cases ts with
      | nil => exact hr
      | cons e2 ts =>
        obtain ⟨c, t, hc, hcb⟩ := paramText_blank (hts e2 (by simp))
        simp only [List.map_cons, List.flatten_cons, hc, List.cons_append]
        exact BlankOrCr.param ⟨c, _, rfl, .inl hcb⟩
    have hp := paramP_complete _ _ _ he hst
    have hl : ((ts.map (·.1)).flatten ++ r).length < (e.1 ++ ((ts.map (·.1)).flatten ++ r)).length := by
      rw [List.length_append (as := e.1), hc]; simp
    have hne : e.1 ++ ((ts.map (·.1)).flatten ++ r) ≠ [] := by rw [hc]; simp
    simp only [List.map_cons, List.flatten_cons, List.append_assoc]
    constructor
    · intro h
      rw [many0, if_neg hne, hp]
      simp only [ih.1 h, dif_pos hl]
    · intro r' as h
      obtain ⟨as', h'⟩ := ih.2 r' as h
      refine ⟨e.2 :: as', ?_⟩
      rw [many0, if_neg hne, hp]
      simp only [h', dif_pos hl]

theorem paramStop_begun {bl e : Bytes} (hbl : Blanks bl) (he : BegunCrlf e) : ParamStop (bl ++ e) := by
  cases bl with
  | nil =>
    rcases he with rfl | rfl
    · exact stopAt_nil _
    · exact BlankOrCr.param ⟨13, [], rfl, .inr rfl⟩
  | cons c bl => exact BlankOrCr.param ⟨c, _, rfl, .inl (hbl c (by simp))⟩

/-- How the loop over the parameters can stop. -/
theorem params_run {i : Bytes} :
    (many0 paramP i = .incomplete → ∃ pt ps bl, ParamsText pt ps ∧ Blanks bl ∧ i = pt ++ bl) ∧
    ∀ r as, many0 paramP i = .done r as → (∃ pt ps, ParamsText pt ps ∧ i = pt ++ r) ∨
      (r = [] ∧ ∃ pt ps bl k, ParamsText pt ps ∧ bl ≠ [] ∧ Blanks bl ∧ IsKey k ∧ i = pt ++ bl ++ k ++ b!"=") := by
  have hz : ParamsText [] [] := ⟨[], by simp, rfl, rfl⟩
  refine ⟨many0_params_end.1, ?_⟩
  intro r as h
  fun_induction many0 paramP i generalizing as with
  | case1 => cases h; exact .inl ⟨[], [], hz, rfl⟩
  | case2 i hi h1 => cases h; exact .inl ⟨[], [], hz, rfl⟩
  | case3 => cases h
  | case4 i hi r1 a h1 hlt r2 as2 h2 ih =>
    cases h
    rcases param_cases h1 with ⟨x, hx, rfl⟩ | ⟨rfl, bl, k, h⟩
    · rcases ih _ h2 with ⟨pt, ps, ⟨ts, h3, rfl, rfl⟩, rfl⟩ | ⟨rfl, pt, ps, bl, k, ⟨ts, h3, rfl, rfl⟩, hbl, hbb, hk, rfl⟩
      · exact .inl ⟨_, _, ⟨(x, a) :: ts, List.forall_mem_cons.2 ⟨hx, h3⟩, rfl, rfl⟩, by simp⟩
      · exact .inr ⟨rfl, _, _, bl, k, ⟨(x, a) :: ts, List.forall_mem_cons.2 ⟨hx, h3⟩, rfl, rfl⟩, hbl, hbb, hk, by simp⟩
    · rw [many0] at h2; simp at h2
      exact .inr ⟨h2.1, [], [], bl, k, hz, h.1, h.2.1, h.2.2.1, by simpa using h.2.2.2⟩
  | case5 => cases h
  | case6 => cases h
  | case7 => cases h

theorem tail_incomplete {f : Params → α} {i : Bytes} :
    (do let ps ← parametersP; let _ ← eatSpaces; let _ ← crlfP; return f ps : Parser α) i = .incomplete ↔ BegunTail i := by
  have params : ∀ j : Bytes, (parametersP j = .incomplete ↔ many0 paramP j = .incomplete) ∧
      ∀ r as, many0 paramP j = .done r as → parametersP j = .done r (Params.collect as) := by
    intro j
    refine ⟨?_, fun r as h => ?_⟩
    · unfold parametersP
      rw [binc]
      constructor
      · rintro (h | ⟨_, _, _, h⟩)
        · exact h
        · cases h
      · exact .inl
    · unfold parametersP
      rw [bind_of_done h]; rfl
  constructor
  · intro h
    have hb := binc.1 h; clear h; rcases hb with h | ⟨r, m, h1, h⟩
    · obtain ⟨pt, ps, bl, h1, h2, rfl⟩ := params_run.1 ((params i).1.1 h)
      exact ⟨pt, ps, h1, .inl ⟨bl, [], h2, .inl rfl, by simp⟩⟩
    · unfold parametersP at h1
      obtain ⟨r', as, h2, h3⟩ := bind_done.1 h1
      cases h3
      obtain ⟨bl, e, hbl, he, rfl⟩ := lineEnd_incomplete.1 h
      rcases params_run.2 _ _ h2 with ⟨pt, ps, hp, rfl⟩ | ⟨_, pt, ps, bl', k, hp, h4, h5, h6, rfl⟩
      · exact ⟨pt, ps, hp, .inl ⟨bl, e, hbl, he, by simp⟩⟩
      · exact ⟨pt, ps, hp, .inr ⟨bl', k, h4, h5, h6, rfl⟩⟩
  · rintro ⟨pt, ps, ⟨ts, hts, rfl, rfl⟩, ⟨bl, e, hbl, he, rfl⟩ | ⟨bl, k, hne, hbl, hk, rfl⟩⟩
    · rw [List.append_assoc]
      have front := many0_params_front hts (paramStop_begun hbl he)
      have fin : ∀ r, (∃ as, many0 paramP (bl ++ e) = .done r as) → (∃ bl' e', Blanks bl' ∧ BegunCrlf e' ∧ r = bl' ++ e') →
          (do let ps ← parametersP; let _ ← eatSpaces; let _ ← crlfP; return f ps : Parser α)
            ((ts.map (·.1)).flatten ++ (bl ++ e)) = .incomplete := by
        rintro r ⟨as, h⟩ hr
        obtain ⟨as', h'⟩ := front.2 _ _ h
        rw [inc_step ((params _).2 _ _ h')]
        exact lineEnd_incomplete.2 hr
      rcases he with rfl | rfl
      · by_cases hb : bl = []
        · subst hb
          exact fin [] ⟨[], by rw [many0]; rfl⟩ ⟨[], [], hbl, .inl rfl, rfl⟩
        · refine binc.2 (.inl ((params _).1.2 (front.1 ?_)))
          rw [List.append_nil, many0, if_neg hb, blank_param_incomplete hb hbl]
      · refine fin (bl ++ b!"\r") ⟨[], ?_⟩ ⟨bl, b!"\r", hbl, .inr rfl, rfl⟩
        have hp : paramP (bl ++ b!"\r") = .error := paramP_end hbl
        rw [many0, if_neg (by simp), hp]
    · have hst : ParamStop (bl ++ k ++ b!"=") := by
        cases bl with
        | nil => exact absurd rfl hne
        | cons c bl => exact BlankOrCr.param ⟨c, _, by simp; rfl, .inl (hbl c (by simp))⟩
      have hm : many0 paramP (bl ++ k ++ b!"=") = .done [] [(k, some [])] := by
        have hn : bl ++ k ++ b!"=" ≠ [] := by simp
        have h0 : many0 paramP [] = .done [] [] := by rw [many0]; rfl
        rw [many0, if_neg hn, param_equ hne hbl hk]
        simp only [h0]
        rw [dif_pos (by simp; omega)]
      obtain ⟨as', h'⟩ := (many0_params_front hts hst).2 _ _ hm
      simp only [List.append_assoc] at h' ⊢
      rw [inc_step ((params _).2 _ _ h')]
      exact lineEnd_incomplete.2 ⟨[], [], by simp [Blanks], .inl rfl, rfl⟩

theorem begunTail_head {t : Bytes} (h : BegunTail t) : t = [] ∨ BlankOrCr t := by
  obtain ⟨pt, ps, ⟨ts, hts, rfl, rfl⟩, h⟩ := h
  cases ts with
  | cons e ts =>
    obtain ⟨c, u, hc, hcb⟩ := paramText_blank (hts e (by simp))
    rcases h with ⟨bl, x, _, _, rfl⟩ | ⟨bl, k, _, _, _, rfl⟩ <;>
      exact .inr ⟨c, _, by simp [hc]; rfl, .inl hcb⟩
  | nil =>
    rcases h with ⟨bl, x, hbl, hx, rfl⟩ | ⟨bl, k, hne, hbl, _, rfl⟩
    · cases bl with
      | nil =>
        rcases hx with rfl | rfl
        · exact .inl rfl
        · exact .inr ⟨13, [], rfl, .inr rfl⟩
      | cons c bl => exact .inr ⟨c, bl ++ x, rfl, .inl (hbl c (by simp))⟩
    · cases bl with
      | nil => exact absurd rfl hne
      | cons c bl => exact .inr ⟨c, _, by simp; rfl, .inl (hbl c (by simp))⟩

theorem begunTail_stop {t : Bytes} (h : BegunTail t) : EmailStop t := by
  rcases begunTail_head h with rfl | h
  · exact stopAt_nil _
  · exact h.email

theorem begunPath_head {i : Bytes} (h : BegunPath L i) :
    i = [] ∨ ∃ c t, i = c :: t ∧ (c = 64 ∨ c = 58 ∨ c = 34) := by
  have hr : ∀ (hops : List Bytes) r, (∀ h ∈ hops, IsHop L h) → hops ≠ [] → ∃ t, joinWith 44 hops ++ r = 64 :: t := by
    intro hops r hh hne
    cases hops with
    | nil => exact absurd rfl hne
    | cons x hops =>
      obtain ⟨dt, d, _, rfl⟩ := hh x (by simp)
      exact ⟨_, by rw [joinWith_cons]; simp; rfl⟩
  rcases h with ⟨hops, last, hh, hl, rfl⟩ | ⟨route, q, rfl | ⟨hops, hh, rfl⟩, hq, rfl⟩
  · cases hops with
    | nil =>
      simp only [List.nil_append, joinWith]
      rcases hl with rfl | ⟨dt, d, _, rfl⟩ | ⟨x, _, rfl⟩
      · exact .inl rfl
      · exact .inr ⟨64, dt, rfl, .inl rfl⟩
      · exact .inr ⟨64, x, rfl, .inl rfl⟩
    | cons x hops =>
      obtain ⟨dt, d, _, rfl⟩ := hh x (by simp)
      exact .inr ⟨64, _, by rw [List.cons_append, joinWith_cons]; simp; rfl, .inl rfl⟩
  · rcases unclosed_head hq with rfl | ⟨t, rfl⟩
    · exact .inl rfl
    · exact .inr ⟨34, t, rfl, by simp⟩
  · cases hops with
    | nil => exact .inr ⟨58, q, rfl, by simp⟩
    | cons x hops =>
      obtain ⟨t, ht⟩ := hr (x :: hops) ([58] ++ q) hh (by simp)
      exact .inr ⟨64, t, by simpa using ht, .inl rfl⟩

theorem begunBracketed_stop {i : Bytes} (h : BegunBracketed L i) : StopAt spacesC i := by
  rcases h with h | ⟨t, _, rfl⟩
  · rcases begunPath_head h with rfl | ⟨c, t, rfl, hc⟩
    · exact stopAt_nil _
    · refine stopAt_cons.2 ?_
      rcases hc with rfl | rfl | rfl <;> decide
  · exact stopAt_cons.2 (by decide)

theorem rcpt_incomplete (hL : IpLaws L) {i : Bytes} :
    (rcptArgs i : IRes (Command L)) = .incomplete ↔
      BegunVerb b!"rcpt to:" i ∨
      (∃ v b1 x, IsVerb b!"rcpt to:" v ∧ Blanks b1 ∧ BegunBracketed L x ∧ i = v ++ b1 ++ x) ∨
      ∃ v b1 x e t, IsVerb b!"rcpt to:" v ∧ Blanks b1 ∧ MaybeBracketed L x e ∧ BegunTail t ∧ i = v ++ b1 ++ x ++ t := by
  constructor
  · intro h
    have hb := binc.1 h; clear h; rcases hb with h | ⟨r, v, h1, h⟩
    · exact .inl (tagNoCase_incomplete.1 h)
    obtain ⟨rfl, hv⟩ := (verb_done rfl).1 h1
    have hb := binc.1 h; clear h; rcases hb with h | ⟨r2, b1, h2, h⟩
    · exact absurd h eatSpaces_ne_incomplete
    obtain ⟨rfl, hb1, _⟩ := eatSpaces_done.1 h2
    have hb := binc.1 h; clear h; rcases hb with h | ⟨r3, e, h3, h⟩
    · exact .inr (.inl ⟨v, b1, r2, hv, hb1, (bracketed_incomplete hL).1 h, by simp⟩)
    · obtain ⟨x, hx, rfl⟩ := maybeBracketedP_sound h3
      exact .inr (.inr ⟨v, b1, x, e, r3, hv, hb1, hx, tail_incomplete.1 h, by simp⟩)
  · rintro (h | ⟨v, b1, x, hv, hb1, hx, rfl⟩ | ⟨v, b1, x, e, t, hv, hb1, hx, ht, rfl⟩)
    · exact binc.2 (.inl (tagNoCase_incomplete.2 h))
    · unfold rcptArgs
      simp only [List.append_assoc]
      rw [inc_step ((verb_done (t := b!"RCPT TO:") rfl).2 ⟨rfl, hv⟩), inc_step (eatSpaces_complete hb1 (begunBracketed_stop hx))]
      exact binc.2 (.inl ((bracketed_incomplete hL).2 hx))
    · have hst : StopAt spacesC (x ++ t) := by
        obtain ⟨c, u, rfl, hc, _⟩ := maybeBracketed_head hx
        exact stopAt_cons.2 hc
      unfold rcptArgs
      simp only [List.append_assoc]
      rw [inc_step ((verb_done (t := b!"RCPT TO:") rfl).2 ⟨rfl, hv⟩), inc_step (eatSpaces_complete hb1 hst),
        inc_step (maybeBracketedP_complete hL hx (begunTail_stop ht))]
      exact tail_incomplete.2 ht

theorem null_incomplete {i : Bytes} (h : tag b!"<>" i = .incomplete) : BegunBracketed L i := by
  obtain ⟨⟨r, hp⟩, hne⟩ := tag_incomplete.1 h
  match i, hp with
  | [], _ => exact .inl (.inl ⟨[], [], by simp, .inl rfl, rfl⟩)
  | [c], hp =>
    simp at hp
    exact .inr ⟨[], .inl (.inl ⟨[], [], by simp, .inl rfl, rfl⟩), by simp [hp.1]⟩
  | c :: d :: i, hp =>
    simp at hp
    exact absurd (by simp [hp]) hne

theorem null_not_done {x r : Bytes} (h : BegunBracketed L x) : tag b!"<>" x ≠ .done r b!"<>" := by
  intro hd
  obtain ⟨rfl, _⟩ := tag_done.1 hd
  rcases h with h | ⟨t, h, e⟩
  · rcases begunPath_head h with h | ⟨c, t, h, hc⟩
    · simp at h
    · simp at h
      obtain ⟨rfl, _⟩ := h
      revert hc; decide
  · simp at e
    subst e
    rcases h with h | ⟨em, h⟩
    · rcases begunPath_head h with h | ⟨c, t, h, hc⟩
      · simp at h
      · simp at h
        obtain ⟨rfl, _⟩ := h
        revert hc; decide
    · obtain ⟨c, t, h, hc⟩ := pathText_head h
      simp at h
      obtain ⟨rfl, _⟩ := h
      exact absurd hc (by decide +kernel)

theorem mail_incomplete (hL : IpLaws L) {i : Bytes} :
    (mailArgs i : IRes (Command L)) = .incomplete ↔
      BegunVerb b!"mail from:" i ∨
      (∃ v b1 x, IsVerb b!"mail from:" v ∧ Blanks b1 ∧ BegunBracketed L x ∧ i = v ++ b1 ++ x) ∨
      (∃ v b1 x e t, IsVerb b!"mail from:" v ∧ Blanks b1 ∧ MaybeBracketed L x e ∧ BegunTail t ∧ i = v ++ b1 ++ x ++ t) ∨
      ∃ v b1 t, IsVerb b!"mail from:" v ∧ Blanks b1 ∧ BegunTail t ∧ i = v ++ b1 ++ b!"<>" ++ t := by
  constructor
  · intro h
    have hb := binc.1 h; clear h; rcases hb with h | ⟨r, v, h1, h⟩
    · exact .inl (tagNoCase_incomplete.1 h)
    obtain ⟨rfl, hv⟩ := (verb_done rfl).1 h1
    have hb := binc.1 h; clear h; rcases hb with h | ⟨r2, b1, h2, h⟩
    · exact absurd h eatSpaces_ne_incomplete
    obtain ⟨rfl, hb1, _⟩ := eatSpaces_done.1 h2
    have hb := binc.1 h; clear h; rcases hb with h | ⟨r3, e, h3, h⟩
    · refine .inr (.inl ⟨v, b1, r2, hv, hb1, ?_, by simp⟩)
      rcases alt_incomplete.1 h with h | ⟨_, h⟩
      · exact null_incomplete (mapP_incomplete.1 h)
      · exact (bracketed_incomplete hL).1 (mapP_incomplete.1 h)
    · have ht := tail_incomplete.1 h
      rcases alt_done.1 h3 with h3 | ⟨_, h3⟩
      · obtain ⟨_, h3, _⟩ := mapP_done.1 h3
        obtain ⟨rfl, _⟩ := tag_done.1 h3
        exact .inr (.inr (.inr ⟨v, b1, r3, hv, hb1, ht, by simp⟩))
      · obtain ⟨em, h3, _⟩ := mapP_done.1 h3
        obtain ⟨x, hx, rfl⟩ := maybeBracketedP_sound h3
        exact .inr (.inr (.inl ⟨v, b1, x, em, r3, hv, hb1, hx, ht, by simp⟩))
  · rintro (h | ⟨v, b1, x, hv, hb1, hx, rfl⟩ | ⟨v, b1, x, e, t, hv, hb1, hx, ht, rfl⟩ | ⟨v, b1, t, hv, hb1, ht, rfl⟩)
    · exact binc.2 (.inl (tagNoCase_incomplete.2 h))
    · unfold mailArgs
      simp only [List.append_assoc]
      rw [inc_step ((verb_done (t := b!"MAIL FROM:") rfl).2 ⟨rfl, hv⟩), inc_step (eatSpaces_complete hb1 (begunBracketed_stop hx))]
      refine binc.2 (.inl (alt_incomplete.2 ?_))
      rw [mapP_incomplete, mapP_error, mapP_incomplete]
      cases h : tag b!"<>" x with
      | incomplete => exact .inl rfl
      | error => exact .inr ⟨rfl, (bracketed_incomplete hL).2 hx⟩
      | done r a =>
        obtain ⟨_, rfl⟩ := tag_done.1 h
        exact absurd h (null_not_done hx)
    · obtain ⟨c, u, rfl, hc, hn⟩ := maybeBracketed_head hx
      have hst : StopAt spacesC (c :: u ++ t) := stopAt_cons.2 hc
      have ha : alt (mapP (tag b!"<>") (fun _ => none)) (mapP maybeBracketedP some) (c :: u ++ t) = .done t (some e) :=
        alt_skip (mapP_error.2 (hn t)) (mapP_done.2 ⟨e, maybeBracketedP_complete hL hx (begunTail_stop ht), rfl⟩)
      unfold mailArgs
      simp only [List.append_assoc]
      rw [inc_step ((verb_done (t := b!"MAIL FROM:") rfl).2 ⟨rfl, hv⟩), inc_step (eatSpaces_complete hb1 hst), inc_step ha]
      exact tail_incomplete.2 ht
    · have hst : StopAt spacesC (b!"<>" ++ t) := stopAt_cons.2 (by decide)
      have ha : alt (mapP (tag b!"<>") (fun _ => none)) (mapP maybeBracketedP some) (b!"<>" ++ t) =
          .done t (none : Option (Email L)) :=
        alt_take (mapP_done.2 ⟨b!"<>", tag_done.2 ⟨rfl, rfl⟩, rfl⟩)
      unfold mailArgs
      simp only [List.append_assoc]
      rw [inc_step ((verb_done (t := b!"MAIL FROM:") rfl).2 ⟨rfl, hv⟩), inc_step (eatSpaces_complete hb1 hst), inc_step ha]
      exact tail_incomplete.2 ht

/-! ### The alternatives -/

/-- The first four bytes after leading blanks, in lower case. -/
def head4 (i : Bytes) : Bytes := ((i.dropWhile spacesC.contains).take 4).map lower

theorem tagNoCase_begin {t i : Bytes} (h4 : 4 ≤ t.length) :
    (tagNoCase t i = .incomplete → (i.take 4).map lower <+: (t.take 4).map lower) ∧
    ∀ r a, tagNoCase t i = .done r a → (i.take 4).map lower = (t.take 4).map lower := by
  constructor
  · intro hc
    obtain ⟨more, _, hm⟩ := tagNoCase_incomplete.1 hc
    rw [isVerb_iff] at hm
    rw [List.map_take, List.map_take, ← hm, List.map_append, List.take_append]
    exact ⟨_, rfl⟩
  · intro r a hc
    obtain ⟨rfl, hv⟩ := (verb_done rfl).1 hc
    rw [isVerb_iff] at hv
    have hl : a.length = t.length := by simpa using congrArg List.length hv
    rw [List.take_append_of_le_length (by omega), List.map_take, hv, List.map_take]

theorem verb_not_blank {t0 : UInt8} {ts i : Bytes} (ht : 97 ≤ lower t0 ∧ lower t0 ≤ 122)
    (h : tagNoCase (t0 :: ts) i ≠ .error) : i.dropWhile spacesC.contains = i := by
  cases i with
  | nil => rfl
  | cons c i =>
    by_cases hc : c ∈ spacesC
    · exfalso
      apply h
      apply tagNoCase_head_ne
      intro e
      rw [← e] at ht
      exact lower_not_space c ht hc
    · rw [List.dropWhile_cons_of_neg (by simpa using hc)]

/-- What an alternative that has not refused the input knows of its beginning. -/
def Begins (p : Parser α) (w : Bytes) : Prop :=
  ∀ i, (p i = .incomplete → head4 i <+: w) ∧ ∀ r a, p i = .done r a → head4 i = w

theorem begins_verb {t0 : UInt8} {ts : Bytes} {f : Bytes → Parser α} (ht : 97 ≤ lower t0 ∧ lower t0 ≤ 122)
    (h4 : 4 ≤ (t0 :: ts).length) : Begins (tagNoCase (t0 :: ts) >>= f) (((t0 :: ts).take 4).map lower) := by
  intro i
  have hb := tagNoCase_begin (i := i) h4
  have eq : tagNoCase (t0 :: ts) i ≠ .error → head4 i = (i.take 4).map lower := fun h => by
    unfold head4; rw [verb_not_blank ht h]
  have done : ∀ r a, tagNoCase (t0 :: ts) i = .done r a → head4 i = ((t0 :: ts).take 4).map lower := fun r a h => by
    rw [eq (by rw [h]; simp)]; exact hb.2 r a h
  constructor
  · intro h
    rcases binc.1 h with h | ⟨r, a, h, _⟩
    · rw [eq (by rw [h]; simp)]; exact hb.1 h
    · rw [done r a h]; exact List.prefix_refl _
  · intro r a h
    obtain ⟨r', a', h, _⟩ := bind_done.1 h
    exact done r' a' h

theorem begins_hello {t : Bytes} {f : Bytes → Parser α} (h4 : 4 ≤ t.length) :
    Begins (eatSpaces >>= fun _ => tagNoCase t >>= f) ((t.take 4).map lower) := by
  intro i
  have he : eatSpaces i = .done (i.dropWhile spacesC.contains) (i.takeWhile spacesC.contains) := rfl
  have hb := tagNoCase_begin (i := i.dropWhile spacesC.contains) h4
  rw [bind_of_done he]
  constructor
  · intro h
    rcases binc.1 h with h | ⟨r, a, h, _⟩
    · exact hb.1 h
    · exact (hb.2 r a h) ▸ List.prefix_refl _
  · intro r a h
    obtain ⟨r', a', h, _⟩ := bind_done.1 h
    exact hb.2 r' a' h

/-- If one alternative accepts, no alternative waits. -/
theorem begins_apart {p q : Parser α} {w w' : Bytes} (hp : Begins p w) (hq : Begins q w') (h4 : w.length = w'.length)
    (hw : p = q ∨ w ≠ w') {i r : Bytes} {a : α} (h : p i = .done r a) : q i ≠ .incomplete := by
  rintro h'
  rcases hw with rfl | hw
  · rw [h] at h'; cases h'
  · have e := (hp i).2 r a h
    have hpre := (hq i).1 h'
    rw [e] at hpre
    exact hw (hpre.eq_of_length h4)

theorem foldr_alt_incomplete {ps : List (Parser (Command L))} {i : Bytes}
    (hap : ∀ p ∈ ps, ∀ q ∈ ps, ∀ r c, p i = .done r c → q i ≠ .incomplete) :
    ps.foldr alt Parser.fail i = .incomplete ↔ ∃ p ∈ ps, p i = .incomplete := by
  induction ps with
  | nil => simp [Parser.fail]
  | cons p ps ih =>
    have ih := ih (fun p hp q hq => hap p (by simp [hp]) q (by simp [hq]))
    rw [List.foldr_cons, alt_incomplete, ih]
    constructor
    · rintro (h | ⟨_, q, hq, h⟩)
      · exact ⟨p, by simp, h⟩
      · exact ⟨q, by simp [hq], h⟩
    · rintro ⟨q, hq, h⟩
      cases hp : p i with
      | incomplete => exact .inl rfl
      | done r c => exact absurd h (hap p (by simp) q hq r c hp)
      | error =>
        rcases List.mem_cons.1 hq with rfl | hq
        · rw [hp] at h; cases h
        · exact .inr ⟨rfl, q, hq, h⟩

/-- The alternatives with the first four letters of their verbs. -/
def alternativesW (L : IpLib) : List (Parser (Command L) × Bytes) :=
  [(dataArgs, b!"data"), (ehloArgs, b!"ehlo"), (expnArgs, b!"expn"), (heloArgs, b!"helo"), (helpArgs, b!"help"),
    (mailArgs, b!"mail"), (noopArgs, b!"noop"), (quitArgs, b!"quit"), (rcptArgs, b!"rcpt"), (rsetArgs, b!"rset"),
    (vrfyArgs, b!"vrfy")]

theorem alternatives_begin : ∀ e ∈ alternativesW L, Begins e.1 e.2 := by
  intro e he
  simp only [alternativesW, List.mem_cons, List.not_mem_nil, or_false] at he
  rcases he with rfl | rfl | rfl | rfl | rfl | rfl | rfl | rfl | rfl | rfl | rfl
  · exact begins_verb (t0 := 68) (ts := b!"ATA") (by decide) (by decide)
  · exact begins_hello (t := b!"EHLO") (by decide)
  · exact begins_verb (t0 := 69) (ts := b!"XPN") (by decide) (by decide)
  · exact begins_hello (t := b!"HELO") (by decide)
  · exact begins_verb (t0 := 72) (ts := b!"ELP") (by decide) (by decide)
  · exact begins_verb (t0 := 77) (ts := b!"AIL FROM:") (by decide) (by decide)
  · exact begins_verb (t0 := 78) (ts := b!"OOP") (by decide) (by decide)
  · exact begins_verb (t0 := 81) (ts := b!"UIT") (by decide) (by decide)
  · exact begins_verb (t0 := 82) (ts := b!"CPT TO:") (by decide) (by decide)
  · exact begins_verb (t0 := 82) (ts := b!"SET") (by decide) (by decide)
  · exact begins_verb (t0 := 86) (ts := b!"RFY") (by decide) (by decide)

theorem commandP_incomplete {i : Bytes} :
    (commandP i : IRes (Command L)) = .incomplete ↔ ∃ p ∈ alternatives L, p i = .incomplete := by
  rw [commandP_foldr]
  apply foldr_alt_incomplete
  have hmap : alternatives L = (alternativesW L).map (·.1) := rfl
  have hws : (alternativesW L).map (·.2) = [b!"data", b!"ehlo", b!"expn", b!"helo", b!"help", b!"mail", b!"noop", b!"quit",
    b!"rcpt", b!"rset", b!"vrfy"] := rfl
  have hnd : ((alternativesW L).map (·.2)).Nodup := by rw [hws]; decide
  have hlen : ∀ e ∈ alternativesW L, e.2.length = 4 := by
    intro e he
    have : e.2 ∈ (alternativesW L).map (·.2) := List.mem_map_of_mem he
    rw [hws] at this
    revert this
    generalize e.2 = w
    revert w
    decide
  have huniq : ∀ (l : List (Parser (Command L) × Bytes)), (l.map (·.2)).Nodup → ∀ e ∈ l, ∀ e' ∈ l, e.2 = e'.2 → e = e' := by
    intro l
    induction l with
    | nil => intro _ e he; cases he
    | cons a l ih =>
      intro hn e he e' he' h
      rw [List.map_cons, List.nodup_cons] at hn
      rcases List.mem_cons.1 he with h1 | h1 <;> rcases List.mem_cons.1 he' with h2 | h2
      · rw [h1, h2]
      · subst h1; exact absurd (h ▸ List.mem_map_of_mem h2) hn.1
      · subst h2; exact absurd (h ▸ List.mem_map_of_mem h1) hn.1
      · exact ih hn.2 e h1 e' h2 h
  intro p hp q hq r c h
  rw [hmap] at hp hq
  obtain ⟨e, he, rfl⟩ := List.mem_map.1 hp
  obtain ⟨e', he', rfl⟩ := List.mem_map.1 hq
  refine begins_apart (alternatives_begin e he) (alternatives_begin e' he') ?_ ?_ h
  · rw [hlen e he, hlen e' he']
  · by_cases hw : e.2 = e'.2
    · exact .inl (by rw [huniq _ hnd e he e' he' hw])
    · exact .inr hw

/-! ### `Command::parse` -/

theorem waiting_iff (hL : IpLaws L) {i : Bytes} : (commandP i : IRes (Command L)) = .incomplete ↔ Waiting L i := by
  rw [commandP_incomplete]
  have hdata : (dataArgs i : IRes (Command L)) = .incomplete ↔ _ := bare_incomplete (t := b!"DATA")
  have hquit : (quitArgs i : IRes (Command L)) = .incomplete ↔ _ := bare_incomplete (t := b!"QUIT")
  have hrset : (rsetArgs i : IRes (Command L)) = .incomplete ↔ _ := bare_incomplete (t := b!"RSET")
  have he1 : ∀ c ∈ b!"EHLO", 97 ≤ lower c ∧ lower c ≤ 122 := by decide +kernel
  have he2 : ∀ c ∈ b!"HELO", 97 ≤ lower c ∧ lower c ≤ 122 := by decide +kernel
  have hehlo : (ehloArgs i : IRes (Command L)) = .incomplete ↔ _ := hello_incomplete hL (t := b!"EHLO") he1 (by simp)
  have hhelo : (heloArgs i : IRes (Command L)) = .incomplete ↔ _ := hello_incomplete hL (t := b!"HELO") he2 (by simp)
  have hexpn : (expnArgs i : IRes (Command L)) = .incomplete ↔ _ := text_incomplete (t := b!"EXPN")
  have hvrfy : (vrfyArgs i : IRes (Command L)) = .incomplete ↔ _ := text_incomplete (t := b!"VRFY")
  have hhelp : (helpArgs i : IRes (Command L)) = .incomplete ↔ _ := opttext_incomplete (t := b!"HELP")
  have hnoop : (noopArgs i : IRes (Command L)) = .incomplete ↔ _ := opttext_incomplete (t := b!"NOOP")
  have hmail := mail_incomplete hL (i := i)
  have hrcpt := rcpt_incomplete hL (i := i)
  constructor
  · rintro ⟨p, hp, h⟩
    simp only [alternatives, List.mem_cons, List.not_mem_nil, or_false] at hp
    rcases hp with rfl | rfl | rfl | rfl | rfl | rfl | rfl | rfl | rfl | rfl | rfl
    · rcases hdata.1 h with h | ⟨v, bl, e, hv, hb, he, rfl⟩
      · exact .verb b!"data" i (by decide) h
      · exact .bare b!"data" v bl e (by decide) hv hb he
    · rcases hehlo.1 h with ⟨b1, b, hb1, hb, rfl⟩ | ⟨b1, v, b2, x, hb1, hv, hb2, hx, rfl⟩ |
        ⟨b1, v, b2, dt, d, b3, e, hb1, hv, hb2, hd, hb3, he, rfl⟩
      · exact .helloVerb b!"ehlo" b1 b (by decide) hb1 hb
      · exact .helloDomain b!"ehlo" b1 v b2 x (by decide) hb1 hv hb2 hx
      · exact .hello b!"ehlo" b1 v b2 dt d b3 e (by decide) hb1 hv hb2 hd hb3 he
    · rcases hexpn.1 h with h | h | ⟨v, c, s, hv, hc, hs, rfl⟩
      · exact .verb b!"expn" i (by decide) h
      · exact .textVerb b!"expn" i (by decide) h
      · exact .text b!"expn" v c s (by decide) hv hc hs
    · rcases hhelo.1 h with ⟨b1, b, hb1, hb, rfl⟩ | ⟨b1, v, b2, x, hb1, hv, hb2, hx, rfl⟩ |
        ⟨b1, v, b2, dt, d, b3, e, hb1, hv, hb2, hd, hb3, he, rfl⟩
      · exact .helloVerb b!"helo" b1 b (by decide) hb1 hb
      · exact .helloDomain b!"helo" b1 v b2 x (by decide) hb1 hv hb2 hx
      · exact .hello b!"helo" b1 v b2 dt d b3 e (by decide) hb1 hv hb2 hd hb3 he
    · rcases hhelp.1 h with h | ⟨v, bl, s, hv, hs, hb, rfl⟩
      · exact .verb b!"help" i (by decide) h
      · exact .optText b!"help" v bl s (by decide) hv hs hb
    · rcases hmail.1 h with h | ⟨v, b1, x, hv, hb1, hx, rfl⟩ | ⟨v, b1, x, e, t, hv, hb1, hx, ht, rfl⟩ | ⟨v, b1, t, hv, hb1, ht, rfl⟩
      · exact .verb b!"mail from:" i (by decide) h
      · exact .path b!"mail from:" v b1 x (by decide) hv hb1 hx
      · exact .tail b!"mail from:" v b1 x e t (by decide) hv hb1 hx ht
      · exact .nullTail v b1 t hv hb1 ht
    · rcases hnoop.1 h with h | ⟨v, bl, s, hv, hs, hb, rfl⟩
      · exact .verb b!"noop" i (by decide) h
      · exact .optText b!"noop" v bl s (by decide) hv hs hb
    · rcases hquit.1 h with h | ⟨v, bl, e, hv, hb, he, rfl⟩
      · exact .verb b!"quit" i (by decide) h
      · exact .bare b!"quit" v bl e (by decide) hv hb he
    · rcases hrcpt.1 h with h | ⟨v, b1, x, hv, hb1, hx, rfl⟩ | ⟨v, b1, x, e, t, hv, hb1, hx, ht, rfl⟩
      · exact .verb b!"rcpt to:" i (by decide) h
      · exact .path b!"rcpt to:" v b1 x (by decide) hv hb1 hx
      · exact .tail b!"rcpt to:" v b1 x e t (by decide) hv hb1 hx ht
    · rcases hrset.1 h with h | ⟨v, bl, e, hv, hb, he, rfl⟩
      · exact .verb b!"rset" i (by decide) h
      · exact .bare b!"rset" v bl e (by decide) hv hb he
    · rcases hvrfy.1 h with h | h | ⟨v, c, s, hv, hc, hs, rfl⟩
      · exact .verb b!"vrfy" i (by decide) h
      · exact .textVerb b!"vrfy" i (by decide) h
      · exact .text b!"vrfy" v c s (by decide) hv hc hs
  · intro h
    cases h with
    | verb w b hw hb =>
      simp only [List.mem_cons, List.not_mem_nil, or_false] at hw
      rcases hw with rfl | rfl | rfl | rfl | rfl | rfl | rfl | rfl | rfl
      · exact ⟨dataArgs, by simp [alternatives], hdata.2 (.inl hb)⟩
      · exact ⟨expnArgs, by simp [alternatives], hexpn.2 (.inl hb)⟩
      · exact ⟨helpArgs, by simp [alternatives], hhelp.2 (.inl hb)⟩
      · exact ⟨mailArgs, by simp [alternatives], hmail.2 (.inl hb)⟩
      · exact ⟨noopArgs, by simp [alternatives], hnoop.2 (.inl hb)⟩
      · exact ⟨quitArgs, by simp [alternatives], hquit.2 (.inl hb)⟩
      · exact ⟨rcptArgs, by simp [alternatives], hrcpt.2 (.inl hb)⟩
      · exact ⟨rsetArgs, by simp [alternatives], hrset.2 (.inl hb)⟩
      · exact ⟨vrfyArgs, by simp [alternatives], hvrfy.2 (.inl hb)⟩
    | helloVerb w b1 b hw hb1 hb =>
      simp only [List.mem_cons, List.not_mem_nil, or_false] at hw
      rcases hw with rfl | rfl
      · exact ⟨ehloArgs, by simp [alternatives], hehlo.2 (.inl ⟨b1, b, hb1, hb, rfl⟩)⟩
      · exact ⟨heloArgs, by simp [alternatives], hhelo.2 (.inl ⟨b1, b, hb1, hb, rfl⟩)⟩
    | bare w v bl e hw hv hb he =>
      simp only [List.mem_cons, List.not_mem_nil, or_false] at hw
      rcases hw with rfl | rfl | rfl
      · exact ⟨dataArgs, by simp [alternatives], hdata.2 (.inr ⟨v, bl, e, hv, hb, he, rfl⟩)⟩
      · exact ⟨quitArgs, by simp [alternatives], hquit.2 (.inr ⟨v, bl, e, hv, hb, he, rfl⟩)⟩
      · exact ⟨rsetArgs, by simp [alternatives], hrset.2 (.inr ⟨v, bl, e, hv, hb, he, rfl⟩)⟩
    | textVerb w v hw hv =>
      simp only [List.mem_cons, List.not_mem_nil, or_false] at hw
      rcases hw with rfl | rfl
      · exact ⟨expnArgs, by simp [alternatives], hexpn.2 (.inr (.inl hv))⟩
      · exact ⟨vrfyArgs, by simp [alternatives], hvrfy.2 (.inr (.inl hv))⟩
    | text w v c s hw hv hc hs =>
      simp only [List.mem_cons, List.not_mem_nil, or_false] at hw
      rcases hw with rfl | rfl
      · exact ⟨expnArgs, by simp [alternatives], hexpn.2 (.inr (.inr ⟨v, c, s, hv, hc, hs, rfl⟩))⟩
      · exact ⟨vrfyArgs, by simp [alternatives], hvrfy.2 (.inr (.inr ⟨v, c, s, hv, hc, hs, rfl⟩))⟩
    | optText w v bl s hw hv hs hb =>
      simp only [List.mem_cons, List.not_mem_nil, or_false] at hw
      rcases hw with rfl | rfl
      · exact ⟨helpArgs, by simp [alternatives], hhelp.2 (.inr ⟨v, bl, s, hv, hs, hb, rfl⟩)⟩
      · exact ⟨noopArgs, by simp [alternatives], hnoop.2 (.inr ⟨v, bl, s, hv, hs, hb, rfl⟩)⟩
    | helloDomain w b1 v b2 x hw hb1 hv hb2 hx =>
      simp only [List.mem_cons, List.not_mem_nil, or_false] at hw
      rcases hw with rfl | rfl
      · exact ⟨ehloArgs, by simp [alternatives], hehlo.2 (.inr (.inl ⟨b1, v, b2, x, hb1, hv, hb2, hx, rfl⟩))⟩
      · exact ⟨heloArgs, by simp [alternatives], hhelo.2 (.inr (.inl ⟨b1, v, b2, x, hb1, hv, hb2, hx, rfl⟩))⟩
    | hello w b1 v b2 dt d b3 e hw hb1 hv hb2 hd hb3 he =>
      simp only [List.mem_cons, List.not_mem_nil, or_false] at hw
      rcases hw with rfl | rfl
      · exact ⟨ehloArgs, by simp [alternatives], hehlo.2 (.inr (.inr ⟨b1, v, b2, dt, d, b3, e, hb1, hv, hb2, hd, hb3, he, rfl⟩))⟩
      · exact ⟨heloArgs, by simp [alternatives], hhelo.2 (.inr (.inr ⟨b1, v, b2, dt, d, b3, e, hb1, hv, hb2, hd, hb3, he, rfl⟩))⟩
    | path w v b1 x hw hv hb1 hx =>
      simp only [List.mem_cons, List.not_mem_nil, or_false] at hw
      rcases hw with rfl | rfl
      · exact ⟨mailArgs, by simp [alternatives], hmail.2 (.inr (.inl ⟨v, b1, x, hv, hb1, hx, rfl⟩))⟩
      · exact ⟨rcptArgs, by simp [alternatives], hrcpt.2 (.inr (.inl ⟨v, b1, x, hv, hb1, hx, rfl⟩))⟩
    | tail w v b1 x e t hw hv hb1 hx ht =>
      simp only [List.mem_cons, List.not_mem_nil, or_false] at hw
      rcases hw with rfl | rfl
      · exact ⟨mailArgs, by simp [alternatives], hmail.2 (.inr (.inr (.inl ⟨v, b1, x, e, t, hv, hb1, hx, ht, rfl⟩)))⟩
      · exact ⟨rcptArgs, by simp [alternatives], hrcpt.2 (.inr (.inr ⟨v, b1, x, e, t, hv, hb1, hx, ht, rfl⟩))⟩
    | nullTail v b1 t hv hb1 ht =>
      exact ⟨mailArgs, by simp [alternatives], hmail.2 (.inr (.inr (.inr ⟨v, b1, t, hv, hb1, ht, rfl⟩)))⟩

/-- C108. `Command::parse` answers `IncompleteString` exactly on the inputs that are still waiting. -/
theorem c108_incomplete (hL : IpLaws L) (b : Bytes) :
    (Command.parse b : Except ParseErr (Command L)) = .error .incompleteString ↔ Waiting L b := by
  unfold Command.parse
  rw [nomToResult_incomplete, waiting_iff hL]

/-- C108. `Command::parse` answers `ParseError` exactly when no beginning of the input is a command line and the input is
not waiting. -/
theorem c108_error (hL : IpLaws L) (b : Bytes) :
    (Command.parse b : Except ParseErr (Command L)) = .error .parseError ↔
      (¬ ∃ line, line <+: b ∧ ∃ c : Command L, CmdLine L line c) ∧ ¬ Waiting L b := by
  unfold Command.parse
  rw [nomToResult_parseError, ← waiting_iff hL]
  constructor
  · intro h
    refine ⟨?_, by rw [h]; simp⟩
    rintro ⟨x, ⟨r, rfl⟩, hx⟩
    obtain ⟨c, hc⟩ := (cmdLine_iff_collect x).1 hx
    rw [commandP_complete_rest hL r hc] at h
    cases h
  · rintro ⟨h1, h2⟩
    cases h : (commandP b : IRes (Command L)) with
    | error => rfl
    | incomplete => exact absurd h h2
    | done r c =>
      obtain ⟨x, rfl, hx⟩ := commandP_sound_rest h
      exact absurd ⟨x, ⟨r, rfl⟩, (cmdLine_iff_collect x).2 ⟨c, hx⟩⟩ h1

/-- C108. An input that waits has no command line in front. -/
theorem c108_apart (hL : IpLaws L) (b : Bytes) (h : Waiting L b) :
    ¬ ∃ line, line <+: b ∧ ∃ c : Command L, CmdLine L line c := by
  rintro ⟨x, ⟨r, rfl⟩, hx⟩
  obtain ⟨c, hc⟩ := (cmdLine_iff_collect x).1 hx
  have := (waiting_iff hL).2 h
  rw [commandP_complete_rest hL r hc] at this
  cases this

/-- C108. Waiting is not monotone: as the bytes of one valid line arrive, the parser asks for more, refuses, and asks for
more again. -/
theorem c108_wavers :
    (Command.parse b!"MAIL FROM:<a" : Except ParseErr (Command exampleIp)) = .error .incompleteString ∧
    (Command.parse b!"MAIL FROM:<a@" : Except ParseErr (Command exampleIp)) = .error .parseError ∧
    (Command.parse b!"MAIL FROM:<a@b" : Except ParseErr (Command exampleIp)) = .error .incompleteString ∧
    (∃ c, (Command.parse b!"MAIL FROM:<a@b>\r\n" : Except ParseErr (Command exampleIp)) = .ok c) :=
  ⟨errorOf_some (by decide +kernel), errorOf_some (by decide +kernel), errorOf_some (by decide +kernel),
    errorOf_none (by decide +kernel)⟩

/-- C108, non-vacuity: one input of each kind that waits. -/
theorem c108_example : ∀ b ∈ [b!"", b!"dat", b!" \teh", b!"QUIT \r", b!"vrfy", b!"EXPN a", b!"HELP", b!"nooP x", b!"HELO [IP",
      b!" ehlo a.b \r", b!"MAIL FROM:<@a,@b,", b!"RCPT TO:\"a\\\" ", b!"rcpt to:<@a:b@c", b!"mail from:<> a=b c=", b!"RCPT TO:a@b x \r"],
    (Command.parse b : Except ParseErr (Command exampleIp)) = .error .incompleteString := by
  intro b hb
  apply errorOf_some
  revert b
  decide +kernel

end Verif
