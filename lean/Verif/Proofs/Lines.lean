import Verif.Proofs.DataLines
/-
`next_crlf_line`.
-/
namespace Verif
open Spec

theorem findCrlf_none {b : Bytes} (h : NoCrlf b) : findCrlf b = none := by
  fun_induction findCrlf b with
  | case1 a b r hc => exact absurd ⟨[], r, by simp [hc]⟩ h
  | case2 a b r hc ih => simp [ih (noCrlf_cons h)]
  | case3 => rfl

theorem findCrlf_some {l t : Bytes} (h : NoCrlf l) : findCrlf (l ++ crlf ++ t) = some l.length := by
  induction l with
  | nil => simp [findCrlf]
  | cons c l ih =>
    have ih := ih (noCrlf_cons h)
    cases l with
    | nil =>
      simp only [List.cons_append, List.nil_append] at ih ⊢
      rw [findCrlf, if_neg (by simp), ih]; rfl
    | cons d l =>
      simp only [List.cons_append] at ih ⊢
      rw [findCrlf, if_neg, ih]
      · rfl
      · rintro ⟨rfl, rfl⟩; exact h ⟨[], l, by simp⟩

/-- The first CRLF is unique. -/
theorem firstCrlf_unique {l l' t t' : Bytes} (h : NoCrlf l) (h' : NoCrlf l')
    (e : l ++ crlf ++ t = l' ++ crlf ++ t') : l = l' ∧ t = t' := by
  have h1 := findCrlf_some (t := t) h
  have h2 := findCrlf_some (t := t') h'
  rw [e, h2] at h1
  simp at h1
  have := List.append_inj (s₁ := l) (t₁ := crlf ++ t) (s₂ := l') (t₂ := crlf ++ t') (by simpa using e) h1.symm
  simp at this
  exact this

theorem not_noCrlf {l t : Bytes} : ¬ NoCrlf (l ++ crlf ++ t) := fun h => h ⟨l, t, rfl⟩

/-- What the loop does, on the bytes gathered and still to come. -/
structure LineSpec (s : Prep Bytes) (buf : Bytes) (r : Except Panic (Option Bytes × Prep Bytes)) : Prop where
  line : ∀ l t, NoCrlf l → buf ++ s.bytes = l ++ crlf ++ t →
    ∃ s', r = .ok (some (l ++ crlf), s') ∧ s'.bytes = t ∧
      ∀ before p after, s.evs = before ++ .pkt p :: after → NoCrlf (buf ++ evBytes before) →
        ¬ NoCrlf (buf ++ evBytes before ++ p) → s'.src = after
  noline : NoCrlf (buf ++ s.bytes) → ∃ s', r = .ok (none, s') ∧ s'.bytes = buf ++ s.bytes ∧ s'.src = []

theorem nextCrlfLineLoop_spec (s : Prep Bytes) (buf : Bytes) (hb : NoCrlf buf) :
    LineSpec s buf (nextCrlfLineLoop s buf) := by
  fun_induction nextCrlfLineLoop s buf with
  | case1 s buf s' h ih =>
    obtain ⟨h1, h2⟩ := Prep.pollNext_pending h
    have hbytes : s.bytes = s'.bytes := by simp [Prep.bytes, h1]
    have ih := ih hb
    refine ⟨?_, ?_⟩
    · intro l t hl he
      obtain ⟨x, hx1, hx2, hx3⟩ := ih.line l t hl (by rw [← hbytes]; exact he)
      refine ⟨x, hx1, hx2, ?_⟩
      intro before p after hev hn hnn
      rw [h1] at hev
      cases before with
      | nil => simp at hev
      | cons e before =>
        simp only [List.cons_append, List.cons.injEq] at hev
        obtain ⟨rfl, hev⟩ := hev
        exact hx3 before p after hev hn hnn
    · intro hn; rw [hbytes] at hn ⊢; exact ih.noline hn
  | case2 s buf pkt s' h pos hpos s'' hpre =>
    obtain ⟨h1, h2⟩ := Prep.pollNext_some h
    have hbytes : s.bytes = pkt ++ s'.bytes := by simp [Prep.bytes, h1]
    have hs'' : s'' = { s' with pre := some ((buf ++ pkt).drop (pos + 2)) } := by
      simp [Prep.prepend, h2] at hpre; exact hpre.symm
    rcases crlf_split (buf ++ pkt) with hn | ⟨l, t, hl, he⟩
    · rw [findCrlf_none hn] at hpos; simp at hpos
    · have hp : pos = l.length := by
        rw [he, findCrlf_some hl] at hpos; simpa using hpos.symm
      have htake : (buf ++ pkt).take (pos + 2) = l ++ crlf := by
        rw [he, hp]; exact List.take_left' (by simp)
      have hdrop : (buf ++ pkt).drop (pos + 2) = t := by
        rw [he, hp]; exact List.drop_left' (by simp)
      have hb'' : s''.bytes = t ++ s'.bytes := by
        rw [hs'', hdrop]
        simp [Prep.bytes, Prep.evs, h2]
      refine ⟨?_, ?_⟩
      · intro l' t' hl' he'
        rw [hbytes, ← List.append_assoc, he, List.append_assoc] at he'
        obtain ⟨rfl, ht⟩ := firstCrlf_unique hl hl' he'
        refine ⟨s'', by rw [htake], by rw [hb'', ht], ?_⟩
        intro before p after hev hn hnn
        rw [h1] at hev
        cases before with
        | nil => simp at hev; rw [hs'']; simpa [Prep.evs, h2] using hev.2
        | cons e before =>
          exfalso
          simp only [List.cons_append, List.cons.injEq] at hev
          obtain ⟨rfl, hev⟩ := hev
          simp only [evBytes_pkt] at hn
          rw [← List.append_assoc, he, List.append_assoc] at hn
          exact not_noCrlf hn
      · intro hn
        rw [hbytes, ← List.append_assoc, he, List.append_assoc] at hn
        exact absurd hn not_noCrlf
  | case3 s buf pkt s' h pos hpos hpre =>
    obtain ⟨h1, h2⟩ := Prep.pollNext_some h
    simp [Prep.prepend, h2] at hpre
  | case4 s buf pkt s' h hpos ih =>
    obtain ⟨h1, h2⟩ := Prep.pollNext_some h
    have hbytes : s.bytes = pkt ++ s'.bytes := by simp [Prep.bytes, h1]
    have hb' : NoCrlf (buf ++ pkt) := by
      rcases crlf_split (buf ++ pkt) with hn | ⟨l, t, hl, he⟩
      · exact hn
      · rw [he, findCrlf_some hl] at hpos; simp at hpos
    have ih := ih hb'
    refine ⟨?_, ?_⟩
    · intro l t hl he
      obtain ⟨x, hx1, hx2, hx3⟩ := ih.line l t hl (by rw [← he, hbytes]; simp)
      refine ⟨x, hx1, hx2, ?_⟩
      intro before p after hev hn hnn
      rw [h1] at hev
      cases before with
      | nil => simp at hev; simp at hnn; exact absurd hb' (hev.1 ▸ hnn)
      | cons e before =>
        simp only [List.cons_append, List.cons.injEq] at hev
        obtain ⟨rfl, hev⟩ := hev
        exact hx3 before p after hev (by simpa using hn) (by simpa using hnn)
    · intro hn
      obtain ⟨x, hx1, hx2, hx3⟩ := ih.noline (by rw [hbytes] at hn; simpa using hn)
      exact ⟨x, hx1, by rw [hx2, hbytes]; simp, hx3⟩
  | case5 s buf s' h s'' hpre =>
    obtain ⟨rfl, h1, h2⟩ := Prep.pollNext_none h
    have hbytes : s.bytes = [] := by simp [Prep.bytes, h1]
    have hs'' : s'' = { s with pre := some buf, ends := s.ends + 1 } := by
      simp [Prep.prepend, h2] at hpre; exact hpre.symm
    have hsrc : s.src = [] := by simpa [Prep.evs, h2] using h1
    refine ⟨?_, ?_⟩
    · intro l t hl he
      rw [hbytes, List.append_nil] at he
      rw [he] at hb
      exact absurd hb not_noCrlf
    · intro hn
      exact ⟨s'', rfl, by simp [hs'', Prep.bytes, Prep.evs, hsrc, h2], by simp [hs'', hsrc]⟩
  | case6 s buf s' h hpre =>
    obtain ⟨rfl, h1, h2⟩ := Prep.pollNext_none h
    simp [Prep.prepend, h2] at hpre

theorem nextCrlfLine_spec (s : Prep Bytes) : LineSpec s [] (nextCrlfLine s) :=
  nextCrlfLineLoop_spec s [] (by simp [NoCrlf])

theorem nextCrlfLine_cases (s : Prep Bytes) :
    (NoCrlf s.bytes ∧ ∃ s', nextCrlfLine s = .ok (none, s') ∧ s'.bytes = s.bytes) ∨
    (∃ l t s', NoCrlf l ∧ s.bytes = l ++ crlf ++ t ∧ nextCrlfLine s = .ok (some (l ++ crlf), s') ∧ s'.bytes = t) := by
  have sp := nextCrlfLine_spec s
  rcases crlf_split s.bytes with h | ⟨l, t, hl, he⟩
  · left
    obtain ⟨s', h1, h2, _⟩ := sp.noline (by simpa using h)
    exact ⟨h, s', h1, by simpa using h2⟩
  · right
    obtain ⟨s', h1, h2, _⟩ := sp.line l t hl (by simpa using he)
    exact ⟨l, t, s', hl, he, h1, h2⟩

/-- Each line read shortens what is left. -/
theorem nextCrlfLine_shrinks {s s' : Prep Bytes} {l : Bytes} (h : nextCrlfLine s = .ok (some l, s')) :
    s'.bytes.length < s.bytes.length := by
  rcases nextCrlfLine_cases s with ⟨_, x, hx, _⟩ | ⟨l', t, x, _, he, hx, ht⟩
  · rw [h] at hx; simp at hx
  · rw [h] at hx; simp at hx
    rw [he, hx.2, ht]; simp; omega

/-- `while let Some(line) = next_crlf_line(&mut s).await`, as in the tests (crlflines.rs:43-70) and the
loop of `interact` (interact.rs:24): all the lines, and the reader afterwards. -/
def readLines (s : Prep Bytes) : Except Panic (List Bytes × Prep Bytes) :=
  match _h : nextCrlfLine s with
  | .error p => .error p
  | .ok (none, s') => .ok ([], s')
  | .ok (some l, s') =>
    match readLines s' with
    | .error p => .error p
    | .ok (ls, s'') => .ok (l :: ls, s'')
termination_by s.bytes.length
decreasing_by exact nextCrlfLine_shrinks _h

end Verif
