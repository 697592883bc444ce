import Verif.Spec.Prefix
import Verif.Props.ParseErrors
import Verif.Props.Addresses
/-
C105: what `Domain::parse` and `Email::parse` say about an input that is not a domain or an address.
-/
namespace Verif
open Spec Nom
variable {L : IpLib} {α β : Type}

/-! ### Lists with separators take as much as they can -/

theorem complete_ne_incomplete {p : Parser α} {i : Bytes} : complete p i ≠ .incomplete := by
  unfold complete
  cases h : p i <;> simp

theorem sepLoop_total {sep : Parser β} {p : Parser α} (hs : ∀ i, sep i ≠ .incomplete) (hp : ∀ i, p i ≠ .incomplete)
    (i : Bytes) : ∃ r as, sepLoop sep p i = .done r as ∧ r.length ≤ i.length := by
  fun_induction sepLoop sep p i with
  | case1 i h1 => exact ⟨_, _, rfl, Nat.le_refl _⟩
  | case2 i h1 => exact absurd h1 (hs _)
  | case3 i => exact ⟨_, _, rfl, Nat.le_refl _⟩
  | case4 i i2 b h1 hlt h2 => exact absurd h2 (hp _)
  | case5 i i2 b h1 hlt i3 a h2 hlt3 r' as' h3 ih =>
    obtain ⟨r, as, h, hl⟩ := ih
    rw [h3] at h
    cases h
    exact ⟨_, _, rfl, by omega⟩
  | case6 i i2 b h1 hlt i3 a h2 hlt3 h3 ih => obtain ⟨r, as, h, _⟩ := ih; rw [h3] at h; cases h
  | case7 i i2 b h1 hlt i3 a h2 hlt3 h3 ih => obtain ⟨r, as, h, _⟩ := ih; rw [h3] at h; cases h
  | case8 i => exact ⟨_, _, rfl, Nat.le_refl _⟩
  | case9 i => exact ⟨_, _, rfl, Nat.le_refl _⟩

theorem sepLoop_munch {sep : Parser β} {p : Parser α} {c : UInt8} {E St : Bytes → Prop}
    (hs : ∀ i, sep i ≠ .incomplete) (hpi : ∀ i, p i ≠ .incomplete)
    (hsep : ∀ i, ∃ b, sep (c :: i) = .done i b)
    (hne : ∀ x, E x → x ≠ [])
    (hp : ∀ x r, E x → St r → ∃ a, p (x ++ r) = .done r a)
    (hm : ∀ x r, E x → ∃ r' a, p (x ++ r) = .done r' a ∧ r'.length ≤ r.length)
    (hst : ∀ i, St (c :: i)) (r : Bytes)
    (xs : List Bytes) (hx : ∀ x ∈ xs, E x) :
    ∃ r' as, sepLoop sep p (xs.flatMap (c :: ·) ++ r) = .done r' as ∧ r'.length ≤ r.length := by
  induction xs with
  | nil => exact sepLoop_total hs hpi r
  | cons x xs ih =>
    have hE := hx x (by simp)
    have hl : 0 < x.length := List.length_pos_iff.2 (hne x hE)
    have key : ∃ i3 a, p (x ++ (xs.flatMap (c :: ·) ++ r)) = .done i3 a ∧
        i3.length ≤ (xs.flatMap (c :: ·) ++ r).length ∧
        ∃ r' as, sepLoop sep p i3 = .done r' as ∧ r'.length ≤ r.length := by
      cases xs with
      | nil =>
        obtain ⟨r1, a, h1, h2⟩ := hm x r hE
        obtain ⟨r2, as, h3, h4⟩ := sepLoop_total hs hpi r1
        exact ⟨r1, a, by simpa using h1, by simpa using h2, r2, as, h3, by omega⟩
      | cons y ys =>
        obtain ⟨a, ha⟩ := hp x ((y :: ys).flatMap (c :: ·) ++ r) hE (by simpa using hst _)
        exact ⟨_, a, ha, Nat.le_refl _, ih (fun x hx' => hx x (by simp [hx']))⟩
    obtain ⟨i3, a, h1, h2, r', as, h3, h4⟩ := key
    obtain ⟨b, hb⟩ := hsep (x ++ (xs.flatMap (c :: ·) ++ r))
    refine ⟨r', a :: as, ?_, h4⟩
    rw [sepLoop]
    simp only [List.flatMap_cons, List.cons_append, List.append_assoc]
    rw [hb]
    simp only [h1, h3]
    rw [dif_pos (by simp), dif_pos (by simp only [List.length_append] at h2 ⊢; omega)]

theorem sepNonempty_munch {sep : Parser β} {p : Parser α} {c : UInt8} {E St : Bytes → Prop}
    (hs : ∀ i, sep i ≠ .incomplete) (hpi : ∀ i, p i ≠ .incomplete)
    (hsep : ∀ i, ∃ b, sep (c :: i) = .done i b)
    (hne : ∀ x, E x → x ≠ [])
    (hp : ∀ x r, E x → St r → ∃ a, p (x ++ r) = .done r a)
    (hm : ∀ x r, E x → ∃ r' a, p (x ++ r) = .done r' a ∧ r'.length ≤ r.length)
    (hst : ∀ i, St (c :: i)) (r : Bytes)
    (xs : List Bytes) (hx : ∀ x ∈ xs, E x) (hxs : xs ≠ []) :
    ∃ r' as, separatedNonemptyList sep p (joinWith c xs ++ r) = .done r' as ∧ r'.length ≤ r.length := by
  obtain ⟨x, xs, rfl⟩ := List.exists_cons_of_ne_nil hxs
  have hE := hx x (by simp)
  have hl : 0 < x.length := List.length_pos_iff.2 (hne x hE)
  have key : ∃ i3 a, p (x ++ (xs.flatMap (c :: ·) ++ r)) = .done i3 a ∧
      i3.length ≤ (xs.flatMap (c :: ·) ++ r).length ∧
      ∃ r' as, sepLoop sep p i3 = .done r' as ∧ r'.length ≤ r.length := by
    cases xs with
    | nil =>
      obtain ⟨r1, a, h1, h2⟩ := hm x r hE
      obtain ⟨r2, as, h3, h4⟩ := sepLoop_total hs hpi r1
      exact ⟨r1, a, by simpa using h1, by simpa using h2, r2, as, h3, by omega⟩
    | cons y ys =>
      obtain ⟨a, ha⟩ := hp x ((y :: ys).flatMap (c :: ·) ++ r) hE (by simpa using hst _)
      exact ⟨_, a, ha, Nat.le_refl _, sepLoop_munch hs hpi hsep hne hp hm hst r (y :: ys) (fun x hx' => hx x (by simp [hx']))⟩
  obtain ⟨i3, a, h1, h2, r', as, h3, h4⟩ := key
  refine ⟨r', a :: as, ?_, h4⟩
  unfold separatedNonemptyList
  rw [joinWith_cons, List.append_assoc, h1]
  simp only [h3]
  rw [if_pos (by simp only [List.length_append] at h2 ⊢; omega)]

theorem dropWhile_append_le (f : UInt8 → Bool) {x r : Bytes} (h : ∀ c ∈ x, f c = true) :
    ((x ++ r).dropWhile f).length ≤ r.length := by
  induction x with
  | nil =>
    exact (List.dropWhile_sublist f).length_le
  | cons c x ih =>
    rw [List.cons_append, List.dropWhile_cons_of_pos (h c (by simp))]
    exact ih (fun c hc => h c (by simp [hc]))

theorem isA_munch {s x r : Bytes} (hx : ∀ c ∈ x, c ∈ s) (hne : x ≠ []) :
    ∃ r' a, isA s (x ++ r) = .done r' a ∧ r'.length ≤ r.length := by
  obtain ⟨c, t, rfl⟩ := List.exists_cons_of_ne_nil hne
  refine ⟨_, _, if_pos (by simpa using hx c (by simp)), ?_⟩
  exact dropWhile_append_le (s.contains) (x := c :: t) (fun d hd => by simpa using hx d hd)

theorem labelP_munch (x r : Bytes) (hx : IsLabel x) : ∃ r' a, labelP (x ++ r) = .done r' a ∧ r'.length ≤ r.length := by
  obtain ⟨c, t, rfl, hc, ht⟩ := hx
  have ht' : ∀ y ∈ t, y ∈ alnumdashC := fun y hy => (mem_alnumdash y).2 (ht y hy)
  have h1 : oneOf alnumC (c :: t ++ r) = .done (t ++ r) c := oneOf_done.2 ⟨rfl, (mem_alnum c).2 hc⟩
  have h2 : ∃ r' a, opt (isA alnumdashC) (t ++ r) = .done r' a ∧ r'.length ≤ r.length := by
    cases h : isA alnumdashC (t ++ r) with
    | done r' a =>
      refine ⟨r', some a, by simp [opt, h], ?_⟩
      by_cases hn : t = []
      · subst hn
        obtain ⟨e, _⟩ := isA_done.1 h
        have := congrArg List.length e
        simp at this; omega
      · obtain ⟨r2, a2, h2, hl⟩ := isA_munch (r := r) ht' hn
        rw [h] at h2; cases h2; exact hl
    | incomplete => unfold isA at h; split at h <;> (try split at h) <;> cases h
    | error =>
      by_cases hn : t = []
      · subst hn; exact ⟨r, none, by simp [opt]; simp at h; simp [h], Nat.le_refl _⟩
      · obtain ⟨r2, a2, h2, hl⟩ := isA_munch (r := r) ht' hn
        rw [h] at h2; cases h2
  obtain ⟨r', a, h2, hl⟩ := h2
  exact ⟨r', a, preceded_done.2 ⟨_, c, h1, h2⟩, hl⟩

theorem hostListP_munch {x : Bytes} (r : Bytes) (hx : IsHost x) :
    ∃ r' as, separatedNonemptyListComplete (tag b!".") labelP (x ++ r) = .done r' as ∧ r'.length ≤ r.length := by
  obtain ⟨xs, h1, h2, rfl⟩ := hx
  apply sepNonempty_munch (E := IsLabel) (St := StopAt alnumdashC) (fun _ => complete_ne_incomplete)
    (fun _ => complete_ne_incomplete) tagByte_complete
  · rintro x ⟨c, t, rfl, _⟩; simp
  · intro x r hx hr
    obtain ⟨a, ha⟩ := labelP_complete x r hx hr
    exact ⟨a, complete_done.2 ha⟩
  · intro x r hx
    obtain ⟨r', a, ha, hl⟩ := labelP_munch x r hx
    exact ⟨r', a, complete_done.2 ha, hl⟩
  · intro i; exact stopAt_cons.2 (by decide +kernel)
  · exact h2
  · exact h1

theorem hostAlt_bracket (i : Bytes) : mapP (recognize (separatedNonemptyListComplete (tag b!".") labelP))
      (Domain.host (L := L)) (91 :: i) = .error := by
  rw [mapP_error, recognize_error]
  exact hostListP_error_of_head (by decide +kernel)

theorem hostnameP_munch (hL : IpLaws L) {x : Bytes} {d : Domain L} (r : Bytes) (h : DomainText L x d) :
    ∃ r' d', (hostnameP (x ++ r) : IRes (Domain L)) = .done r' d' ∧ r'.length ≤ r.length := by
  cases h with
  | host h hx =>
    obtain ⟨r', as, h1, hl⟩ := hostListP_munch r hx
    exact ⟨r', _, alt_done.2 (.inl (mapP_done.2 ⟨_, recognize_done.2 ⟨as, h1, rfl⟩, rfl⟩)), hl⟩
  | v4 y a hy ha =>
    refine ⟨r, .v4 a, alt_done.2 (.inr ⟨hostAlt_bracket _, alt_done.2 (.inr ⟨?_, ?_⟩)⟩), Nat.le_refl _⟩
    · rw [mapP_error]
      have : preceded (tag b!"[IPv6:") (takeUntilAndConsume b!"]") (b!"[" ++ y ++ b!"]" ++ r) = .error := by
        apply bind_of_error
        cases y with
        | nil => simp [tag, tagBy, compareBy]
        | cons c y =>
          have : c ≠ 73 := by
            rintro rfl
            have := hL.chars4 _ a ha 73 (by simp)
            revert this; decide
          simp [tag, tagBy, compareBy, this]
      exact bind_of_error this
    · refine mapP_done.2 ⟨a, mapRes_done.2 ⟨y, preceded_done.2 ⟨y ++ b!"]" ++ r, b!"[", ?_, ?_⟩, ha⟩, rfl⟩
      · exact tag_done.2 ⟨by simp, rfl⟩
      · exact takeUntilAndConsume_byte.2 ⟨hy, by simp⟩
  | v6 y a hy ha =>
    refine ⟨r, .v6 a, alt_done.2 (.inr ⟨hostAlt_bracket _, alt_done.2 (.inl ?_)⟩), Nat.le_refl _⟩
    refine mapP_done.2 ⟨a, mapRes_done.2 ⟨y, preceded_done.2 ⟨y ++ b!"]" ++ r, b!"[IPv6:", ?_, ?_⟩, ha⟩, rfl⟩
    · exact tag_done.2 ⟨by simp, rfl⟩
    · exact takeUntilAndConsume_byte.2 ⟨hy, by simp⟩

/-! ### When the domain parser asks for more -/

theorem hostListP_ne_incomplete (i : Bytes) :
    separatedNonemptyListComplete (tag b!".") labelP i ≠ .incomplete := by
  unfold separatedNonemptyListComplete separatedNonemptyList
  cases h : complete labelP i with
  | incomplete => exact absurd h complete_ne_incomplete
  | error => simp
  | done r a =>
    simp only
    split
    · obtain ⟨r', as, h, _⟩ := sepLoop_total (sep := complete (tag b!".")) (p := complete labelP)
        (fun _ => complete_ne_incomplete) (fun _ => complete_ne_incomplete) r
      rw [h]; simp
    · simp

theorem compareEq_incomplete {i t : Bytes} :
    compareBy (· == ·) i t = .incomplete ↔ i <+: t ∧ i ≠ t := by
  induction t generalizing i with
  | nil => simp [compareBy]
  | cons c t ih =>
    cases i with
    | nil => simp [compareBy]
    | cons d i =>
      simp only [compareBy]
      by_cases h : d = c
      · subst h; simp [ih]
      · simp [h]

theorem tag_incomplete {i t : Bytes} : tag t i = .incomplete ↔ i <+: t ∧ i ≠ t := by
  rw [← compareEq_incomplete]
  show (match compareBy (· == ·) i t with
    | .ok r => IRes.done r (i.take t.length) | .error => .error | .incomplete => .incomplete) = _ ↔ _
  cases compareBy (· == ·) i t <;> simp

theorem bind_incomplete {p : Parser α} {f : α → Parser β} {i : Bytes} :
    Parser.bind p f i = .incomplete ↔ p i = .incomplete ∨ ∃ r a, p i = .done r a ∧ f a r = .incomplete := by
  unfold Parser.bind
  cases p i with
  | done r a =>
    constructor
    · exact fun h => .inr ⟨r, a, rfl, h⟩
    · rintro (h | ⟨r', a', h, h'⟩)
      · cases h
      · cases h; exact h'
  | error => simp
  | incomplete => simp

theorem mapP_incomplete {p : Parser α} {f : α → β} {i : Bytes} : mapP p f i = .incomplete ↔ p i = .incomplete := by
  unfold mapP
  rw [bind_incomplete]
  simp [Parser.pure]

theorem mapRes_incomplete {p : Parser α} {f : α → Option β} {i : Bytes} :
    mapRes p f i = .incomplete ↔ p i = .incomplete := by
  unfold mapRes
  rw [bind_incomplete]
  constructor
  · rintro (h | ⟨r, a, _, h⟩)
    · exact h
    · cases hf : f a <;> simp [hf, Parser.pure, Parser.fail] at h
  · exact .inl

theorem tuc_incomplete {t : Bytes} {i : Bytes} : takeUntilAndConsume t i = .incomplete ↔ i.length < t.length := by
  unfold takeUntilAndConsume
  split
  · simp [*]
  · simp only [*, iff_false]
    cases findSubstring t i <;> simp

theorem alt_incomplete {p q : Parser α} {i : Bytes} :
    alt p q i = .incomplete ↔ p i = .incomplete ∨ (p i = .error ∧ q i = .incomplete) := by
  unfold alt
  cases p i <;> simp

theorem recognize_incomplete {p : Parser α} {i : Bytes} : recognize p i = .incomplete ↔ p i = .incomplete := by
  unfold recognize
  cases p i <;> simp

theorem literal_incomplete {γ : Type} {t : Bytes} {f : Bytes → Option α} {g : α → γ} {i : Bytes} :
    mapP (mapRes (preceded (tag t) (takeUntilAndConsume b!"]")) f) g i = .incomplete ↔ i <+: t := by
  rw [mapP_incomplete, mapRes_incomplete]
  unfold preceded
  rw [bind_incomplete, tag_incomplete]
  constructor
  · rintro (h | ⟨r, a, h1, h2⟩)
    · exact h.1
    · rw [tuc_incomplete] at h2
      obtain ⟨rfl, _⟩ := tag_done.1 h1
      have : r = [] := by cases r with | nil => rfl | cons c r => simp at h2
      subst this; simp
  · intro h
    by_cases e : i = t
    · refine .inr ⟨[], t, ?_, by decide +kernel⟩
      exact tag_done.2 ⟨by simp [e], rfl⟩
    · exact .inl ⟨h, e⟩

theorem hostnameP_incomplete {b : Bytes} :
    (hostnameP b : IRes (Domain L)) = .incomplete ↔ b <+: b!"[IPv6:" := by
  unfold hostnameP
  rw [alt_incomplete, mapP_incomplete, recognize_incomplete, alt_incomplete, literal_incomplete, literal_incomplete]
  constructor
  · rintro (h | ⟨_, h | ⟨h1, h⟩⟩)
    · exact absurd h (hostListP_ne_incomplete b)
    · exact h
    · exact List.IsPrefix.trans h (by decide)
  · intro h
    refine .inr ⟨?_, .inl h⟩
    rw [mapP_error, recognize_error]
    cases b with
    | nil => decide +kernel
    | cons c b =>
      obtain ⟨rfl, _⟩ := List.cons_prefix_cons.1 h
      exact hostListP_error_of_head (by decide +kernel)

/-! ### `Domain::parse` -/

theorem prefix_of_append {x r b : Bytes} (e : b = x ++ r) : x <+: b := ⟨r, e.symm⟩

/-- If a parser is sound for the texts `P` and takes at least as much as any text in front of it, then what it takes is
the longest text in front. -/
theorem munch_longest {p : Parser α} {P : Bytes → Prop} {b : Bytes}
    (hs : ∀ r a, p b = .done r a → ∃ x, P x ∧ b = x ++ r)
    (hm : ∀ x r, b = x ++ r → P x → ∃ r' a, p b = .done r' a ∧ r'.length ≤ r.length) (n : Nat) :
    (∃ r a, p b = .done r a ∧ r.length = n) ↔ ∃ x rest, b = x ++ rest ∧ rest.length = n ∧ LongestPrefix P x b := by
  constructor
  · rintro ⟨r, a, h, hn⟩
    obtain ⟨x, hx, e⟩ := hs r a h
    refine ⟨x, r, e, hn, prefix_of_append e, hx, ?_⟩
    rintro y ⟨r', e'⟩ hy
    obtain ⟨r2, a2, h2, hl⟩ := hm y r' e'.symm hy
    rw [h] at h2; cases h2
    have h1 := congrArg List.length e
    have h2 := congrArg List.length e'
    simp at h1 h2; omega
  · rintro ⟨x, r, e, hn, _, hx, hlong⟩
    obtain ⟨r', a, h, hl⟩ := hm x r e hx
    obtain ⟨y, hy, e'⟩ := hs r' a h
    have := hlong y (prefix_of_append e') hy
    have h1 := congrArg List.length e
    have h2 := congrArg List.length e'
    simp at h1 h2
    exact ⟨r', a, h, by omega⟩

theorem nomToResult_parseError {x : IRes α} : nomToResult x = .error .parseError ↔ x = .error := by
  cases x with
  | done r b => simp only [nomToResult]; split <;> simp
  | error => simp [nomToResult]
  | incomplete => simp [nomToResult]

theorem nomToResult_incomplete {x : IRes α} : nomToResult x = .error .incompleteString ↔ x = .incomplete := by
  cases x with
  | done r b => simp only [nomToResult]; split <;> simp
  | error => simp [nomToResult]
  | incomplete => simp [nomToResult]

theorem hostnameP_longest (hL : IpLaws L) (b : Bytes) (n : Nat) :
    (∃ r d, (hostnameP b : IRes (Domain L)) = .done r d ∧ r.length = n) ↔
      ∃ x rest, b = x ++ rest ∧ rest.length = n ∧ LongestPrefix (fun y => ∃ d : Domain L, DomainText L y d) x b := by
  refine munch_longest (fun r d h => ?_) (fun x r e hx => ?_) n
  · obtain ⟨x, hx, e⟩ := hostnameP_sound h
    exact ⟨x, ⟨d, hx⟩, e⟩
  · obtain ⟨d, hd⟩ := hx
    rw [e]; exact hostnameP_munch hL r hd

/-- C105. `Domain::parse` answers `DidNotConsumeEverything(n)` exactly when the longest prefix of the input that is a
domain leaves `n > 0` bytes over. -/
theorem c105_domain_leftover (hL : IpLaws L) (b : Bytes) (n : Nat) :
    (Domain.parse b : Except ParseErr (Domain L)) = .error (.didNotConsumeEverything n) ↔
      ∃ x rest, b = x ++ rest ∧ rest.length = n ∧ 0 < n ∧
        LongestPrefix (fun y => ∃ d : Domain L, DomainText L y d) x b := by
  unfold Domain.parse
  rw [nomToResult_more]
  constructor
  · rintro ⟨r, d, h, hn, h0⟩
    obtain ⟨x, rest, e, hn, hx⟩ := (hostnameP_longest hL b n).1 ⟨r, d, h, hn⟩
    exact ⟨x, rest, e, hn, h0, hx⟩
  · rintro ⟨x, rest, e, hn, h0, hx⟩
    obtain ⟨r, d, h, hn⟩ := (hostnameP_longest hL b n).2 ⟨x, rest, e, hn, hx⟩
    exact ⟨r, d, h, hn, h0⟩

/-- C105. `Domain::parse` answers `IncompleteString` exactly on the beginnings of `[IPv6:`, the empty input and the whole
of it included. -/
theorem c105_domain_incomplete (b : Bytes) :
    (Domain.parse b : Except ParseErr (Domain L)) = .error .incompleteString ↔ b <+: b!"[IPv6:" := by
  unfold Domain.parse
  rw [nomToResult_incomplete, hostnameP_incomplete]

/-- C105. `Domain::parse` answers `ParseError` exactly when no prefix of the input is a domain and the input is not a
beginning of `[IPv6:`. -/
theorem c105_domain_error (hL : IpLaws L) (b : Bytes) :
    (Domain.parse b : Except ParseErr (Domain L)) = .error .parseError ↔
      (¬ ∃ y, y <+: b ∧ ∃ d : Domain L, DomainText L y d) ∧ ¬ b <+: b!"[IPv6:" := by
  unfold Domain.parse
  rw [nomToResult_parseError, ← hostnameP_incomplete (L := L)]
  constructor
  · intro h
    refine ⟨?_, by rw [h]; simp⟩
    rintro ⟨y, ⟨r, rfl⟩, d, hd⟩
    obtain ⟨r', d', h', _⟩ := hostnameP_munch hL r hd
    rw [h] at h'; cases h'
  · rintro ⟨h1, h2⟩
    cases h : (hostnameP b : IRes (Domain L)) with
    | error => rfl
    | incomplete => exact absurd h h2
    | done r d =>
      obtain ⟨x, hx, e⟩ := hostnameP_sound h
      exact absurd ⟨x, prefix_of_append e, d, hx⟩ h1

/-! ### Addresses -/

theorem dotStringP_munch {x : Bytes} (r : Bytes) (hx : IsDotString x) :
    ∃ r' a, dotStringP (x ++ r) = .done r' a ∧ r'.length ≤ r.length := by
  obtain ⟨xs, h1, h2, rfl⟩ := hx
  obtain ⟨r', as, h, hl⟩ := sepNonempty_munch (E := fun l => l ≠ [] ∧ ∀ c ∈ l, Atext c) (St := StopAt atextC)
    (sep := complete (tag b!".")) (p := complete (isA atextC)) (c := 46) (fun _ => complete_ne_incomplete)
    (fun _ => complete_ne_incomplete) tagByte_complete
    (fun x h => h.1)
    (fun x r hx hr => ⟨x, complete_done.2 (isA_done.2 ⟨rfl, fun c hc => (mem_atext c).2 (hx.2 c hc), hr,
      fun h => absurd h hx.1⟩)⟩)
    (fun x r hx => by
      obtain ⟨r', a, h, hl⟩ := isA_munch (r := r) (fun c hc => (mem_atext c).2 (hx.2 c hc)) hx.1
      exact ⟨r', a, complete_done.2 h, hl⟩)
    (fun i => stopAt_cons.2 (by decide +kernel)) r xs h2 h1
  exact ⟨r', _, recognize_done.2 ⟨as, h, rfl⟩, hl⟩

theorem quotedStringP_dot {x r : Bytes} (h : IsDotString x) : quotedStringP (x ++ r) = .error := by
  obtain ⟨c, t, rfl, hc⟩ := dotString_head h
  unfold quotedStringP
  rw [recognize_error]
  exact bind_of_error (tag_head_ne (by rintro rfl; revert hc; decide))

theorem localpartP_munch {x content : Bytes} (r : Bytes) (h : IsLocal x content) :
    ∃ r' a, localpartP (x ++ r) = .done r' a ∧ r'.length ≤ r.length := by
  rcases h with ⟨h, _⟩ | h
  · obtain ⟨r', a, h', hl⟩ := dotStringP_munch r h
    exact ⟨r', a, alt_done.2 (.inr ⟨quotedStringP_dot h, h'⟩), hl⟩
  · exact ⟨r, x, alt_done.2 (.inl (quotedStringP_complete h)), Nat.le_refl _⟩

theorem hostOpt_total (i : Bytes) : ∃ (r : Bytes) (d : Option (Domain L)),
    opt (complete (preceded (tag b!"@") hostnameP)) i = .done r d ∧ r.length ≤ i.length := by
  unfold opt
  cases h : complete (preceded (tag b!"@") (hostnameP : Parser (Domain L))) i with
  | incomplete => exact absurd h complete_ne_incomplete
  | error => exact ⟨i, none, rfl, Nat.le_refl _⟩
  | done r d =>
    obtain ⟨r3, b, h4, h5⟩ := preceded_done.1 (complete_done.1 h)
    obtain ⟨rfl, _⟩ := tag_done.1 h4
    obtain ⟨dt, hd, rfl⟩ := hostnameP_sound h5
    exact ⟨r, some d, rfl, by simp; omega⟩

theorem emailP_munch (hL : IpLaws L) {x : Bytes} {e : Email L} (r : Bytes) (h : EmailText L x e) :
    ∃ r' e', (emailP (x ++ r) : IRes (Email L)) = .done r' e' ∧ r'.length ≤ r.length := by
  obtain ⟨loc, host⟩ := e
  obtain ⟨⟨content, hl⟩, ⟨h1, h2⟩ | ⟨d, dt, h1, hd, h2⟩⟩ := h <;> simp at h1 hl h2 <;> subst h1 h2
  · obtain ⟨r1, a, h1, hl1⟩ := localpartP_munch r hl
    obtain ⟨r2, d, h2, hl2⟩ := hostOpt_total (L := L) r1
    refine ⟨r2, ⟨a, d⟩, ?_, by omega⟩
    unfold emailP
    simp only [bind_done, pure_done]
    exact ⟨r1, a, h1, r2, d, h2, rfl, rfl⟩
  · obtain ⟨r2, d', h2, hl2⟩ := hostnameP_munch hL r hd
    refine ⟨r2, ⟨loc, some d'⟩, ?_, hl2⟩
    unfold emailP
    simp only [bind_done, pure_done]
    refine ⟨64 :: (dt ++ r), loc, ?_, r2, some d', opt_done.2 (.inl ⟨d', rfl, complete_done.2 (preceded_done.2
      ⟨dt ++ r, [64], tag_done.2 ⟨rfl, rfl⟩, h2⟩)⟩), rfl, rfl⟩
    have := localpartP_complete (r := 64 :: (dt ++ r)) hl (stopAt_cons.2 (by decide +kernel))
    simpa using this

theorem take1_incomplete {i : Bytes} : take 1 i = .incomplete ↔ i = [] := by
  cases i <;> simp [take]

theorem verify_incomplete {p : Parser α} {f : α → Bool} {i : Bytes} :
    verify p f i = .incomplete ↔ p i = .incomplete := by
  unfold verify
  rw [bind_incomplete]
  constructor
  · rintro (h | ⟨r, a, _, h⟩)
    · exact h
    · cases hf : f a <;> simp [hf, Parser.pure, Parser.fail] at h
  · exact .inl

theorem quotedItemP_incomplete {i : Bytes} (hne : i ≠ []) : quotedItemP i = .incomplete ↔ i = [92] := by
  unfold quotedItemP preceded
  rw [alt_incomplete, bind_incomplete, tag_incomplete, verify_incomplete, take1_incomplete]
  constructor
  · rintro ((⟨h, h'⟩ | ⟨r, a, h1, h2⟩) | ⟨_, h⟩)
    · cases i with
      | nil => exact absurd rfl hne
      | cons c i =>
        obtain ⟨rfl, h⟩ := List.cons_prefix_cons.1 h
        exact absurd (by simpa using h) h'
    · rw [verify_incomplete, take1_incomplete] at h2
      obtain ⟨rfl, _⟩ := tag_done.1 h1
      simp [h2]
    · exact absurd h hne
  · rintro rfl
    exact .inl (.inr ⟨[], [92], tag_done.2 ⟨rfl, rfl⟩, by decide +kernel⟩)

theorem many0_items_end {i : Bytes} :
    (many0 quotedItemP i = .incomplete → ∃ items : List (Bytes × UInt8), (∀ e ∈ items, QItem e.1 e.2) ∧
      i = (items.map (·.1)).flatten ++ [92]) ∧
    ∀ as, many0 quotedItemP i = .done [] as → ∃ items : List (Bytes × UInt8), (∀ e ∈ items, QItem e.1 e.2) ∧
      i = (items.map (·.1)).flatten := by
  fun_induction many0 quotedItemP i with
  | case1 => exact ⟨nofun, fun _ _ => ⟨[], by simp, rfl⟩⟩
  | case2 i hi h1 => exact ⟨nofun, fun as h => by cases h; exact absurd rfl hi⟩
  | case3 i hi h1 => exact ⟨fun _ => ⟨[], by simp, by simpa using (quotedItemP_incomplete hi).1 h1⟩, nofun⟩
  | case4 i hi r1 a h1 hlt r2 as2 h2 ih =>
    refine ⟨nofun, fun as h => ?_⟩
    cases h
    obtain ⟨items, h3, rfl⟩ := ih.2 _ h2
    obtain ⟨x, c, hq, rfl, rfl⟩ := quotedItemP_sound h1
    exact ⟨(x, c) :: items, by simpa using ⟨hq, by simpa using h3⟩, by simp⟩
  | case5 => exact ⟨nofun, nofun⟩
  | case6 i hi r1 a h1 hlt h2 ih =>
    refine ⟨fun _ => ?_, nofun⟩
    obtain ⟨items, h3, rfl⟩ := ih.1 h2
    obtain ⟨x, c, hq, rfl, rfl⟩ := quotedItemP_sound h1
    exact ⟨(x, c) :: items, by simpa using ⟨hq, by simpa using h3⟩, by simp⟩
  | case7 => exact ⟨nofun, nofun⟩

theorem many0_items_open {items : List (Bytes × UInt8)} (hi : ∀ e ∈ items, QItem e.1 e.2) {i : Bytes}
    (h : i <+: (items.map (·.1)).flatten ++ [34]) (hne : i ≠ (items.map (·.1)).flatten ++ [34]) :
    many0 quotedItemP i = .incomplete ∨ ∃ as, many0 quotedItemP i = .done [] as := by
  induction items generalizing i with
  | nil =>
    cases i with
    | nil => exact .inr ⟨[], by rw [many0]; simp⟩
    | cons c i =>
      simp [List.cons_prefix_cons] at h hne
      exact absurd h.2 (hne h.1)
  | cons e items ih =>
    obtain ⟨x, c⟩ := e
    have hq : QItem x c := hi (x, c) (by simp)
    have ih' := @ih (fun e he => hi e (by simp [he]))
    have step : ∀ i', i' <+: (items.map (·.1)).flatten ++ [34] → i' ≠ (items.map (·.1)).flatten ++ [34] →
        many0 quotedItemP (x ++ i') = .incomplete ∨ ∃ as, many0 quotedItemP (x ++ i') = .done [] as := by
      intro i' h1 h2
      have hx : 0 < x.length := by cases hq <;> simp
      have hn : x ++ i' ≠ [] := by intro h; simp at h; rw [h.1] at hx; simp at hx
      rw [many0, if_neg hn, quotedItemP_complete hq]
      simp only [List.length_append]
      rw [dif_pos (by omega)]
      rcases ih' h1 h2 with h | ⟨as, h⟩
      · exact .inl (by rw [h])
      · exact .inr ⟨_, by rw [h]⟩
    cases i with
    | nil => exact .inr ⟨[], by rw [many0]; simp⟩
    | cons d i =>
      cases hq with
      | plain c hp h34 h92 =>
        simp [List.cons_prefix_cons] at h hne
        obtain ⟨rfl, h⟩ := h
        exact step i (by simpa using h) (by simpa using hne rfl)
      | escaped c hp =>
        simp [List.cons_prefix_cons] at h hne
        obtain ⟨rfl, h⟩ := h
        cases i with
        | nil =>
          refine .inl ?_
          rw [many0, if_neg (by simp), (quotedItemP_incomplete (by simp)).2 rfl]
        | cons d i =>
          simp [List.cons_prefix_cons] at h hne
          obtain ⟨rfl, h⟩ := h
          exact step i (by simpa using h) (by simpa using hne rfl)

theorem quotedStringP_incomplete {b : Bytes} : quotedStringP b = .incomplete ↔ UnclosedQuote b := by
  have hin : ∀ j : Bytes, quotedStringP (34 :: j) = .incomplete ↔
      (many0 quotedItemP j = .incomplete ∨ ∃ as, many0 quotedItemP j = .done [] as) := by
    intro j
    have h34 : tag b!"\"" (34 :: j) = .done j [34] := tag_done.2 ⟨rfl, rfl⟩
    unfold quotedStringP
    rw [recognize_incomplete]
    show Parser.bind _ _ _ = _ ↔ _
    rw [bind_incomplete]
    constructor
    · rintro (h | ⟨r, a, h, h'⟩)
      · rw [h34] at h; cases h
      · rw [h34] at h; cases h
        replace h' := bind_incomplete.1 h'
        rcases h' with h' | ⟨r, as, h1, h2⟩
        · exact .inl h'
        · refine .inr ⟨as, ?_⟩
          rcases bind_incomplete.1 h2 with h2 | ⟨_, _, _, h2⟩
          · rw [tag_incomplete] at h2
            cases r with
            | nil => exact h1
            | cons c r =>
              obtain ⟨rfl, h⟩ := List.cons_prefix_cons.1 h2.1
              exact absurd (by simpa using h) h2.2
          · cases h2
    · intro h
      refine .inr ⟨_, _, h34, ?_⟩
      refine bind_incomplete.2 ?_
      rcases h with h | ⟨as, h⟩
      · exact .inl h
      · exact .inr ⟨[], as, h, bind_incomplete.2 (.inl (tag_incomplete.2 (by simp)))⟩
  constructor
  · intro h
    cases b with
    | nil => exact ⟨[34, 34], [], ⟨[], by simp, rfl, rfl⟩, by simp, by simp⟩
    | cons c j =>
      by_cases hc : c = 34
      · subst hc
        rcases (hin j).1 h with h | ⟨as, h⟩
        · obtain ⟨items, hi, rfl⟩ := many0_items_end.1 h
          refine ⟨[34] ++ ((items ++ [([92, 97], 97)]).map (·.1 : Bytes × UInt8 → Bytes)).flatten ++ [34], _, ⟨items ++ [([92, 97], 97)], ?_, rfl, rfl⟩, ?_, ?_⟩
          · intro e he
            rcases List.mem_append.1 he with he | he
            · exact hi e he
            · simp at he; subst he; exact .escaped 97 (by decide)
          · exact ⟨[97, 34], by simp⟩
          · intro h
            have := congrArg List.length h
            simp at this
        · obtain ⟨items, hi, rfl⟩ := many0_items_end.2 as h
          refine ⟨[34] ++ (items.map (·.1)).flatten ++ [34], _, ⟨items, hi, rfl, rfl⟩, ⟨[34], by simp⟩, ?_⟩
          intro h
          have := congrArg List.length h
          simp at this
      · have : quotedStringP (c :: j) = .error := by
          unfold quotedStringP
          rw [recognize_error]
          exact bind_of_error (tag_head_ne hc)
        rw [this] at h; cases h
  · rintro ⟨q, content, ⟨items, hi, rfl, _⟩, h, hne⟩
    cases b with
    | nil => decide +kernel
    | cons c j =>
      simp [List.cons_prefix_cons] at h hne
      obtain ⟨rfl, h⟩ := h
      exact (hin j).2 (many0_items_open hi (by simpa using h) (by simpa using hne rfl))

theorem dotStringP_ne_incomplete (i : Bytes) : dotStringP i ≠ .incomplete := by
  unfold dotStringP
  rw [Ne, recognize_incomplete]
  unfold separatedNonemptyListComplete separatedNonemptyList
  cases h : complete (isA atextC) i with
  | incomplete => exact absurd h complete_ne_incomplete
  | error => simp
  | done r a =>
    simp only
    split
    · obtain ⟨r', as, h, _⟩ := sepLoop_total (sep := complete (tag b!".")) (p := complete (isA atextC))
        (fun _ => complete_ne_incomplete) (fun _ => complete_ne_incomplete) r
      rw [h]; simp
    · simp

theorem emailP_incomplete {b : Bytes} : (emailP b : IRes (Email L)) = .incomplete ↔ UnclosedQuote b := by
  rw [← quotedStringP_incomplete]
  unfold emailP
  show Parser.bind _ _ _ = _ ↔ _
  rw [bind_incomplete]
  constructor
  · rintro (h | ⟨r, a, _, h⟩)
    · rcases alt_incomplete.1 h with h | ⟨_, h⟩
      · exact h
      · exact absurd h (dotStringP_ne_incomplete b)
    · rcases bind_incomplete.1 h with h | ⟨_, _, _, h⟩
      · obtain ⟨r2, d, h2, _⟩ := hostOpt_total (L := L) r
        rw [h2] at h; cases h
      · cases h
  · intro h
    exact .inl (alt_incomplete.2 (.inl h))

theorem emailP_longest (hL : IpLaws L) (b : Bytes) (n : Nat) :
    (∃ r d, (emailP b : IRes (Email L)) = .done r d ∧ r.length = n) ↔
      ∃ x rest, b = x ++ rest ∧ rest.length = n ∧ LongestPrefix (fun y => ∃ e : Email L, EmailText L y e) x b := by
  refine munch_longest (fun r d h => ?_) (fun x r e hx => ?_) n
  · obtain ⟨x, hx, e⟩ := emailP_sound h
    exact ⟨x, ⟨d, hx⟩, e⟩
  · obtain ⟨d, hd⟩ := hx
    rw [e]; exact emailP_munch hL r hd

/-- C105. `Email::parse` answers `DidNotConsumeEverything(n)` exactly when the longest prefix of the input that is an
address leaves `n > 0` bytes over. -/
theorem c105_email_leftover (hL : IpLaws L) (b : Bytes) (n : Nat) :
    (Email.parse b : Except ParseErr (Email L)) = .error (.didNotConsumeEverything n) ↔
      ∃ x rest, b = x ++ rest ∧ rest.length = n ∧ 0 < n ∧
        LongestPrefix (fun y => ∃ e : Email L, EmailText L y e) x b := by
  unfold Email.parse
  rw [nomToResult_more]
  constructor
  · rintro ⟨r, d, h, hn, h0⟩
    obtain ⟨x, rest, e, hn, hx⟩ := (emailP_longest hL b n).1 ⟨r, d, h, hn⟩
    exact ⟨x, rest, e, hn, h0, hx⟩
  · rintro ⟨x, rest, e, hn, h0, hx⟩
    obtain ⟨r, d, h, hn⟩ := (emailP_longest hL b n).2 ⟨x, rest, e, hn, hx⟩
    exact ⟨r, d, h, hn, h0⟩

/-- C105. `Email::parse` answers `IncompleteString` exactly when the input is the beginning of a quoted string that is not
closed yet (the empty input is one). -/
theorem c105_email_incomplete (b : Bytes) :
    (Email.parse b : Except ParseErr (Email L)) = .error .incompleteString ↔ UnclosedQuote b := by
  unfold Email.parse
  rw [nomToResult_incomplete, emailP_incomplete]

/-- C105. `Email::parse` answers `ParseError` exactly when no prefix of the input is an address and the input is not an
unclosed quoted string. -/
theorem c105_email_error (hL : IpLaws L) (b : Bytes) :
    (Email.parse b : Except ParseErr (Email L)) = .error .parseError ↔
      (¬ ∃ y, y <+: b ∧ ∃ e : Email L, EmailText L y e) ∧ ¬ UnclosedQuote b := by
  unfold Email.parse
  rw [nomToResult_parseError, ← emailP_incomplete (L := L)]
  constructor
  · intro h
    refine ⟨?_, by rw [h]; simp⟩
    rintro ⟨y, ⟨r, rfl⟩, d, hd⟩
    obtain ⟨r', d', h', _⟩ := emailP_munch hL r hd
    rw [h] at h'; cases h'
  · rintro ⟨h1, h2⟩
    cases h : (emailP b : IRes (Email L)) with
    | error => rfl
    | incomplete => exact absurd h h2
    | done r d =>
      obtain ⟨x, hx, e⟩ := emailP_sound h
      exact absurd ⟨x, prefix_of_append e, d, hx⟩ h1

/-- C105, non-vacuity: all three errors of both parsers occur, and a dot or an `@` with nothing usable behind it is left
over. -/
theorem c105_example :
    (∀ e ∈ [(b!"foo.-bar", 5), (b!"foo.", 1), (b!"a b", 2), (b!"[127.0.0.1]x", 1)],
      (Domain.parse e.1 : Except ParseErr (Domain exampleIp)) = .error (.didNotConsumeEverything e.2)) ∧
    (∀ b ∈ [[], b!"[", b!"[IPv", b!"[IPv6:"],
      (Domain.parse b : Except ParseErr (Domain exampleIp)) = .error .incompleteString) ∧
    (∀ b ∈ [b!"-a", b!".", b!"[127.0.0.1", b!"[IPv6:x"],
      (Domain.parse b : Except ParseErr (Domain exampleIp)) = .error .parseError) ∧
    (∀ e ∈ [(b!"a@", 1), (b!"a@-", 2), (b!"a@b.", 1), (b!"a..b", 3), (b!"\"a\"b", 1), (b!"\"a\"@b c", 2)],
      (Email.parse e.1 : Except ParseErr (Email exampleIp)) = .error (.didNotConsumeEverything e.2)) ∧
    (∀ b ∈ [[], b!"\"", b!"\"a b\\", b!"\"a@b"],
      (Email.parse b : Except ParseErr (Email exampleIp)) = .error .incompleteString) ∧
    ∀ b ∈ [b!"@b", b!".a", b!"\"a\t\"", b!"<a@b>"],
      (Email.parse b : Except ParseErr (Email exampleIp)) = .error .parseError := by
  refine ⟨fun b hb => errorOf_some ?_, fun b hb => errorOf_some ?_, fun b hb => errorOf_some ?_,
    fun b hb => errorOf_some ?_, fun b hb => errorOf_some ?_, fun b hb => errorOf_some ?_⟩ <;>
  · revert b; decide +kernel

end Verif
