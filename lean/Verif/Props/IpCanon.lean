import Verif.Spec.IpCanon
import Verif.Props.Ip
/-
C95: IP addresses are written in their canonical form.
-/
namespace Verif
open Spec
namespace Ip

private theorem showDigit_low : ∀ n < 16, ((48 ≤ showDigit n ∧ showDigit n ≤ 57) ∨ (97 ≤ showDigit n ∧ showDigit n ≤ 102)) ∧
    digitValue (showDigit n) = n ∧ (showDigit n = 48 → n = 0) := by decide +kernel

theorem showNumber_head {radix : Nat} (h2 : 2 ≤ radix) (h16 : radix ≤ 16) (n : Nat) (hn : n ≠ 0) :
    (showNumber radix n).head? ≠ some 48 := by
  induction n using Nat.strongRecOn with
  | ind n ih =>
    rw [showNumber]
    split
    · rename_i h
      simp
      intro e
      exact hn ((showDigit_low n (by omega)).2.2 e)
    · rename_i h
      have hq : n / radix < n := Nat.div_lt_self (by omega) (by omega)
      have hne : n / radix ≠ 0 := by
        have := Nat.div_pos (a := n) (b := radix) (by omega) (by omega)
        omega
      have := ih _ hq hne
      have h0 := (showNumber_spec (D := fun _ => True) h2 (fun n hn => ⟨trivial, (showDigit_low n (by omega)).2.1⟩)
        (n / radix)).1
      cases e : showNumber radix (n / radix) with
      | nil => exact absurd e h0
      | cons c cs => rw [e] at this; simpa using this

theorem showNumber_canon {radix : Nat} (h2 : 2 ≤ radix) (h16 : radix ≤ 16) (n : Nat) :
    Numeral radix n (showNumber radix n) := by
  obtain ⟨i1, i2, i3, _⟩ := showNumber_spec (D := fun c => ((48 ≤ c ∧ c ≤ 57) ∨ (97 ≤ c ∧ c ≤ 102)) ∧ digitValue c < radix)
    h2 (fun n hn => by obtain ⟨a, b, _⟩ := showDigit_low n (by omega); exact ⟨⟨a, by rw [b]; exact hn⟩, b⟩) n
  refine ⟨i1, fun c hc => (i2 c hc).1, fun c hc => (i2 c hc).2, i3, ?_⟩
  intro h
  by_cases hn : n = 0
  · subst hn
    rw [showNumber, dif_pos (by omega)]
    rfl
  · exact absurd h (showNumber_head h2 h16 n hn)

theorem show4_canon (v : V4) : Dotted (show4 v) v.a.toNat v.b.toNat v.c.toNat v.d.toNat :=
  ⟨_, _, _, _, rfl, showNumber_canon (by omega) (by omega) _, showNumber_canon (by omega) (by omega) _,
    showNumber_canon (by omega) (by omega) _, showNumber_canon (by omega) (by omega) _⟩

theorem show4_groups (g h : UInt16) : DottedGroups (show4 (asV4 g h)) g h := by
  have := show4_canon (asV4 g h)
  have h1 := g.toNat_lt
  have h2 := h.toNat_lt
  have e1 : (asV4 g h).a.toNat = g.toNat / 256 := by simp [asV4]; omega
  have e2 : (asV4 g h).b.toNat = g.toNat % 256 := by simp [asV4]
  have e3 : (asV4 g h).c.toNat = h.toNat / 256 := by simp [asV4]; omega
  have e4 : (asV4 g h).d.toNat = h.toNat % 256 := by simp [asV4]
  rwa [e1, e2, e3, e4] at this

theorem hexes_show (gs : List UInt16) : Hexes (fmtSubslice gs) gs := by
  match gs with
  | [] => exact .nil
  | [g] => exact .last (showNumber_canon (by omega) (by omega) _)
  | g :: g' :: gs => exact .cons (showNumber_canon (by omega) (by omega) _) (hexes_show (g' :: gs)) (by simp)

/-- The loop invariant of `find_zero_slice`: the run found is the first longest one so far, and the current one is the
longest that ends here. -/
structure Longest (done : List UInt16) (z : ZeroScan) : Prop where
  le : z.curLen ≤ z.longestLen
  best : ∀ a n, ZeroRun done a n → n ≤ z.longestLen ∧ (n = z.longestLen → z.longestAt ≤ a)
  tail : ∀ a n, ZeroRun done a n → a + n = done.length → n ≤ z.curLen

private theorem run_init {done : List UInt16} {g : UInt16} {a n : Nat} (h : ZeroRun (done ++ [g]) a n) :
    (a + n ≤ done.length ∧ ZeroRun done a n) ∨
    (a + n = done.length + 1 ∧ (n = 0 ∨ (g = 0 ∧ ∃ m, n = m + 1 ∧ ZeroRun done a m))) := by
  obtain ⟨h1, h2⟩ := h
  simp at h1
  by_cases hl : a + n ≤ done.length
  · refine .inl ⟨hl, hl, fun j k1 k2 => ?_⟩
    have := h2 j k1 k2
    rwa [List.getElem?_append_left (by omega)] at this
  · refine .inr ⟨by omega, ?_⟩
    cases n with
    | zero => exact .inl rfl
    | succ m =>
      refine .inr ⟨?_, m, rfl, by omega, fun j k1 k2 => ?_⟩
      · have := h2 (done.length) (by omega) (by omega)
        simpa using this
      · have := h2 j k1 (by omega)
        rwa [List.getElem?_append_left (by omega)] at this

theorem longest_loop {gs done : List UInt16} {i : Nat} {z : ZeroScan} (hi : i = done.length) (h : Longest done z)
    (hz : Zeros done z) : Longest (done ++ gs) (findZeroLoop gs i z) := by
  induction gs generalizing done i z with
  | nil => simpa [findZeroLoop] using h
  | cons g gs ih =>
    have hz' := zeros_loop (gs := [g]) hi hz
    have hlen := hz.longest
    rw [show done ++ g :: gs = (done ++ [g]) ++ gs by simp]
    rw [findZeroLoop] at hz' ⊢
    split
    · rename_i hg
      subst hg
      have cur : (if z.curLen = 0 then i else z.curAt) + (z.curLen + 1) = done.length + 1 := by
        split
        · omega
        · rename_i hc
          have := hz.cur hc
          omega
      rw [if_pos rfl] at hz'
      dsimp only at hz' ⊢
      generalize (if z.curLen = 0 then i else z.curAt) = at_ at cur hz' ⊢
      have tail : ∀ a n, ZeroRun (done ++ [(0 : UInt16)]) a n → a + n = (done ++ [(0 : UInt16)]).length → n ≤ z.curLen + 1 := by
        intro a n hr e
        simp at e
        rcases run_init hr with ⟨h1, _⟩ | ⟨h1, rfl | ⟨_, m, rfl, h2⟩⟩
        · omega
        · omega
        · have := h.tail a m h2 (by omega); omega
      split
      · rename_i hgt
        rw [if_pos hgt] at hz'
        refine ih (by simp [hi]) ⟨by dsimp only; omega, ?_, tail⟩ hz'
        intro a n hr
        dsimp only
        rcases run_init hr with ⟨h1, h2⟩ | ⟨h1, rfl | ⟨_, m, rfl, h2⟩⟩
        · have := (h.best a n h2).1; omega
        · omega
        · have := h.tail a m h2 (by omega); omega
      · rename_i hgt
        rw [if_neg hgt] at hz'
        refine ih (by simp [hi]) ⟨by dsimp only; omega, ?_, tail⟩ hz'
        intro a n hr
        dsimp only
        rcases run_init hr with ⟨h1, h2⟩ | ⟨h1, rfl | ⟨_, m, rfl, h2⟩⟩
        · exact h.best a n h2
        · omega
        · have := h.tail a m h2 (by omega); omega
    · rename_i hg
      rw [if_neg hg] at hz'
      refine ih (by simp [hi]) ⟨by dsimp only; omega, ?_, ?_⟩ hz'
      · intro a n hr
        dsimp only
        rcases run_init hr with ⟨h1, h2⟩ | ⟨h1, rfl | ⟨h0, _⟩⟩
        · exact h.best a n h2
        · omega
        · exact absurd h0 hg
      · intro a n hr e
        simp at e
        rcases run_init hr with ⟨h1, h2⟩ | ⟨h1, rfl | ⟨h0, _⟩⟩
        · omega
        · omega
        · exact absurd h0 hg

theorem first_longest (l : List UInt16) : FirstLongest l (findZeroSlice l).1 (findZeroSlice l).2 := by
  have hz : Zeros [] ⟨0, 0, 0, 0⟩ := ⟨by simp, by simp, by simp, by simp⟩
  have h1 := zeros_loop (gs := l) rfl hz
  have h2 := longest_loop (gs := l) rfl (z := ⟨0, 0, 0, 0⟩) (done := []) ⟨by simp, ?_, ?_⟩ hz
  · simp only [List.nil_append, List.length_nil] at h1 h2
    exact ⟨⟨h1.longest, h1.longestZero⟩, h2.best⟩
  · intro a n ⟨h, _⟩; simp at h; simp; omega
  · intro a n ⟨h, _⟩ _; simp at h; simp; omega

theorem show6_canon (l : List UInt16) (hl : l.length = 8) : Canonical6 (show6List l) l := by
  unfold show6List
  split
  · refine .run (a := 0) (n := 8) (x := []) (y := []) ?_ ?_ ?_ (by omega) .nil .nil
    · rintro g h ⟨e, hn⟩; simp at e; obtain ⟨rfl, rfl⟩ := e; simp at hn
    · rintro g h e; simp [Mapped] at e
    · refine ⟨⟨by simp, ?_⟩, ?_⟩
      · intro j _ hj
        have : ∀ j < 8, ([0, 0, 0, 0, 0, 0, 0, 0] : List UInt16)[j]? = some 0 := by decide
        exact this j (by omega)
      · rintro a n ⟨h, _⟩; simp at h; omega
  · have h1 : Numeral 16 (1 : UInt16).toNat b!"1" := by
      refine ⟨by simp, by decide +kernel, by decide +kernel, by decide +kernel, by simp⟩
    refine .run (a := 0) (n := 7) (x := []) (y := b!"1") ?_ ?_ ?_ (by omega) .nil (.last h1)
    · rintro g h ⟨e, hn⟩; simp at e; obtain ⟨rfl, rfl⟩ := e; simp at hn
    · rintro g h e; simp [Mapped] at e
    · refine ⟨⟨by simp, ?_⟩, ?_⟩
      · intro j _ hj
        have : ∀ j < 7, ([0, 0, 0, 0, 0, 0, 0, 1] : List UInt16)[j]? = some 0 := by decide
        exact this j (by omega)
      · rintro a n ⟨h, h'⟩
        simp at h
        by_cases hn : n = 0
        · omega
        · by_cases h8 : a + n = 8
          · have := h' 7 (by omega) (by omega)
            simp at this
          · omega
  · rename_i g h h0 h1
    refine .compat ⟨rfl, ?_⟩ (show4_groups g h)
    rintro ⟨rfl, rfl | rfl⟩
    · exact h0 rfl rfl
    · exact h1 rfl rfl
  · exact .mapped rfl (show4_groups _ _)
  · rename_i h1 h2 h3 h4
    have k1 : ∀ g h, ¬ Compat l g h := fun g h e => h3 g h e.1
    have k2 : ∀ g h, ¬ Mapped l g h := fun g h e => h4 g h e
    have hf := first_longest l
    generalize findZeroSlice l = z at hf
    obtain ⟨a, n⟩ := z
    dsimp only at hf ⊢
    split
    · exact .run k1 k2 hf (by omega) (hexes_show _) (hexes_show _)
    · refine .full k1 k2 ?_ (hexes_show _)
      intro a' hr
      have := (hf.2 a' 2 hr).1
      omega

/-! ### There is only one canonical text -/

private theorem low_inj : ∀ c : UInt8, ((48 ≤ c ∧ c ≤ 57) ∨ (97 ≤ c ∧ c ≤ 102)) → c = showDigit (digitValue c) ∧
    (digitValue c = 0 → c = 48) := by decide +kernel

theorem numeral_show {radix n : Nat} {x : Bytes} (h2 : 2 ≤ radix) (h : Numeral radix n x) :
    x = showNumber radix n ∧ (x.head? ≠ some 48 → n ≠ 0) := by
  obtain ⟨h1, h3, h4, h5, h6⟩ := h
  induction hk : x.length generalizing x n with
  | zero => simp at hk; exact absurd hk h1
  | succ k ih =>
    obtain ⟨xs, c, rfl⟩ : ∃ xs c, x = xs ++ [c] := ⟨x.dropLast, x.getLast h1, (List.dropLast_concat_getLast h1).symm⟩
    have hc := h3 c (by simp)
    have hv := h4 c (by simp)
    rw [numberValue, List.foldl_append, ← numberValue] at h5
    simp only [List.foldl_cons, List.foldl_nil] at h5
    by_cases hxs : xs = []
    · subst hxs
      simp [numberValue] at h5
      subst h5
      rw [showNumber, dif_pos (.inl hv)]
      simp only [List.nil_append, List.head?_cons, Option.some.injEq, ne_eq]
      exact ⟨by rw [← (low_inj c hc).1], fun hn h0 => hn ((low_inj c hc).2 h0)⟩
    · have hh : xs.head? ≠ some 48 := by
        intro e
        have := h6 (by rw [List.head?_append, e]; rfl)
        cases xs with
        | nil => exact hxs rfl
        | cons a as => simp at this
      obtain ⟨i1, i2⟩ := ih (x := xs) (n := numberValue radix xs) hxs (fun c hc => h3 c (by simp [hc]))
        (fun c hc => h4 c (by simp [hc])) rfl (fun e => absurd e hh) (by simpa using hk)
      have hpos := i2 hh
      generalize numberValue radix xs = q at *
      have hq : n / radix = q := by
        rw [← h5, Nat.mul_comm, Nat.mul_add_div (by omega), Nat.div_eq_of_lt hv]; rfl
      have hr : n % radix = digitValue c := by
        rw [← h5, Nat.mul_comm, Nat.mul_add_mod, Nat.mod_eq_of_lt hv]
      have hn : radix ≤ n := by
        have : radix * 1 ≤ radix * q := Nat.mul_le_mul_left _ (by omega)
        rw [Nat.mul_comm q] at h5
        omega
      refine ⟨?_, fun _ => by omega⟩
      rw [showNumber, dif_neg (by omega), hq, hr, ← i1, ← (low_inj c hc).1]

theorem dotted_unique {x y : Bytes} {a b c d : Nat} (h : Dotted x a b c d) (h' : Dotted y a b c d) : x = y := by
  obtain ⟨p, q, r, s, rfl, h1, h2, h3, h4⟩ := h
  obtain ⟨p', q', r', s', rfl, k1, k2, k3, k4⟩ := h'
  rw [(numeral_show (by omega) h1).1, (numeral_show (by omega) h2).1, (numeral_show (by omega) h3).1,
    (numeral_show (by omega) h4).1, (numeral_show (by omega) k1).1, (numeral_show (by omega) k2).1,
    (numeral_show (by omega) k3).1, (numeral_show (by omega) k4).1]

theorem hexes_unique {x : Bytes} {gs : List UInt16} (h : Hexes x gs) : x = fmtSubslice gs := by
  induction h with
  | nil => rfl
  | last h => exact (numeral_show (by omega) h).1
  | @cons x g y gs h _ hne ih =>
    cases gs with
    | nil => exact absurd rfl hne
    | cons g' gs => rw [ih, (numeral_show (by omega) h).1]; rfl

theorem canonical_unique {x y : Bytes} {l : List UInt16} (h : Canonical6 x l) (h' : Canonical6 y l) : x = y := by
  have two : ∀ {a n}, 2 ≤ n → FirstLongest l a n → ZeroRun l a 2 := fun h1 h2 =>
    ⟨by have := h2.1.1; omega, fun j k1 k2 => h2.1.2 j k1 (by omega)⟩
  cases h with
  | compat h1 h2 =>
    cases h' with
    | compat k1 k2 =>
      obtain ⟨e, _⟩ := h1
      obtain ⟨e', _⟩ := k1
      rw [e] at e'
      simp at e'
      obtain ⟨rfl, rfl⟩ := e'
      rw [dotted_unique h2 k2]
    | mapped k1 k2 => obtain ⟨e, _⟩ := h1; unfold Mapped at k1; rw [e] at k1; simp at k1
    | run k1 => exact absurd h1 (k1 _ _)
    | full k1 => exact absurd h1 (k1 _ _)
  | mapped h1 h2 =>
    cases h' with
    | compat k1 k2 => obtain ⟨e, _⟩ := k1; unfold Mapped at h1; rw [e] at h1; simp at h1
    | mapped k1 k2 =>
      unfold Mapped at h1 k1
      rw [h1] at k1
      simp at k1
      obtain ⟨rfl, rfl⟩ := k1
      rw [dotted_unique h2 k2]
    | run _ k1 => exact absurd h1 (k1 _ _)
    | full _ k1 => exact absurd h1 (k1 _ _)
  | @run _ a n x1 x2 h1 h2 h3 h4 h5 h6 =>
    cases h' with
    | compat k1 => exact absurd k1 (h1 _ _)
    | mapped k1 => exact absurd k1 (h2 _ _)
    | @run _ a' n' y1 y2 _ _ k3 k4 k5 k6 =>
      have e1 : n = n' := Nat.le_antisymm (k3.2 a n h3.1).1 (h3.2 a' n' k3.1).1
      subst e1
      have e2 : a = a' := Nat.le_antisymm ((h3.2 a' n k3.1).2 rfl) ((k3.2 a n h3.1).2 rfl)
      subst e2
      rw [hexes_unique h5, hexes_unique h6, hexes_unique k5, hexes_unique k6]
    | full _ _ k3 => exact absurd (two h4 h3) (k3 _)
  | full h1 h2 h3 h4 =>
    cases h' with
    | compat k1 => exact absurd k1 (h1 _ _)
    | mapped k1 => exact absurd k1 (h2 _ _)
    | run _ _ k3 k4 => exact absurd (two k4 k3) (h3 _)
    | full _ _ _ k4 => rw [hexes_unique h4, hexes_unique k4]

end Ip
open Ip (stdIp)

/-- C95. An IPv4 address is written as four decimal numbers without leading zeros. -/
theorem c95_v4 {z : Nat} (v : Ip.V4) : ∃ x, (Domain.v4 v : Domain (stdIp z)).sendTo = b!"[" ++ x ++ b!"]" ∧
    Dotted x v.a.toNat v.b.toNat v.c.toNat v.d.toNat := ⟨_, rfl, Ip.show4_canon v⟩

/-- C95. An IPv6 address is written in its canonical form: the first of the longest runs of two or more zero groups is
written `::`, no other is; numbers are in lower case without leading zeros; the IPv4 form is used for IPv4-compatible and
IPv4-mapped addresses and for no other. -/
theorem c95_v6 {z : Nat} (v : Ip.V6) : ∃ x, (Domain.v6 v : Domain (stdIp z)).sendTo = b!"[IPv6:" ++ x ++ b!"]" ∧
    Canonical6 x v.1 := ⟨_, rfl, Ip.show6_canon v.1 v.2⟩

/-- C95. An address has exactly one canonical text, so this determines what is written. -/
theorem c95_unique : (∀ x y a b c d, Dotted x a b c d → Dotted y a b c d → x = y) ∧
    (∀ x y l, Canonical6 x l → Canonical6 y l → x = y) :=
  ⟨fun _ _ _ _ _ _ => Ip.dotted_unique, fun _ _ _ => Ip.canonical_unique⟩

/-- C95. However an address literal was spelled, it is sent on in canonical form, and two spellings of one address are
sent on alike. -/
theorem c95_normalised {z : Nat} (hz : z ≤ 1) (x : Bytes) (d : Domain (stdIp z)) (h : Domain.parse (b!"[" ++ x) = .ok d) :
    (∃ y v t, x = y ++ b!"]" ∧ V4Text y v ∧ d.sendTo = b!"[" ++ t ++ b!"]" ∧ Dotted t v.a.toNat v.b.toNat v.c.toNat v.d.toNat) ∨
    (∃ y l t, x = b!"IPv6:" ++ y ++ b!"]" ∧ V6Text z y l ∧ d.sendTo = b!"[IPv6:" ++ t ++ b!"]" ∧ Canonical6 t l) := by
  rcases c70_literals hz x d h with ⟨y, v, h1, h2, rfl⟩ | ⟨y, v, h1, h2, rfl⟩
  · obtain ⟨t, h3, h4⟩ := c95_v4 (z := z) v
    exact .inl ⟨y, v, t, h1, h2, h3, h4⟩
  · obtain ⟨t, h3, h4⟩ := c95_v6 (z := z) v
    exact .inr ⟨y, v.1, t, h1, h2, h3, h4⟩

/-- C95, cases: a literal with upper case letters, leading zeros and two runs of zeros of the same length, one with a
single zero group, and an IPv4-mapped address. -/
theorem c95_example :
    ((Domain.parse b!"[IPv6:2001:0DB8:0:0:1:0:0:000A]" : Except ParseErr (Domain (stdIp 1))).toOption.map Domain.sendTo) =
      some b!"[IPv6:2001:db8::1:0:0:a]" ∧
    ((Domain.parse b!"[IPv6:1:2:3::5:6:7:8]" : Except ParseErr (Domain (stdIp 1))).toOption.map Domain.sendTo) =
      some b!"[IPv6:1:2:3:0:5:6:7:8]" ∧
    ((Domain.parse b!"[IPv6:0:0::FFFF:C000:0201]" : Except ParseErr (Domain (stdIp 1))).toOption.map Domain.sendTo) =
      some b!"[IPv6:::ffff:192.0.2.1]" ∧
    ((Domain.parse b!"[010.000.2.1]" : Except ParseErr (Domain (stdIp 1))).toOption.map Domain.sendTo) =
      some b!"[10.0.2.1]" := by decide +kernel

end Verif
