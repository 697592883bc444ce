import Verif.Props.SliceParse
/-
C89: `ByteSlice::into_utf8` succeeds exactly on the UTF-8 encodings of sequences of Unicode scalar values.
-/
namespace Verif
open Spec SliceParse

namespace Spec

/-- A Unicode scalar value: a code point that is not a surrogate. -/
def Scalar (n : Nat) : Prop := n < 0xD800 ∨ (0xE000 ≤ n ∧ n < 0x110000)

/-- UTF-8 (RFC 3629, section 3): the bits of the code point in groups of six, most significant first. -/
def utf8Of (n : Nat) : Bytes :=
  (if n < 0x80 then [n]
  else if n < 0x800 then [0xC0 + n / 64, 0x80 + n % 64]
  else if n < 0x10000 then [0xE0 + n / 64 / 64, 0x80 + n / 64 % 64, 0x80 + n % 64]
  else [0xF0 + n / 64 / 64 / 64, 0x80 + n / 64 / 64 % 64, 0x80 + n / 64 % 64, 0x80 + n % 64]).map UInt8.ofNat

end Spec

private theorem ofNat_eq {a : UInt8} {n : Nat} (h : a.toNat = n) : a = UInt8.ofNat n := by
  subst h; simp

private theorem cont_iff {b : UInt8} : cont b = true ↔ 128 ≤ b.toNat ∧ b.toNat ≤ 191 := by
  simp [cont, UInt8.le_iff_toNat_le]

theorem utf8_sound (b : Bytes) (h : utf8 b = true) : ∃ ns : List Nat, (∀ n ∈ ns, Scalar n) ∧ b = ns.flatMap utf8Of := by
  have cons : ∀ (n : Nat) (r : Bytes), Scalar n → (∃ ns : List Nat, (∀ n ∈ ns, Scalar n) ∧ r = ns.flatMap utf8Of) →
      ∃ ns : List Nat, (∀ n ∈ ns, Scalar n) ∧ utf8Of n ++ r = ns.flatMap utf8Of := by
    rintro n r hn ⟨ns, h1, rfl⟩
    exact ⟨n :: ns, by simpa using ⟨hn, h1⟩, by simp⟩
  fun_induction utf8 b with
  | case1 => exact ⟨[], by simp⟩
  | case2 a r ha ih =>
    have h1 : a.toNat < 128 := by simpa [UInt8.lt_iff_toNat_lt] using ha
    have := cons a.toNat r (by unfold Scalar; omega) (ih h)
    simpa [utf8Of, h1] using this
  | case3 a ha b r1 hc ih =>
    simp only [Bool.and_eq_true, cont_iff, decide_eq_true_eq, UInt8.le_iff_toNat_le] at hc
    simp at hc
    have := cons ((a.toNat - 0xC0) * 64 + (b.toNat - 0x80)) r1 (by unfold Scalar; omega) (ih h)
    have e : utf8Of ((a.toNat - 0xC0) * 64 + (b.toNat - 0x80)) = [a, b] := by
      unfold utf8Of
      rw [if_neg (by omega), if_pos (by omega)]
      simp only [List.map_cons, List.map_nil]
      rw [← ofNat_eq (a := a) (by omega), ← ofNat_eq (a := b) (by omega)]
    rw [e] at this
    exact this
  | case4 a ha b hn1 c r2 hc ih =>
    simp only [Bool.and_eq_true, Bool.or_eq_true, cont_iff, decide_eq_true_eq, UInt8.le_iff_toNat_le, beq_iff_eq,
      ← UInt8.toNat_inj] at hc
    simp at hc
    have := cons ((a.toNat - 0xE0) * 4096 + (b.toNat - 0x80) * 64 + (c.toNat - 0x80)) r2 (by unfold Scalar; omega) (ih h)
    have e : utf8Of ((a.toNat - 0xE0) * 4096 + (b.toNat - 0x80) * 64 + (c.toNat - 0x80)) = [a, b, c] := by
      unfold utf8Of
      rw [if_neg (by omega), if_neg (by omega), if_pos (by omega)]
      simp only [List.map_cons, List.map_nil]
      rw [← ofNat_eq (a := a) (by omega), ← ofNat_eq (a := b) (by omega), ← ofNat_eq (a := c) (by omega)]
    rw [e] at this
    exact this
  | case5 a ha b hn1 c hn2 d r3 hc ih =>
    simp only [Bool.and_eq_true, Bool.or_eq_true, cont_iff, decide_eq_true_eq, UInt8.le_iff_toNat_le, beq_iff_eq,
      ← UInt8.toNat_inj] at hc
    simp at hc
    have := cons ((a.toNat - 0xF0) * 262144 + (b.toNat - 0x80) * 4096 + (c.toNat - 0x80) * 64 + (d.toNat - 0x80)) r3
      (by unfold Scalar; omega) (ih h)
    have e : utf8Of ((a.toNat - 0xF0) * 262144 + (b.toNat - 0x80) * 4096 + (c.toNat - 0x80) * 64 + (d.toNat - 0x80)) =
        [a, b, c, d] := by
      unfold utf8Of
      rw [if_neg (by omega), if_neg (by omega), if_neg (by omega)]
      simp only [List.map_cons, List.map_nil]
      rw [← ofNat_eq (a := a) (by omega), ← ofNat_eq (a := b) (by omega), ← ofNat_eq (a := c) (by omega),
        ← ofNat_eq (a := d) (by omega)]
    rw [e] at this
    exact this
  | case6 => cases h
  | case7 => cases h
  | case8 => cases h
  | case9 => cases h

private theorem utf8_cons (a : UInt8) (r : Bytes) : utf8 (a :: r) =
    if a < 128 then utf8 r
    else match r with
      | b :: r1 =>
        if 194 ≤ a && a ≤ 223 && cont b then utf8 r1
        else match r1 with
          | c :: r2 =>
            if cont c && ((a == 224 && 160 ≤ b && b ≤ 191) || (225 ≤ a && a ≤ 236 && cont b) ||
                (a == 237 && 128 ≤ b && b ≤ 159) || (238 ≤ a && a ≤ 239 && cont b)) then utf8 r2
            else match r2 with
              | d :: r3 =>
                if cont c && cont d && ((a == 240 && 144 ≤ b && b ≤ 191) || (241 ≤ a && a ≤ 243 && cont b) ||
                    (a == 244 && 128 ≤ b && b ≤ 143)) then utf8 r3
                else false
              | [] => false
          | [] => false
      | [] => false := by
  rw [utf8.eq_def]
  rcases r with _ | ⟨b, _ | ⟨c, _ | ⟨d, r⟩⟩⟩ <;> rfl

theorem utf8_encoded (n : Nat) (hn : Scalar n) (r : Bytes) : utf8 (utf8Of n ++ r) = utf8 r := by
  unfold Scalar at hn
  have ec : ∀ k, k < 64 → cont (UInt8.ofNat (128 + k)) = true := by
    intro k hk
    rw [cont_iff, UInt8.toNat_ofNat_of_lt' (by simp [UInt8.size]; omega)]; omega
  have lt : ∀ k : Nat, k < 256 → (UInt8.ofNat k).toNat = k := by
    intro k hk; exact UInt8.toNat_ofNat_of_lt' (by simpa [UInt8.size] using hk)
  unfold utf8Of
  by_cases h1 : n < 0x80
  · rw [if_pos h1]
    simp only [List.map_cons, List.map_nil, List.cons_append, List.nil_append]
    rw [utf8_cons, if_pos]
    rw [UInt8.lt_iff_toNat_lt, lt _ (by omega)]; simpa using h1
  rw [if_neg h1]
  by_cases h2 : n < 0x800
  · rw [if_pos h2]
    simp only [List.map_cons, List.map_nil, List.cons_append, List.nil_append]
    rw [utf8_cons, if_neg (by rw [UInt8.lt_iff_toNat_lt, lt _ (by omega)]; simp; omega)]
    simp only
    rw [if_pos]
    simp only [Bool.and_eq_true, decide_eq_true_eq, UInt8.le_iff_toNat_le, ec _ (Nat.mod_lt n (by omega : 64 > 0)), and_true]
    rw [lt _ (by omega)]
    simp; omega
  rw [if_neg h2]
  by_cases h3 : n < 0x10000
  · rw [if_pos h3]
    simp only [List.map_cons, List.map_nil, List.cons_append, List.nil_append]
    rw [utf8_cons, if_neg (by rw [UInt8.lt_iff_toNat_lt, lt _ (by omega)]; simp; omega)]
    simp only
    rw [if_neg, if_pos]
    · simp only [Bool.and_eq_true, Bool.or_eq_true, cont_iff, decide_eq_true_eq, UInt8.le_iff_toNat_le, beq_iff_eq,
        ← UInt8.toNat_inj]
      rw [lt _ (by omega), lt _ (by omega), lt _ (by omega)]
      simp; omega
    · simp only [Bool.and_eq_true, decide_eq_true_eq, UInt8.le_iff_toNat_le]
      rw [lt _ (by omega)]
      simp; omega
  rw [if_neg h3]
  simp only [List.map_cons, List.map_nil, List.cons_append, List.nil_append]
  rw [utf8_cons, if_neg (by rw [UInt8.lt_iff_toNat_lt, lt _ (by omega)]; simp; omega)]
  simp only
  rw [if_neg, if_neg, if_pos]
  · simp only [Bool.and_eq_true, Bool.or_eq_true, cont_iff, decide_eq_true_eq, UInt8.le_iff_toNat_le, beq_iff_eq,
      ← UInt8.toNat_inj]
    rw [lt _ (by omega), lt _ (by omega), lt _ (by omega), lt _ (by omega)]
    simp; omega
  · simp only [Bool.and_eq_true, Bool.or_eq_true, cont_iff, decide_eq_true_eq, UInt8.le_iff_toNat_le, beq_iff_eq,
      ← UInt8.toNat_inj]
    rw [lt _ (by omega), lt _ (by omega), lt _ (by omega)]
    simp; omega
  · simp only [Bool.and_eq_true, decide_eq_true_eq, UInt8.le_iff_toNat_le]
    rw [lt _ (by omega)]
    simp; omega

/-- C89. `into_utf8` on any part of a buffer: it does not panic, succeeds exactly if the visible bytes are the UTF-8 form of a
sequence of scalar values, and then gives these bytes. -/
theorem c89_into_utf8 (s : ByteSlice) (hs : InBuffer s) :
    ∃ r, intoUtf8 s = some r ∧ (∀ b, r = some b → b = visible s) ∧
      (r.isSome = true ↔ ∃ ns : List Nat, (∀ n ∈ ns, Scalar n) ∧ visible s = ns.flatMap utf8Of) := by
  refine ⟨_, (by rw [intoUtf8, (c41_operations s hs).2.1]; rfl : intoUtf8 s = some (if utf8 (visible s) then some (visible s) else none)), ?_, ?_⟩
  · intro b hb
    split at hb
    · cases hb; rfl
    · cases hb
  · constructor
    · intro h
      split at h
      · rename_i h'; exact utf8_sound _ h'
      · cases h
    · rintro ⟨ns, h1, h2⟩
      have : utf8 (visible s) = true := by
        rw [h2]
        clear h2
        induction ns with
        | nil => rfl
        | cons n ns ih =>
          rw [List.flatMap_cons, utf8_encoded n (h1 n (by simp)), ih (fun m hm => h1 m (by simp [hm]))]
      rw [if_pos this]; rfl

/-- The specification's encoding is the one of the standard: U+20AC, the euro sign, and the last code point. -/
example : utf8Of 0x20AC = [0xE2, 0x82, 0xAC] ∧ utf8Of 0x10FFFF = [0xF4, 0x8F, 0xBF, 0xBF] := by decide
example : intoUtf8 ⟨0, [0x20, 0xE2, 0x82, 0xAC, 0x20], 1, 4⟩ = some (some [0xE2, 0x82, 0xAC]) := by decide +kernel
/-- An encoded surrogate is refused. -/
example : intoUtf8 ⟨0, [0xED, 0xA0, 0x80], 0, 3⟩ = some none := by decide +kernel

end Verif
