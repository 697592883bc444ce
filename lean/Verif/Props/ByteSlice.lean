import Verif.Model.ByteSlice
import Verif.Proofs.Nom
/-
C40, C41: ByteSlice.
-/
namespace Verif
open ByteSlice

namespace Spec

/-- A slice lies inside its buffer. -/
def InBuffer (s : ByteSlice) : Prop := s.start ≤ s.stop ∧ s.stop ≤ s.buf.length

instance (s : ByteSlice) : Decidable (InBuffer s) := by unfold InBuffer; infer_instance

/-- The bytes a slice shows. -/
def visible (s : ByteSlice) : Bytes := (s.buf.take s.stop).drop s.start

/-- `t` shows only bytes of `s`, at the same places of the same buffer. -/
def Within (t s : ByteSlice) : Prop := t.ptr = s.ptr ∧ t.buf = s.buf ∧ s.start ≤ t.start ∧ t.start ≤ t.stop ∧ t.stop ≤ s.stop

end Spec
open Spec

theorem visible_length {s : ByteSlice} (h : InBuffer s) : (visible s).length = s.stop - s.start := by
  have := h.1; have := h.2
  simp [visible]; omega

/-- C40 is false of the code: the assertion compares the end of the range with the end of the slice as an
offset in the buffer, not with its length. Here a slice of 3 bytes gives a sub-slice of 5 bytes, two of
them after its end. -/
theorem c40_refuted : ∃ (s t : ByteSlice) (a b : Nat), InBuffer s ∧ s.sliceRange a b = some t ∧
    ¬ Within t s ∧ visible s = b!"cde" ∧ visible t = b!"cdefg" :=
  ⟨⟨0, b!"abcdefghij", 2, 5⟩, ⟨0, b!"abcdefghij", 2, 7⟩, 0, 5, by decide, by decide,
    by simp [Within], by decide, by decide⟩

/-- C40 is also false in the other way: a sub-slice beyond the buffer is returned and only its use panics. -/
theorem c40_refuted_late_panic : ∃ (s t : ByteSlice) (a b : Nat), InBuffer s ∧ s.sliceRange a b = some t ∧
    t.demote = none :=
  ⟨⟨0, b!"abcde", 2, 5⟩, ⟨0, b!"abcde", 2, 7⟩, 0, 5, by decide, by decide, by decide⟩

/-- C40, the exact condition: a range is accepted iff `a ≤ b ≤ end`, and the result stays within the slice
iff moreover `b ≤ len`. Missing for the full claim: `len < b ≤ end`, see `c40_refuted`. -/
theorem c40_partial (s t : ByteSlice) (a b : Nat) (hs : InBuffer s) (h : s.sliceRange a b = some t) :
    Within t s ↔ b ≤ s.stop - s.start := by
  unfold sliceRange at h
  by_cases hc : a ≤ b ∧ b ≤ s.stop
  · rw [if_pos hc] at h
    cases h
    have := hs.1
    simp only [Within]
    constructor
    · rintro ⟨_, _, _, _, h⟩; omega
    · intro h
      refine ⟨trivial, trivial, ?_, ?_, ?_⟩ <;> omega
  · rw [if_neg hc] at h; cases h

/-- C40. Ranges up to the length of the slice: the result is exactly that range of the visible bytes, or a
panic if the bounds are crossed. -/
theorem c40_in_range (s : ByteSlice) (a b : Nat) (hs : InBuffer s) (hb : b ≤ s.stop - s.start) :
    (a ≤ b → ∃ t, s.sliceRange a b = some t ∧ InBuffer t ∧ Within t s ∧
      visible t = ((visible s).take b).drop a) ∧
    (b < a → s.sliceRange a b = none) := by
  have h1 := hs.1; have h2 := hs.2
  unfold sliceRange
  constructor
  · intro hab
    rw [if_pos ⟨hab, by omega⟩]
    refine ⟨_, rfl, ⟨by simp; omega, by simp; omega⟩, ⟨rfl, rfl, by simp, by simp; omega, by simp; omega⟩, ?_⟩
    simp only [visible]
    rw [List.take_drop, List.take_take, List.drop_drop]
    congr 2; omega
  · intro hab
    rw [if_neg (by omega)]

/-- C40. A range without end (`slice(a..)`) never leaves the slice: exact for every argument. -/
theorem c40_from (s : ByteSlice) (a : Nat) (hs : InBuffer s) :
    (a ≤ s.stop - s.start → ∃ t, s.sliceFrom a = some t ∧ InBuffer t ∧ Within t s ∧
      visible t = (visible s).drop a) ∧
    (s.stop - s.start < a → s.sliceFrom a = none) := by
  have h1 := hs.1
  have hl : s.len = some (s.stop - s.start) := by simp [len, h1]
  have := c40_in_range s a (s.stop - s.start) hs (Nat.le_refl _)
  unfold sliceFrom
  rw [hl]
  simp only [Option.bind_some]
  refine ⟨fun h => ?_, this.2⟩
  obtain ⟨t, ht, h3, h4, h5⟩ := this.1 h
  refine ⟨t, ht, h3, h4, ?_⟩
  rw [h5, List.take_of_length_le (by rw [visible_length hs]; exact Nat.le_refl _)]

/-- C40. A slice that starts at the start of its buffer, such as the one made from a `Bytes`, never gives
a sub-slice outside itself. -/
theorem c40_root (s t : ByteSlice) (a b : Nat) (hs : InBuffer s) (h0 : s.start = 0)
    (h : s.sliceRange a b = some t) : Within t s ∧ InBuffer t := by
  unfold sliceRange at h
  by_cases hc : a ≤ b ∧ b ≤ s.stop
  · rw [if_pos hc] at h
    cases h
    have := hs.2
    refine ⟨⟨rfl, rfl, by simp, ?_, ?_⟩, ?_, ?_⟩ <;> simp only [h0] <;> omega
  · rw [if_neg hc] at h; cases h

theorem demote_visible {s : ByteSlice} (hs : InBuffer s) : s.demote = some (visible s) := by
  unfold demote
  exact if_pos hs

theorem len_visible {s : ByteSlice} (hs : InBuffer s) : s.len = some (visible s).length := by
  rw [visible_length hs]; simp [len, hs.1]

/-- C41. Making a slice of a buffer shows the whole buffer. -/
theorem c41_of_bytes (ptr : Nat) (b : Bytes) : InBuffer (ofBytes ptr b) ∧ visible (ofBytes ptr b) = b := by
  simp [InBuffer, ofBytes, visible]

/-- C41. No operation panics, and each is that of the visible bytes. -/
theorem c41_operations (s : ByteSlice) (hs : InBuffer s) :
    s.len = some (visible s).length ∧
    s.demote = some (visible s) ∧
    s.iterElements = some (visible s) ∧
    (∀ p, s.position p = some ((visible s).findIdx? p)) ∧
    (∀ n, s.sliceIndex n = some (if n ≤ (visible s).length then some n else none)) ∧
    (∀ eq t, s.compare eq t = some (Nom.compareBy eq (visible s) t)) ∧
    (∀ t, s.findSubstring t = some (Nom.findSubstring t (visible s))) := by
  have hd := demote_visible hs
  refine ⟨len_visible hs, hd, hd, ?_, ?_, ?_, ?_⟩
  · intro p; simp [position, hd]
  · intro n; simp [sliceIndex, len_visible hs]
  · intro eq t; simp [ByteSlice.compare, hd]
  · intro t; simp [ByteSlice.findSubstring, hd]

/-- C41. `iter_indices` counts from the start of the slice, not of the buffer. -/
theorem c41_indices (s : ByteSlice) (hs : InBuffer s) :
    ∃ l, s.iterIndices = some l ∧ l.map (·.2) = visible s ∧ l.map (·.1) = List.range (visible s).length := by
  refine ⟨_, by rw [iterIndices, demote_visible hs]; rfl, ?_, ?_⟩
  · rw [List.map_map]
    exact List.zipIdx_map_fst 0 _
  · rw [List.map_map]
    show List.map Prod.snd _ = _
    rw [List.zipIdx_map_snd, List.range_eq_range']

/-- C41. Two slices that show the same bytes answer alike. -/
theorem c41_only_visible (s t : ByteSlice) (hs : InBuffer s) (ht : InBuffer t) (h : visible s = visible t) :
    s.len = t.len ∧ s.demote = t.demote ∧ (∀ p, s.position p = t.position p) ∧
    (∀ n, s.sliceIndex n = t.sliceIndex n) ∧ (∀ eq x, s.compare eq x = t.compare eq x) ∧
    ∀ x, s.findSubstring x = t.findSubstring x := by
  obtain ⟨a1, a2, _, a4, a5, a6, a7⟩ := c41_operations s hs
  obtain ⟨b1, b2, _, b4, b5, b6, b7⟩ := c41_operations t ht
  simp only [a1, a2, a4, a5, a6, a7, b1, b2, b4, b5, b6, b7, h, implies_true, and_self]

/-- C41. `==` on slices of live buffers (one address, one content) implies equal visible bytes. It is
identity of place: the converse fails, see `c41_eq_is_identity`. -/
theorem c41_eq_sound (s t : ByteSlice) (hp : s.ptr = t.ptr → s.buf = t.buf) (h : s.beq t = true) :
    visible s = visible t := by
  simp only [beq, Bool.and_eq_true, beq_iff_eq] at h
  simp [visible, h.1.1, h.1.2, hp h.2]

/-- C41. Equal bytes at different places are not `==`. -/
theorem c41_eq_is_identity : ∃ s t : ByteSlice, InBuffer s ∧ InBuffer t ∧ s.ptr = t.ptr ∧ s.buf = t.buf ∧
    visible s = visible t ∧ s.beq t = false :=
  ⟨⟨0, b!"aa", 0, 1⟩, ⟨0, b!"aa", 1, 2⟩, by decide, by decide, rfl, rfl, by decide, by decide⟩

example : InBuffer ⟨0, b!"abcdefghij", 2, 5⟩ ∧ visible ⟨0, b!"abcdefghij", 2, 5⟩ = b!"cde" := by
  constructor <;> decide

/-! ### The parsers on slices are the parsers on the visible bytes -/

namespace Spec

/-- A result on slices refines a result on bytes: no panic, same outcome, the rest is inside the input
and ends with it, and values show the same bytes. -/
def Refines {α β : Type} (view : α → β → Prop) (s : ByteSlice) (r : Option (BRes α)) (x : Nom.IRes β) : Prop :=
  match r, x with
  | some (.done rest a), .done rest' b =>
    Within rest s ∧ rest.stop = s.stop ∧ visible rest = rest' ∧ view a b
  | some .error, .error => True
  | some .incomplete, .incomplete => True
  | _, _ => False

/-- A value that is a slice of `s` showing `b`. -/
def Shows (s : ByteSlice) (a : ByteSlice) (b : Bytes) : Prop := Within a s ∧ visible a = b

end Spec

private theorem splitAt_spec {s : ByteSlice} (hs : InBuffer s) {n : Nat} (hn : n ≤ (visible s).length) :
    ∃ r a, s.splitAt n = some (.done r a) ∧ Within r s ∧ r.stop = s.stop ∧ visible r = (visible s).drop n ∧
      Within a s ∧ visible a = (visible s).take n := by
  rw [visible_length hs] at hn
  obtain ⟨r, hr, _, hr2, hr3⟩ := (c40_from s n hs).1 hn
  obtain ⟨a, ha, _, ha2, ha3⟩ := (c40_in_range s 0 n hs hn).1 (by omega)
  refine ⟨r, a, ?_, hr2, ?_, hr3, ha2, by simpa using ha3⟩
  · simp [splitAt, hr, sliceTo, ha]
  · have := hs.1
    simp only [sliceFrom, len, this, if_true, Option.bind_some, sliceRange] at hr
    split at hr
    · cases hr; simp; omega
    · cases hr

private theorem refines_split {s : ByteSlice} (hs : InBuffer s) {n : Nat} (hn : n ≤ (visible s).length) :
    Refines (Shows s) s (s.splitAt n) (.done ((visible s).drop n) ((visible s).take n)) := by
  obtain ⟨r, a, h1, h2, h3, h4, h5, h6⟩ := splitAt_spec hs hn
  rw [h1]
  exact ⟨h2, h3, h4, h5, h6⟩

private theorem compareBy_le {eq : UInt8 → UInt8 → Bool} {i t r : Bytes} (h : Nom.compareBy eq i t = .ok r) :
    t.length ≤ i.length ∧ r = i.drop t.length := by
  fun_induction Nom.compareBy eq i t with
  | case1 i => cases h; simp
  | case2 => cases h
  | case3 c i t ts hc ih => have := ih h; simp; exact ⟨this.1, this.2⟩
  | case4 => cases h

/-- C41. `tag!` and `tag_no_case!`. -/
theorem c41_tag (eq : UInt8 → UInt8 → Bool) (t : Bytes) (s : ByteSlice) (hs : InBuffer s) :
    Refines (Shows s) s (ByteSlice.tagBy eq t s) (Nom.tagBy eq t (visible s)) := by
  unfold ByteSlice.tagBy Nom.tagBy
  rw [(c41_operations s hs).2.2.2.2.2.1]
  cases h : Nom.compareBy eq (visible s) t with
  | ok r =>
    obtain ⟨h1, rfl⟩ := compareBy_le h
    exact refines_split hs h1
  | error => exact trivial
  | incomplete => exact trivial

private theorem from_spec {s : ByteSlice} (hs : InBuffer s) {n : Nat} (hn : n ≤ (visible s).length) :
    ∃ r, s.sliceFrom n = some r ∧ Within r s ∧ r.stop = s.stop ∧ visible r = (visible s).drop n := by
  obtain ⟨r, a, h1, h2, h3, h4, _⟩ := splitAt_spec hs hn
  unfold splitAt at h1
  cases hf : s.sliceFrom n with
  | none => simp [hf] at h1
  | some r' =>
    rw [hf] at h1
    simp only [Option.bind_some] at h1
    cases ht : s.sliceTo n with
    | none => simp [ht] at h1
    | some a' =>
      simp only [ht, Option.map_some, Option.some.injEq, BRes.done.injEq] at h1
      rw [h1.1]
      exact ⟨_, rfl, h2, h3, h4⟩

/-- C41. `one_of!`. -/
theorem c41_one_of (set : Bytes) (s : ByteSlice) (hs : InBuffer s) :
    Refines (· = ·) s (ByteSlice.oneOf set s) (Nom.oneOf set (visible s)) := by
  unfold ByteSlice.oneOf Nom.oneOf
  rw [(c41_operations s hs).2.2.1]
  simp only [Option.bind_some]
  cases h : visible s with
  | nil => exact trivial
  | cons c r =>
    simp only
    by_cases hc : set.contains c = true
    · obtain ⟨x, h1, h2, h3, h4⟩ := from_spec hs (n := 1) (by rw [h]; simp)
      rw [if_pos hc, if_pos hc, h1]
      rw [h] at h4
      exact ⟨h2, h3, by simpa using h4, rfl⟩
    · rw [if_neg hc, if_neg hc]; exact trivial

private theorem findIdx_split (set : Bytes) (b : Bytes) :
    (∀ n, b.findIdx? (fun c => !set.contains c) = some n →
      n ≤ b.length ∧ b.dropWhile set.contains = b.drop n ∧ b.takeWhile set.contains = b.take n) ∧
    (b.findIdx? (fun c => !set.contains c) = none →
      b.dropWhile set.contains = [] ∧ b.takeWhile set.contains = b) := by
  induction b with
  | nil => simp
  | cons c b ih =>
    by_cases hc : set.contains c = true
    · simp only [List.findIdx?_cons, hc, Bool.not_true, Bool.false_eq_true, if_false, List.dropWhile_cons, if_true,
        List.takeWhile_cons]
      cases hf : b.findIdx? (fun c => !set.contains c) with
      | none => simpa using ih.2 hf
      | some m =>
        refine ⟨?_, by simp⟩
        intro n hn
        simp at hn; subst hn
        have := ih.1 m hf
        refine ⟨by simp; omega, by simpa using this.2.1, by simpa using this.2.2⟩
    · simp only [List.findIdx?_cons, hc, Bool.not_false, if_true, List.dropWhile_cons, 
        List.takeWhile_cons]
      refine ⟨?_, by simp⟩
      intro n hn
      simp at hn; subst hn; simp

private theorem within_self {s : ByteSlice} (hs : InBuffer s) : Within s s :=
  ⟨rfl, rfl, Nat.le_refl _, hs.1, Nat.le_refl _⟩

/-- C41. `is_a!`. -/
theorem c41_is_a (set : Bytes) (s : ByteSlice) (hs : InBuffer s) :
    Refines (Shows s) s (ByteSlice.isA set s) (Nom.isA set (visible s)) := by
  unfold ByteSlice.isA
  rw [(c41_operations s hs).2.2.2.1]
  simp only [Option.bind_some]
  obtain ⟨k1, k2⟩ := findIdx_split set (visible s)
  cases hv : visible s with
  | nil =>
    obtain ⟨x, h1, h2, h3, h4⟩ := from_spec hs (n := (visible s).length) (Nat.le_refl _)
    simp only [List.findIdx?_nil]
    rw [len_visible hs]
    simp only [Option.bind_some, h1, Option.map_some]
    exact ⟨h2, h3, by simpa [hv] using h4, within_self hs, hv⟩
  | cons c b =>
    have e : Nom.isA set (visible s) = if set.contains c then
        .done ((visible s).dropWhile set.contains) ((visible s).takeWhile set.contains) else .error := by
      rw [hv]; rfl
    rw [← hv, e]
    cases hf : (visible s).findIdx? (fun c => !set.contains c) with
    | none =>
      obtain ⟨x, h1, h2, h3, h4⟩ := from_spec hs (n := (visible s).length) (Nat.le_refl _)
      obtain ⟨e1, e2⟩ := k2 hf
      have hc : set.contains c = true := by
        rw [hv, List.findIdx?_cons] at hf
        by_cases hc : set.contains c = true
        · exact hc
        · simp only [hc, Bool.not_false, if_true, reduceCtorEq] at hf
      rw [if_pos hc, e1, e2]
      rw [len_visible hs]
      simp only [Option.bind_some, h1, Option.map_some]
      exact ⟨h2, h3, by simpa using h4, within_self hs, rfl⟩
    | some n =>
      obtain ⟨e0, e1, e2⟩ := k1 n hf
      rw [hv, List.findIdx?_cons] at hf
      by_cases hc : set.contains c = true
      · rw [if_pos hc, e1, e2]
        simp only [hc, Bool.not_true, Bool.false_eq_true, if_false, Option.map_eq_some_iff] at hf
        obtain ⟨m, _, rfl⟩ := hf
        exact refines_split hs e0
      · simp only [hc, Bool.not_false, if_true, Option.some.injEq] at hf
        subst hf
        rw [if_neg hc]; exact trivial

/-- C41. `eat_separator!`. -/
theorem c41_eat_separator (set : Bytes) (s : ByteSlice) (hs : InBuffer s) :
    Refines (Shows s) s (ByteSlice.eatSeparator set s) (Nom.eatSeparator set (visible s)) := by
  unfold ByteSlice.eatSeparator Nom.eatSeparator
  rw [(c41_operations s hs).2.2.2.1]
  simp only [Option.bind_some]
  obtain ⟨k1, k2⟩ := findIdx_split set (visible s)
  cases hf : (visible s).findIdx? (fun c => !set.contains c) with
  | none =>
    obtain ⟨x, h1, h2, h3, h4⟩ := from_spec hs (n := (visible s).length) (Nat.le_refl _)
    obtain ⟨e1, e2⟩ := k2 hf
    rw [e1, e2, len_visible hs]
    simp only [Option.bind_some, h1, Option.map_some]
    exact ⟨h2, h3, by simpa using h4, within_self hs, rfl⟩
  | some n =>
    obtain ⟨e0, e1, e2⟩ := k1 n hf
    rw [e1, e2]
    cases n with
    | zero =>
      obtain ⟨a, ha, _, ha2, ha3⟩ := (c40_in_range s 0 0 hs (by omega)).1 (by omega)
      simp only [sliceTo, ha, Option.map_some]
      exact ⟨within_self hs, rfl, by simp, ha2, by simpa using ha3⟩
    | succ n => exact refines_split hs e0

/-- C41. `take!`. -/
theorem c41_take (n : Nat) (s : ByteSlice) (hs : InBuffer s) :
    Refines (Shows s) s (ByteSlice.take n s) (Nom.take n (visible s)) := by
  unfold ByteSlice.take Nom.take
  rw [(c41_operations s hs).2.2.2.2.1]
  simp only [Option.bind_some]
  by_cases h : n ≤ (visible s).length
  · rw [if_pos h, if_neg (by omega)]
    exact refines_split hs h
  · rw [if_neg h, if_pos (by omega)]
    exact trivial

private theorem findSubstring_le {t b : Bytes} {n : Nat} (h : Nom.findSubstring t b = some n) :
    n + t.length ≤ b.length := by
  induction b generalizing n with
  | nil =>
    simp only [Nom.findSubstring] at h
    split at h
    · rename_i ht
      cases h
      have : t = [] := List.isEmpty_iff.1 ht
      subst this; simp
    · cases h
  | cons c r ih =>
    simp only [Nom.findSubstring] at h
    split at h
    · rename_i hp
      cases h
      have := (List.isPrefixOf_iff_prefix.1 hp).length_le
      simpa using this
    · simp only [Option.map_eq_some_iff] at h
      obtain ⟨m, hm, rfl⟩ := h
      have := ih hm
      simp; omega

/-- C41. `take_until!`. -/
theorem c41_take_until (t : Bytes) (s : ByteSlice) (hs : InBuffer s) :
    Refines (Shows s) s (ByteSlice.takeUntil t s) (Nom.takeUntil t (visible s)) := by
  unfold ByteSlice.takeUntil Nom.takeUntil
  rw [len_visible hs, (c41_operations s hs).2.2.2.2.2.2]
  simp only [Option.bind_some]
  by_cases h : (visible s).length < t.length
  · rw [if_pos h, if_pos h]; exact trivial
  · rw [if_neg h, if_neg h]
    cases hf : Nom.findSubstring t (visible s) with
    | none => exact trivial
    | some n => exact refines_split hs (by have := findSubstring_le hf; omega)

/-- C41. `take_until_and_consume!`. -/
theorem c41_take_until_and_consume (t : Bytes) (s : ByteSlice) (hs : InBuffer s) :
    Refines (Shows s) s (ByteSlice.takeUntilAndConsume t s) (Nom.takeUntilAndConsume t (visible s)) := by
  unfold ByteSlice.takeUntilAndConsume Nom.takeUntilAndConsume
  rw [len_visible hs, (c41_operations s hs).2.2.2.2.2.2]
  simp only [Option.bind_some]
  by_cases h : (visible s).length < t.length
  · rw [if_pos h, if_pos h]; exact trivial
  · rw [if_neg h, if_neg h]
    cases hf : Nom.findSubstring t (visible s) with
    | none => exact trivial
    | some n =>
      have hle := findSubstring_le hf
      obtain ⟨x, h1, h2, h3, h4⟩ := from_spec hs (n := n + t.length) hle
      obtain ⟨a, ha, _, ha2, ha3⟩ := (c40_in_range s 0 n hs (by rw [visible_length hs] at hle; omega)).1 (by omega)
      simp only [h1, Option.bind_some, sliceTo, ha, Option.map_some]
      exact ⟨h2, h3, h4, ha2, by simpa using ha3⟩

/-- C41. `recognize!` of any parser that refines its byte version. -/
theorem c41_recognize {α β : Type} (view : α → β → Prop) (p : ByteSlice → Option (BRes α)) (q : Nom.Parser β)
    (s : ByteSlice) (hs : InBuffer s) (h : Refines view s (p s) (q (visible s))) :
    Refines (Shows s) s (ByteSlice.recognize p s) (Nom.recognize q (visible s)) := by
  unfold ByteSlice.recognize Nom.recognize
  cases hp : p s with
  | none => rw [hp] at h; cases q (visible s) <;> exact h.elim
  | some r =>
    rw [hp] at h
    cases r with
    | error => cases hq : q (visible s) <;> rw [hq] at h <;> first | exact trivial | exact h.elim
    | incomplete => cases hq : q (visible s) <;> rw [hq] at h <;> first | exact trivial | exact h.elim
    | done rest a =>
      cases hq : q (visible s) with
      | error => rw [hq] at h; exact h.elim
      | incomplete => rw [hq] at h; exact h.elim
      | done rest' b =>
        rw [hq] at h
        obtain ⟨hw, hstop, hvis, _⟩ := h
        obtain ⟨h1, h2, h3, h4, h5⟩ := hw
        have hs1 := hs.1; have hs2 := hs.2
        have hrest : InBuffer rest := ⟨h4, by rw [h2]; omega⟩
        obtain ⟨x, hx, _, hx2, hx3⟩ := (c40_in_range s 0 (rest.start - s.start) hs (by omega)).1 (by omega)
        simp only [Option.bind_some, sliceTo, hx, Option.map_some]
        refine ⟨⟨h1, h2, h3, h4, h5⟩, hstop, hvis, hx2, ?_⟩
        rw [hx3, ← hvis, visible_length hs, visible_length hrest]
        simp only [List.drop_zero]
        congr 1; omega

end Verif
