import Verif.Model.Usize
import Verif.Props.Reply
/-
C24 with machine arithmetic: for which chunk sizes `byte_chunks` is what C24 says, and what happens for the others.
-/
namespace Verif
open Usize

private theorem fit_ok {o : Overflow} {top v : Nat} (h : v < top) : fit o top (v : Int) = some v := by
  unfold fit
  rw [if_pos (by omega)]
  simp

private theorem fit_nat {o : Overflow} {top : Nat} {v : Int} {w : Nat} (e : v = w) (h : w < top) : fit o top v = some w := by
  subst e; exact fit_ok h

private theorem mapM_some {α β : Type} {f : α → Option β} {g : α → β} {l : List α} (h : ∀ x ∈ l, f x = some (g x)) :
    l.mapM f = some (l.map g) := by
  induction l with
  | nil => rfl
  | cons x l ih =>
    rw [List.mapM_cons, h x (by simp), ih (fun y hy => h y (by simp [hy]))]
    rfl

private theorem chunk_ok {o : Overflow} {top : Nat} {s : Bytes} {n i : Nat} (hn : 0 < n) (hfit : s.length + n < top)
    (hi : i * n < s.length) :
    chunk o top s n i = some ((s.take (min s.length ((i + 1) * n))).drop (i * n)) := by
  have h1 : (i + 1) * n = i * n + n := by rw [Nat.add_mul]; omega
  have h2 : i ≤ i * n := Nat.le_mul_of_pos_right i hn
  unfold chunk Usize.add Usize.mul
  rw [fit_nat (w := i * n) (by push_cast; rfl) (by omega)]
  simp only [Option.bind_eq_bind, Option.bind_some]
  rw [fit_nat (w := i + 1) (by push_cast; rfl) (by omega)]
  simp only [Option.bind_some]
  rw [fit_nat (w := (i + 1) * n) (by push_cast; rfl) (by omega)]
  simp only [Option.bind_some]
  unfold Usize.slice
  rw [if_pos (by omega)]

/-- C24. As long as the length of the string plus the chunk size can be counted, machine arithmetic plays no part: every build
gives the chunks of C24. -/
theorem c24_usize (o : Overflow) (top : Nat) (s : Bytes) (n : Nat) (hn : 0 < n) (hfit : s.length + n < top) :
    Usize.byteChunks o top s n = Verif.byteChunks s n := by
  have hk : ∀ i, i < (s.length + n - 1) / n ↔ i * n < s.length := by
    intro i
    rw [Nat.lt_div_iff_mul_lt hn]
    omega
  unfold Usize.byteChunks Usize.add Usize.sub Usize.div
  rw [fit_nat (w := s.length + n) (by push_cast; rfl) hfit]
  simp only [Option.bind_eq_bind, Option.bind_some]
  rw [fit_nat (w := s.length + n - 1) (by omega) (by omega)]
  simp only [Option.bind_some]
  rw [if_neg (by omega)]
  simp only [Option.bind_some]
  rw [mapM_some (g := fun i => (s.take (min s.length ((i + 1) * n))).drop (i * n))]
  · unfold Verif.byteChunks
    rw [if_neg (by omega)]
  · intro i hi
    exact chunk_ok hn hfit ((hk i).1 (List.mem_range.1 hi))

/-- C24. Chunk size zero panics, whatever the build. -/
theorem c24_usize_zero (o : Overflow) (top : Nat) (s : Bytes) : Usize.byteChunks o top s 0 = none := by
  unfold Usize.byteChunks Usize.div
  cases Usize.add o top s.length 0 with
  | none => rfl
  | some t =>
    simp only [Option.bind_eq_bind, Option.bind_some]
    cases Usize.sub o top t 1 <;> rfl

/-- C24. A chunk size so large that the sum cannot be counted: a build with overflow checks panics. -/
theorem c24_usize_checked (top : Nat) (s : Bytes) (n : Nat) (hbig : top ≤ s.length + n) :
    Usize.byteChunks .checked top s n = none := by
  have : Usize.add .checked top s.length n = none := by
    unfold Usize.add fit
    rw [if_neg (by omega)]
  unfold Usize.byteChunks
  rw [this]
  rfl

private theorem wrap_nat {top : Nat} {v : Int} {w : Nat} (h : w < top) (e : v = w + top) : fit .wrapping top v = some w := by
  unfold fit
  rw [if_neg (by omega)]
  simp only
  subst e
  rw [Int.add_emod_right, Int.emod_eq_of_lt (by omega) (by omega)]
  simp

private theorem wrap_neg {top : Nat} {v : Int} {w : Nat} (h : w < top) (e : v = w - top) : fit .wrapping top v = some w := by
  unfold fit
  rw [if_neg (by omega)]
  simp only
  subst e
  rw [Int.sub_emod_right, Int.emod_eq_of_lt (by omega) (by omega)]
  simp

/-- C24. In a build without overflow checks such a chunk size makes the text vanish: there are no chunks at all (except when
the sum is `usize::MAX + 1` exactly, see below). -/
theorem c24_usize_wrapping (top : Nat) (s : Bytes) (n : Nat) (hs : s.length < top) (hn : n < top) (hbig : top < s.length + n) :
    Usize.byteChunks .wrapping top s n = some [] := by
  unfold Usize.byteChunks Usize.add Usize.sub Usize.div
  rw [wrap_nat (w := s.length + n - top) (by omega) (by omega)]
  simp only [Option.bind_eq_bind, Option.bind_some]
  rw [fit_nat (w := s.length + n - top - 1) (by omega) (by omega)]
  simp only [Option.bind_some]
  rw [if_neg (by omega)]
  simp only [Option.bind_some]
  rw [Nat.div_eq_of_lt (by omega)]
  rfl

/-- C24. At exactly `usize::MAX + 1` the two overflows cancel and the text comes out as one chunk. -/
theorem c24_usize_wrapping_edge (top : Nat) (s : Bytes) (n : Nat) (hs : 2 * s.length < top) (hn : n < top)
    (he : s.length + n = top) : Usize.byteChunks .wrapping top s n = some [s] := by
  unfold Usize.byteChunks Usize.add Usize.sub Usize.div
  rw [wrap_nat (w := 0) (by omega) (by omega)]
  simp only [Option.bind_eq_bind, Option.bind_some]
  rw [wrap_neg (w := top - 1) (by omega) (by omega)]
  simp only [Option.bind_some]
  rw [if_neg (by omega), Nat.div_eq_of_lt_le (k := 1) (by omega) (by omega)]
  simp only [Option.bind_some]
  rw [mapM_some (l := List.range 1) (g := fun _ => s)]
  · rfl
  · intro i hi
    obtain rfl : i = 0 := by simpa using hi
    unfold chunk Usize.add Usize.mul
    rw [fit_nat (w := 0) (by simp) (by omega)]
    simp only [Option.bind_eq_bind, Option.bind_some]
    rw [fit_nat (w := 1) (by simp) (by omega)]
    simp only [Option.bind_some]
    rw [fit_nat (w := n) (by simp) (by omega)]
    simp only [Option.bind_some]
    unfold Usize.slice
    rw [if_pos (by omega), List.take_of_length_le (by omega)]
    rfl

/-- C24, a case on a 64-bit machine: "no limit" written as `usize::MAX` loses the text of a release build. -/
theorem c24_usize_max (s : Bytes) (hs : 2 ≤ s.length) (hs' : s.length < 2 ^ 64) :
    Usize.byteChunks .wrapping (2 ^ 64) s (2 ^ 64 - 1) = some [] ∧ Usize.byteChunks .checked (2 ^ 64) s (2 ^ 64 - 1) = none :=
  ⟨c24_usize_wrapping _ s _ hs' (by omega) (by omega), c24_usize_checked _ s _ (by omega)⟩

/-- C24. The chunk size `send_reply` uses is safe on machines of 16 bits and more: a buffer is at most `isize::MAX` long. -/
theorem c24_usize_reply (o : Overflow) (bits : Nat) (hb : 16 ≤ bits) (s : Bytes) (hs : s.length < 2 ^ (bits - 1)) :
    Usize.byteChunks o (2 ^ bits) s ReplyLine.maxLen = Verif.byteChunks s ReplyLine.maxLen := by
  have h1 : 2 ^ bits = 2 ^ (bits - 1) + 2 ^ (bits - 1) := by
    rw [← Nat.two_mul, ← Nat.pow_succ']
    congr 1; omega
  have h2 : 2 ^ 15 ≤ 2 ^ (bits - 1) := Nat.pow_le_pow_right (by omega) (by omega)
  have h3 : ReplyLine.maxLen = 506 := rfl
  exact c24_usize o _ s _ (by omega) (by omega)

example : (b!"Hello" : Bytes).length < 2 ^ 63 := by decide

end Verif
