import Verif.Spec.Greedy
import Verif.Props.Work
import Verif.Proofs.HandlerRuns
/-
C118: how much one poll of a message stream takes from the connection.
-/
namespace Verif
open Spec

private theorem run_split {st' : DState} {buf : Bytes} {idx : Nat} {st : DState} {sp : BufSplit} (h : scanWindows st idx buf = (st', sp))
    (hi : idx = 0 → st ≠ .crLfPassed ) : sp ≠ .escape 0 ∧ sp ≠ .eof 0 := by
  fun_induction scanWindows st idx buf with
  | case1 st idx w1 w2 rest ih => exact ih h (by omega)
  | case2 st idx w0 w1 w2 rest h1 h2 ih => exact ih h (by omega)
  | case3 st idx w0 w1 w2 rest h1 h2 h3 h4 =>
    cases h
    simp
    intro e; exact hi e h3.1
  | case4 st idx w0 w1 w2 rest h1 h2 h3 h4 =>
    cases h
    simp
    intro e; exact hi e h3.1
  | case5 st idx w0 w1 w2 rest h1 h2 h3 ih => exact ih h (by omega)
  | case6 => cases h; simp

private theorem short_running {buf : Bytes} (h : buf.length < 3) (st : DState) (idx : Nat) : scanWindows st idx buf = (st, .nowhere) := by
  match buf, h with
  | [], _ => rfl
  | [_], _ => rfl
  | [_, _], _ => rfl
  | _ :: _ :: _ :: _, h => simp at h; omega

private theorem run_scan {st' : DState} {buf : Bytes} {sp : BufSplit} (h : scanBuf .running buf = (st', sp)) :
    sp ≠ .escape 0 ∧ sp ≠ .eof 0 ∧ sp ≠ .unknown 0 := by
  unfold scanBuf at h
  split at h
  · rename_i st1 hs
    by_cases hl : buf.length < 3
    · rw [short_running hl] at hs
      cases hs
      unfold scanLast at h
      refine ⟨?_, ?_, ?_⟩ <;> rintro rfl <;> grind
    · unfold scanLast at h
      refine ⟨?_, ?_, ?_⟩ <;> rintro rfl <;> grind
  · have := run_split h (by simp)
    refine ⟨this.1, this.2, ?_⟩
    rintro rfl
    rename_i hn
    exact absurd h (by
      intro h
      have : ∀ st idx (b : Bytes) st' n, scanWindows st idx b ≠ (st', .unknown n) := by
        intro st idx b
        fun_induction scanWindows st idx b <;> simp_all
      exact this _ _ _ _ _ h)

private theorem run_takes (d : DStream) (hs : d.state = .running) (hb : d.buf ≠ []) : d.pollLoop.2.source = d.source := by
  have hp : 0 < d.buf.length := List.length_pos_iff.2 hb
  rw [DStream.pollLoop]
  split
  · rw [if_pos hp]
  · simp only
    split <;> rfl
  · rename_i x h
    have := (run_scan (hs ▸ h)).1
    have hx : 0 < x := by
      rcases Nat.eq_zero_or_pos x with rfl | h
      · exact absurd rfl this
      · exact h
    have hl := scanBuf_escape_lt h
    rw [if_pos (by simp; omega)]
  · rename_i x h
    have := (run_scan (hs ▸ h)).2.2
    have hx : 0 < x := by
      rcases Nat.eq_zero_or_pos x with rfl | h
      · exact absurd rfl this
      · exact h
    rw [if_pos hx]

private theorem fullPackets_append (a b : List (SrcEv Bytes)) : fullPackets (a ++ b) = fullPackets a + fullPackets b := by
  induction a with
  | nil => simp [fullPackets]
  | cons e a ih => cases e <;> simp [fullPackets, ih]; omega

private theorem unknown_short {st st' : DState} {buf : Bytes} (h : scanBuf st buf = (st', .unknown 0)) : buf.length ≤ 2 := by
  have : ∀ st idx (b : Bytes) st' n, scanWindows st idx b ≠ (st', .unknown n) := by
    intro st idx b
    fun_induction scanWindows st idx b <;> simp_all
  unfold scanBuf at h
  split at h
  · unfold scanLast at h
    grind
  · exact absurd h (this _ _ _ _ _)

private theorem escape_more {st st' : DState} {buf : Bytes} {x : Nat} (h : scanBuf st buf = (st', .escape x)) : x + 2 ≤ buf.length := by
  have key : ∀ st idx (b : Bytes) st' n, scanWindows st idx b = (st', .escape n) → n + 3 ≤ idx + b.length := by
    intro st idx b st' n h
    fun_induction scanWindows st idx b with
    | case1 st idx w1 w2 rest ih => have := ih h; simp at this ⊢; omega
    | case2 st idx w0 w1 w2 rest h1 h2 ih => have := ih h; simp at this ⊢; omega
    | case3 => cases h
    | case4 => cases h; simp
    | case5 st idx w0 w1 w2 rest h1 h2 h3 ih => have := ih h; simp at this ⊢; omega
    | case6 => cases h
  unfold scanBuf at h
  split at h
  · unfold scanLast at h
    grind
  · have := key _ _ _ _ _ h; omega

private theorem loop_takes (d : DStream) : ∃ taken, d.source.evs = taken ++ d.pollLoop.2.source.evs ∧
    fullPackets taken + min d.buf.length 3 ≤ 3 ∧ notReady taken ≤ 1 ∧ (notReady taken = 1 ↔ d.pollLoop.1 = .pending) ∧
    (d.pollLoop.1 = .pending → fullPackets taken + min d.buf.length 3 ≤ 2) := by
  fun_induction DStream.pollLoop d with
  | case1 d st hs hlen => exact ⟨[], rfl, by simp [fullPackets]; omega, by simp [notReady], by simp [notReady], by simp⟩
  | case2 d st hs hlen s hp =>
    have hb : d.buf.length = 0 := by omega
    exact ⟨[.pending], by simp [(Prep.pollNext_pending hp).1], by simp [fullPackets]; omega, by simp [notReady], by simp [notReady],
      by simp [fullPackets]; omega⟩
  | case3 d st hs hlen s hp =>
    exact ⟨[], evs_ended hp, by simp [fullPackets]; omega, by simp [notReady], by simp [notReady], by simp⟩
  | case4 d st hs hlen b s hp ih =>
    have hb : d.buf.length = 0 := by omega
    obtain ⟨t, h1, h2, h3, h4, h5⟩ := ih
    refine ⟨.pkt b :: t, by rw [(Prep.pollNext_some hp).1, h1]; rfl, ?_, h3, h4, fun e => ?_⟩
    · simp only [fullPackets, List.length_append] at h2 ⊢
      by_cases e : b = []
      · simp [e] at h2 ⊢; omega
      · have := List.length_pos_iff.2 e
        simp only [if_neg e]
        omega
    · have h5 := h5 e
      simp only [fullPackets, List.length_append] at h5 ⊢
      by_cases e : b = []
      · simp [e] at h5 ⊢; omega
      · have := List.length_pos_iff.2 e
        simp only [if_neg e]
        omega
  | case5 d st x hs res d' hlen => exact ⟨[], rfl, by simp [fullPackets]; omega, by simp [notReady], by simp [notReady], by simp⟩
  | case6 d st x hs res d' hlen => exact ⟨[], rfl, by simp [fullPackets]; omega, by simp [notReady], by simp [notReady], by simp⟩
  | case7 d st x hs hlen => exact ⟨[], rfl, by simp [fullPackets]; omega, by simp [notReady], by simp [notReady], by simp⟩
  | case8 d st x hs hlen ih =>
    have hm := escape_more hs
    have hne : (d.buf.drop x).drop 1 ≠ [] := by
      intro e
      have := congrArg List.length e
      simp at this; omega
    have hr := run_takes { d with state := .running, buf := (d.buf.drop x).drop 1 } rfl hne
    obtain ⟨t, h1, h2, h3, h4, h5⟩ := ih
    have ht : t = [] := by
      rw [hr] at h1
      simp only at h1
      have := congrArg List.length h1
      simpa using this
    subst ht
    refine ⟨[], h1, by simp [fullPackets]; omega, h3, h4, fun e => ?_⟩
    have := h4.2 e
    simp [notReady] at this
  | case9 d st x hs hx => exact ⟨[], rfl, by simp [fullPackets]; omega, by simp [notReady], by simp [notReady], by simp⟩
  | case10 d st x hs hx s hp =>
    have hx0 : x = 0 := by omega
    subst hx0
    have hb := unknown_short hs
    exact ⟨[.pending], by simp [(Prep.pollNext_pending hp).1], by simp [fullPackets]; omega, by simp [notReady], by simp [notReady],
      by simp [fullPackets]; omega⟩
  | case11 d st x hs hx s hp =>
    exact ⟨[], evs_ended hp, by simp [fullPackets]; omega, by simp [notReady], by simp [notReady], by simp⟩
  | case12 d st x hs hx b s hp ih =>
    have hx0 : x = 0 := by omega
    subst hx0
    have hb := unknown_short hs
    obtain ⟨t, h1, h2, h3, h4, h5⟩ := ih
    refine ⟨.pkt b :: t, by rw [(Prep.pollNext_some hp).1, h1]; rfl, ?_, h3, h4, fun e => ?_⟩
    · simp only [fullPackets, List.length_append] at h2 ⊢
      by_cases e : b = []
      · simp [e] at h2 ⊢; omega
      · have := List.length_pos_iff.2 e
        simp only [if_neg e]
        omega
    · have h5 := h5 e
      simp only [fullPackets, List.length_append] at h5 ⊢
      by_cases e : b = []
      · simp [e] at h5 ⊢; omega
      · have := List.length_pos_iff.2 e
        simp only [if_neg e]
        omega

/-- C118. One poll of a message stream takes a beginning of what the connection still delivers, with at most three
packets that are not empty, and asks no further once the connection is not ready; then it has taken two such
packets at most. -/
theorem c118_packets (d : DStream) : ∃ taken, d.source.evs = taken ++ d.pollNext.2.source.evs ∧
    fullPackets taken ≤ 3 ∧ notReady taken ≤ 1 ∧ (notReady taken = 1 ↔ d.pollNext.1 = .pending) ∧
    (d.pollNext.1 = .pending → fullPackets taken ≤ 2) := by
  unfold DStream.pollNext
  split
  · exact ⟨[], rfl, by simp [fullPackets], by simp [notReady], by simp [notReady], by simp⟩
  · obtain ⟨t, h1, h2, h3, h4, h5⟩ := loop_takes d
    exact ⟨t, h1, by omega, h3, h4, fun e => by have := h5 e; omega⟩

/-- C118. If the stream still holds bytes that it has not given out, fewer: with one byte two packets, with two
bytes one packet, and with three bytes or more none. -/
theorem c118_held (d : DStream) : ∃ taken, d.source.evs = taken ++ d.pollNext.2.source.evs ∧
    fullPackets taken ≤ 3 - d.buf.length := by
  unfold DStream.pollNext
  split
  · exact ⟨[], rfl, by simp [fullPackets]⟩
  · obtain ⟨t, h1, h2, h3, h4, h5⟩ := loop_takes d
    exact ⟨t, h1, by omega⟩

/-- C118. Empty packets are not counted for a reason: however many of them are ready, a poll that needs more takes
them all before it returns, and answers as if there were none. -/
theorem c118_empty (n : Nat) (rest : List (SrcEv Bytes)) (st : DState) (hst : st ≠ .finished) :
    DStream.pollNext ⟨Prep.new (List.replicate n (.pkt []) ++ rest), st, []⟩ =
      DStream.pollNext ⟨Prep.new rest, st, []⟩ := by
  induction n with
  | zero => rfl
  | succ n ih =>
    rw [← ih]
    unfold DStream.pollNext
    rw [if_neg hst, if_neg hst, DStream.pollLoop]
    have hs : scanBuf st [] = (st, .nowhere) := rfl
    simp only [List.replicate_succ, List.cons_append]
    split
    · rename_i st' h
      rw [hs] at h
      cases h
      simp [Prep.pollNext, Prep.new]
    all_goals (rename_i h; rw [hs] at h; cases h)

/-- C118. The bounds are reached: in front of the bytes `.`, `CR` and `x` in three packets a new stream takes all
three, gives out the second and the third, and has dropped the first; in front of `.` and `CR` and nothing ready it takes
two; and a stream in the middle of a line takes one. -/
theorem c118_example :
    let d := DStream.new (Prep.new [.pkt [cDOT], .pkt [cCR], .pkt [120], .pkt [121]])
    let e := DStream.new (Prep.new [.pkt [cDOT], .pkt [cCR], .pending, .pkt [cLF]])
    let f : DStream := ⟨Prep.new [.pkt [120], .pkt [121]], .running, []⟩
    (d.pollNext.1 = .ready (some [cCR, 120]) ∧ d.pollNext.2.source.evs = [.pkt [121]]) ∧
    (e.pollNext.1 = .pending ∧ e.pollNext.2.source.evs = [.pkt [cLF]]) ∧
    (f.pollNext.1 = .ready (some [120]) ∧ f.pollNext.2.source.evs = [.pkt [121]]) := by
  decide +kernel

end Verif
