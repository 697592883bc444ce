import Verif.Model.Data
import Verif.Spec.Data
/-
The poll-level `DataStream` computes the one-byte-at-a-time function `decode`.
-/
namespace Verif

/-- States in which the stream is still scanning. -/
def DState.Active (s : DState) : Prop := s = .running ∨ s = .crPassed ∨ s = .crLfPassed

/-- One-byte state update, away from a dot that starts a line. -/
def DState.next (st : DState) (c : Byte) : DState :=
  if c = cCR then .crPassed else if st = .crPassed ∧ c = cLF then .crLfPassed else .running

theorem DState.Active.ne_early {s : DState} (h : s.Active) : s ≠ .earlyFin := by
  rcases h with rfl | rfl | rfl <;> simp

theorem DState.next_active (st : DState) (c : Byte) : (st.next c).Active := by
  unfold DState.next DState.Active; split
  · simp
  · split <;> simp

/-- Reference decoding: the text delivered, and the bytes after the marker if it was found. -/
def decode (st : DState) : Bytes → Bytes × Option Bytes
  | [] => ([], none)
  | c :: t =>
    if st = .crLfPassed ∧ c = cDOT then
      match t with
      | [] => ([], none)
      | [d] => if d = cCR then ([], none) else decode .running [d]
      | d :: e :: r => if d = cCR ∧ e = cLF then ([], some r) else decode .running (d :: e :: r)
    else
      (c :: (decode (st.next c) t).1, (decode (st.next c) t).2)

/-- Prepend already-delivered text. -/
def pfx (o : Bytes) (p : Bytes × Option Bytes) : Bytes × Option Bytes := (o ++ p.1, p.2)

@[simp] theorem pfx_nil (p) : pfx [] p = p := rfl
@[simp] theorem pfx_pfx (a b p) : pfx a (pfx b p) = pfx (a ++ b) p := by simp [pfx]
theorem pfx_cons (c : Byte) (p) : (c :: p.1, p.2) = pfx [c] p := rfl

theorem decode_cons_of_not {st : DState} {c : Byte} {t : Bytes} (h : ¬ (st = .crLfPassed ∧ c = cDOT)) :
    decode st (c :: t) = pfx [c] (decode (st.next c) t) := by
  rw [decode.eq_def]; simp only [if_neg h]; rfl

theorem decode_marker {r : Bytes} : decode .crLfPassed (cDOT :: cCR :: cLF :: r) = ([], some r) := by
  simp [decode]

/-- A line-starting dot not followed by CR LF is dropped. -/
theorem decode_dot {d e : Byte} {r : Bytes} (h : ¬ (d = cCR ∧ e = cLF)) :
    decode .crLfPassed (cDOT :: d :: e :: r) = decode .running (d :: e :: r) := by
  rw [decode]; simp [h]

theorem decode_dot' {d : Byte} {r : Bytes} (h : d ≠ cCR) :
    decode .crLfPassed (cDOT :: d :: r) = decode .running (d :: r) := by
  cases r with
  | nil => rw [decode.eq_def]; simp [h]
  | cons e r => exact decode_dot (by simp [h])

/-- Both scans as one recursion (proof device). -/
def scanAll (st : DState) (idx : Nat) : Bytes → DState × BufSplit
  | [] => (st, .nowhere)
  | [z] =>
    if st = .crLfPassed ∧ z = cDOT then (st, .unknown idx)
    else if z = cCR then (.crPassed, .nowhere)
    else if st = .crPassed ∧ z = cLF then (.crLfPassed, .nowhere)
    else (.running, .nowhere)
  | [y, z] =>
    if st = .crLfPassed ∧ y = cDOT ∧ z = cCR then (st, .unknown idx)
    else if st = .crPassed ∧ y = cLF ∧ z = cDOT then (.crLfPassed, .unknown (idx + 1))
    else if st = .crLfPassed ∧ y = cDOT then (st, .escape idx)
    else if y = cCR ∧ z = cLF then (.crLfPassed, .nowhere)
    else if z = cCR then (.crPassed, .nowhere)
    else (.running, .nowhere)
  | w0 :: w1 :: w2 :: rest =>
    if w0 = cCR then scanAll .crPassed (idx + 1) (w1 :: w2 :: rest)
    else if st = .crPassed ∧ w0 = cLF then scanAll .crLfPassed (idx + 1) (w1 :: w2 :: rest)
    else if st = .crLfPassed ∧ w0 = cDOT then
      if w1 = cCR ∧ w2 = cLF then (st, .eof idx) else (st, .escape idx)
    else scanAll .running (idx + 1) (w1 :: w2 :: rest)

theorem scanLast_pair (st : DState) (pre : Bytes) (y z : Byte) :
    scanLast st (pre ++ [y, z]) = scanAll st pre.length [y, z] := by
  simp [scanLast, scanAll]

theorem scan_eq (pre : Bytes) (st : DState) (buf : Bytes) (h : 2 ≤ buf.length) :
    (match scanWindows st pre.length buf with
      | (st', .nowhere) => scanLast st' (pre ++ buf)
      | r => r) = scanAll st pre.length buf := by
  match buf, h with
  | [y, z], _ => simpa [scanWindows] using scanLast_pair st pre y z
  | w0 :: w1 :: w2 :: rest, _ =>
    have ih := fun st' => scan_eq (pre ++ [w0]) st' (w1 :: w2 :: rest) (by simp)
    simp only [List.length_append, List.length_cons, List.length_nil, Nat.zero_add, List.append_assoc,
      List.cons_append, List.nil_append] at ih
    by_cases c1 : w0 = cCR
    · simp only [scanWindows, scanAll, if_pos c1]; exact ih _
    by_cases c2 : st = .crPassed ∧ w0 = cLF
    · simp only [scanWindows, scanAll, if_neg c1, if_pos c2]; exact ih _
    by_cases c3 : st = .crLfPassed ∧ w0 = cDOT
    · simp only [scanWindows, scanAll, if_neg c1, if_neg c2, if_pos c3]
      by_cases c4 : w1 = cCR ∧ w2 = cLF
      · simp only [if_pos c4]
      · simp only [if_neg c4]
    · simp only [scanWindows, scanAll, if_neg c1, if_neg c2, if_neg c3]; exact ih _
termination_by buf.length

theorem scanBuf_eq (st : DState) (buf : Bytes) : scanBuf st buf = scanAll st 0 buf := by
  unfold scanBuf
  match buf with
  | [] => simp [scanWindows, scanLast, scanAll]
  | [z] => simp [scanWindows, scanLast, scanAll]
  | y :: z :: r => exact scan_eq [] st (y :: z :: r) (by simp)

/-- What a scan result means for the bytes still to be decoded, `more` being what has not arrived. -/
def SplitOk (st : DState) (buf : Bytes) (idx : Nat) (more : Bytes) : DState × BufSplit → Prop
  | (st', .nowhere) => (st'.Active ∧ decode st (buf ++ more) = pfx buf (decode st' more))
  | (_, .eof n) => ∃ a b, buf = a ++ b!".\r\n" ++ b ∧ n = idx + a.length ∧
      decode st (buf ++ more) = (a, some (b ++ more))
  | (_, .escape n) => ∃ a b, buf = a ++ b!"." ++ b ∧ n = idx + a.length ∧
      decode st (buf ++ more) = pfx a (decode .running (b ++ more))
  | (st', .unknown n) => ∃ a b, buf = a ++ b ∧ n = idx + a.length ∧ st' = .crLfPassed ∧
      (b = b!"." ∨ b = b!".\r") ∧
      decode st (buf ++ more) = pfx a (decode .crLfPassed (b ++ more))

theorem SplitOk.cons {st st1 : DState} {c : Byte} {buf : Bytes} {idx : Nat} {more : Bytes} {r}
    (h : SplitOk st1 buf (idx + 1) more r)
    (hd : decode st (c :: (buf ++ more)) = pfx [c] (decode st1 (buf ++ more))) :
    SplitOk st (c :: buf) idx more r := by
  obtain ⟨st', sp⟩ := r
  cases sp with
  | nowhere =>
    obtain ⟨ha, hb⟩ := h
    refine ⟨ha, ?_⟩
    rw [List.cons_append, hd, hb]; simp
  | eof n =>
    obtain ⟨a, b, h1, h2, h3⟩ := h
    refine ⟨c :: a, b, by simp [h1], by simp; omega, ?_⟩
    rw [List.cons_append, hd, h3]; simp [pfx]
  | escape n =>
    obtain ⟨a, b, h1, h2, h3⟩ := h
    refine ⟨c :: a, b, by simp [h1], by simp; omega, ?_⟩
    rw [List.cons_append, hd, h3]; simp
  | unknown n =>
    obtain ⟨a, b, h1, h2, h4, h5, h3⟩ := h
    refine ⟨c :: a, b, by simp [h1], by simp; omega, h4, h5, ?_⟩
    rw [List.cons_append, hd, h3]; simp

theorem scanAll_ok (st : DState) (idx : Nat) (buf more : Bytes) (h : st.Active) :
    SplitOk st buf idx more (scanAll st idx buf) := by
  match buf with
  | [] => simpa [scanAll, SplitOk] using h
  | [z] =>
    rw [scanAll]
    split
    · rename_i hc
      exact ⟨[], [z], by simp, by simp, hc.1, by simp [hc.2], by simp [hc.1]⟩
    · rename_i hc
      have := decode_cons_of_not (t := more) hc
      split
      · refine ⟨by simp [DState.Active], ?_⟩
        simp_all [DState.next]
      · split
        · refine ⟨by simp [DState.Active], ?_⟩
          simp_all [DState.next]
        · refine ⟨by simp [DState.Active], ?_⟩
          simp_all [DState.next]
  | [y, z] =>
    rw [scanAll]
    split
    · rename_i hc
      exact ⟨[], [y, z], by simp, by simp, hc.1, by simp [hc.2], by simp [hc.1]⟩
    · rename_i hc
      split
      · rename_i hd
        obtain ⟨rfl, rfl, rfl⟩ := hd
        refine ⟨[cLF], [cDOT], by simp, by simp, rfl, by simp, ?_⟩
        have := decode_cons_of_not (st := .crPassed) (c := cLF) (t := cDOT :: more) (by simp)
        simpa [DState.next] using this
      · rename_i hd
        split
        · rename_i he
          obtain ⟨rfl, rfl⟩ := he
          refine ⟨[], [z], by simp, by simp, ?_⟩
          simpa using decode_dot' (r := more) (by simpa using hc)
        · rename_i he
          have h1 := decode_cons_of_not (t := z :: more) he
          have h2 : ¬ (st.next y = .crLfPassed ∧ z = cDOT) := by
            unfold DState.next
            rcases h with rfl | rfl | rfl <;> grind
          have h3 := decode_cons_of_not (t := more) h2
          have h4 : ∀ s, s.Active → (st.next y).next z = s → SplitOk st [y, z] idx more (s, .nowhere) := by
            intro s hs he
            refine ⟨hs, ?_⟩
            simp [h1, h3, he]
          split
          · exact h4 _ (by simp [DState.Active]) (by simp_all [DState.next])
          · split
            · exact h4 _ (by simp [DState.Active]) (by simp_all [DState.next])
            · refine h4 _ (by simp [DState.Active]) ?_
              simp_all [DState.next]
              grind
  | w0 :: w1 :: w2 :: rest =>
    have ih := fun st' h' => scanAll_ok st' (idx + 1) (w1 :: w2 :: rest) more h'
    rw [scanAll]
    split
    · rename_i hc
      refine (ih .crPassed (by simp [DState.Active])).cons ?_
      rw [decode_cons_of_not (by simp [hc])]
      simp [DState.next, hc]
    · rename_i hc
      split
      · rename_i hd
        refine (ih .crLfPassed (by simp [DState.Active])).cons ?_
        rw [decode_cons_of_not (by simp [hd])]
        simp [DState.next, hd]
      · rename_i hd
        split
        · rename_i he
          obtain ⟨rfl, rfl⟩ := he
          split
          · rename_i hf
            obtain ⟨rfl, rfl⟩ := hf
            exact ⟨[], rest, by simp, by simp, by simp [decode_marker]⟩
          · rename_i hf
            exact ⟨[], w1 :: w2 :: rest, by simp, by simp, by simpa using decode_dot hf⟩
        · rename_i he
          refine (ih .running (by simp [DState.Active])).cons ?_
          rw [decode_cons_of_not he]
          simp [DState.next, hc, hd]
termination_by buf.length

theorem scanBuf_ok (st : DState) (buf more : Bytes) (h : st.Active) :
    SplitOk st buf 0 more (scanBuf st buf) := by
  rw [scanBuf_eq]; exact scanAll_ok st 0 buf more h

end Verif
