import Verif.Props.Data
/-
C65: the decoder agrees with the oracle of the project's own fuzz target on every input.
-/
namespace Verif
open Spec

theorem findSub_first {pat s : Bytes} (hp : pat ≠ []) :
    (pat <:+: s → ∃ A B, s = A ++ pat ++ B ∧ findSub pat s = some A.length ∧
      ∀ A' B', s = A' ++ pat ++ B' → A.length ≤ A'.length) ∧
    (¬ pat <:+: s → findSub pat s = none) := by
  induction s with
  | nil => simp [findSub, hp]
  | cons c r ih =>
    rw [findSub]
    by_cases h : pat <+: c :: r
    · have hb : pat.isPrefixOf (c :: r) = true := by simpa using h
      rw [if_pos hb]
      refine ⟨fun _ => ?_, fun hn => absurd h.isInfix hn⟩
      obtain ⟨B, hB⟩ := h
      exact ⟨[], B, by simp [hB], rfl, by simp⟩
    · have hb : ¬ pat.isPrefixOf (c :: r) = true := by simpa using h
      rw [if_neg hb]
      refine ⟨fun hi => ?_, fun hn => ?_⟩
      · rcases List.infix_cons_iff.1 hi with h' | h'
        · exact absurd h' h
        · obtain ⟨A, B, h1, h2, h3⟩ := ih.1 h'
          refine ⟨c :: A, B, by simp [h1], by simp [h2], ?_⟩
          intro A' B' he
          cases A' with
          | nil => exact absurd ⟨B', by simpa using he.symm⟩ h
          | cons a A' =>
            simp only [List.cons_append, List.cons.injEq] at he
            simpa using h3 A' B' he.2
      · rw [ih.2 (fun h' => hn (List.infix_cons_iff.2 (.inr h')))]; rfl

/-- The decoder state is determined by the two raw bytes before. -/
def Ctx (st : DState) (a b : Byte) : Prop :=
  (st = .crLfPassed ↔ a = cCR ∧ b = cLF) ∧ (st = .crPassed ↔ b = cCR)

theorem ctx_next {st : DState} {a b c : Byte} (h : Ctx st a b) : Ctx (st.next c) b c := by
  unfold DState.next
  unfold Ctx at *
  by_cases h1 : c = cCR
  · simp [h1]
  · by_cases h2 : st = .crPassed ∧ c = cLF
    · have := h.2.1 h2.1
      simp [h2, this]
    · rw [if_neg h1, if_neg h2]
      simp [h1]
      intro hb hc
      exact h2 ⟨h.2.2 hb, hc⟩

theorem naiveWindows_eq (st : DState) (a b : Byte) (t o : Bytes) (hc : Ctx st a b)
    (h : decode st (t ++ b!".\r\n") = (o, some [])) : naiveWindows (a :: b :: t) = o := by
  induction t generalizing st a b o with
  | nil =>
    simp only [List.nil_append] at h
    simp only [naiveWindows]
    by_cases hs : st = .crLfPassed
    · subst hs; rw [decode_marker] at h; simp at h; exact h.symm
    · rw [decode_cons_of_not (by simp [hs])] at h
      have e : st.next cDOT = .running := by simp [DState.next]
      rw [e] at h
      simp [pfx, decode, DState.next] at h
  | cons c r ih =>
    rw [naiveWindows]
    by_cases hd : st = .crLfPassed ∧ c = cDOT
    · obtain ⟨rfl, rfl⟩ := hd
      rw [if_pos ⟨(hc.1.1 rfl).1, (hc.1.1 rfl).2, rfl⟩]
      refine ih .running b cDOT o ?_ ?_
      · simp [Ctx]
      · rw [← h]
        match r with
        | [] => exact (decode_dot (by simp)).symm
        | [d] => exact (decode_dot (by simp)).symm
        | d :: e :: r =>
          by_cases hm : d = cCR ∧ e = cLF
          · obtain ⟨rfl, rfl⟩ := hm
            simp only [List.cons_append] at h
            rw [decode_marker] at h
            simp at h
          · exact (decode_dot hm).symm
    · rw [if_neg (fun ⟨h1, h2, h3⟩ => hd ⟨hc.1.2 ⟨h1, h2⟩, h3⟩)]
      rw [List.cons_append, decode_cons_of_not hd] at h
      rcases hx : decode (st.next c) (r ++ b!".\r\n") with ⟨o', q⟩
      rw [hx] at h
      simp [pfx] at h
      obtain ⟨rfl, rfl⟩ := h
      rw [ih _ b c o' (ctx_next hc) hx]

theorem naive_text {X o : Bytes} (h2 : 2 ≤ X.length) (h : decode .crLfPassed (X ++ b!".\r\n") = (o, some [])) :
    (if X.take 1 = b!"." then (X.take 2).drop 1 else X.take 2) ++ naiveWindows X = o := by
  match X, h2 with
  | a :: b :: t, _ =>
    by_cases ha : a = cDOT
    · subst ha
      have hd : decode .crLfPassed (cDOT :: b :: t ++ b!".\r\n") = decode .running (b :: (t ++ b!".\r\n")) := by
        match t with
        | [] => exact decode_dot (by simp)
        | e :: r =>
          by_cases hm : b = cCR ∧ e = cLF
          · obtain ⟨rfl, rfl⟩ := hm
            simp only [List.cons_append] at h
            rw [decode_marker] at h
            simp at h
          · exact decode_dot hm
      rw [hd, decode_cons_of_not (by simp)] at h
      rcases hx : decode (DState.running.next b) (t ++ b!".\r\n") with ⟨o', q⟩
      rw [hx] at h
      simp [pfx] at h
      obtain ⟨rfl, rfl⟩ := h
      have := naiveWindows_eq _ cDOT b t o' (ctx_next (by simp [Ctx] : Ctx .running cDOT cDOT)) hx
      simp [this]
    · rw [List.cons_append, decode_cons_of_not (by simp [ha])] at h
      have h1 : ¬ (DState.crLfPassed.next a = .crLfPassed ∧ b = cDOT) := by
        unfold DState.next; simp; split <;> simp
      rw [List.cons_append, decode_cons_of_not h1] at h
      rcases hx : decode ((DState.crLfPassed.next a).next b) (t ++ b!".\r\n") with ⟨o', q⟩
      rw [hx] at h
      simp [pfx] at h
      obtain ⟨rfl, rfl⟩ := h
      have hc : Ctx DState.crLfPassed cCR cLF := by simp [Ctx]
      have := naiveWindows_eq _ a b t o' (ctx_next (ctx_next hc)) hx
      simp [this, ha]

theorem naive_decode (raw : Bytes) :
    naive raw = match decode .crLfPassed raw with
      | (o, some r) => some (o, r)
      | (_, none) => none := by
  rcases message_or_unfinished raw with ⟨ls, rest, hm⟩ | ⟨ls, part, hu⟩
  · rw [decode_message hm]
    simp only
    by_cases hls : ls = []
    · subst hls
      have : raw = b!".\r\n" ++ rest := by simpa [linesBytes] using hm.1
      subst this
      simp [naive, naiveEof, decodedLines]
    · obtain ⟨ls', l, rfl⟩ := (List.eq_nil_or_concat ls).resolve_left hls
      have hraw : raw = (linesBytes ls' ++ l) ++ b!"\r\n.\r\n" ++ rest := by
        rw [hm.1]; simp [linesBytes]
      have h3 : ¬ raw.take 3 = b!".\r\n" := by
        intro h3
        have h4 : IsMessage raw [] (raw.drop 3) := by
          refine ⟨?_, by simp⟩
          rw [← h3]
          simp [linesBytes]
        have h5 := (isMessage_unique hm h4).2
        simp [decodedLines] at h5
      have hne : b!"\r\n.\r\n" ≠ [] := by simp
      obtain ⟨A, B, e1, e2, e3⟩ := (findSub_first hne).1 ⟨_, _, hraw.symm⟩
      have hAY : A.length = (linesBytes ls' ++ l).length := by
        have hle := e3 _ _ hraw
        have hmk : HasMarker (A ++ b!"\r\n.\r\n") := .inr (List.suffix_append _ _).isInfix
        obtain ⟨ls2, rest2, hm2⟩ := (c01_marker_iff _).1 hmk
        have hm3 : IsMessage raw ls2 (rest2 ++ B) := ⟨by rw [e1, hm2.1]; simp, hm2.2⟩
        have h6 := (isMessage_unique hm hm3).1
        have h7 := congrArg List.length h6
        have h8 := congrArg List.length e1
        have h9 := congrArg List.length hraw
        simp only [List.length_append, List.length_cons, List.length_nil] at h7 h8 h9 hle ⊢
        omega
      have hX : raw.take (A.length + 2) = linesBytes (ls'.concat l) := by
        rw [hAY, hm.1, List.append_assoc]
        exact List.take_left' (by simp [linesBytes]; omega)
      have hR : raw.drop (A.length + 5) = rest := by
        rw [hAY, hraw]
        exact List.drop_left' (by simp; omega)
      have hX2 : 2 ≤ (linesBytes (ls'.concat l)).length := by simp [linesBytes]; omega
      have hdec := decode_message (raw := linesBytes (ls'.concat l) ++ b!".\r\n") (ls := ls'.concat l) (rest := [])
        ⟨by simp, hm.2⟩
      have key := naive_text hX2 hdec
      simp only [naive, naiveEof, if_neg h3, e2, Option.map_some]
      rw [if_neg (by omega)]
      have t1 : raw.take 1 = (linesBytes (ls'.concat l)).take 1 := by
        rw [← hX, List.take_take]; congr 1
      have t2 : raw.take 2 = (linesBytes (ls'.concat l)).take 2 := by
        rw [← hX, List.take_take]; congr 1
      rw [hX, hR, t1, t2, key]
  · rw [decode_unfinished hu]
    have hno := (c03_no_marker_iff raw).2 ⟨ls, part, hu⟩
    have h3 : ¬ raw.take 3 = b!".\r\n" := by
      intro h; exact hno (.inl ⟨raw.drop 3, by rw [← h]; simp⟩)
    have h4 := (findSub_first (s := raw) (pat := b!"\r\n.\r\n") (by simp)).2 (fun h => hno (.inr h))
    simp only [naive, naiveEof, if_neg h3, h4, Option.map_none]

/-- C65. The assertion of fuzz_targets/fuzz_data_parser.rs holds on every input: `Some((output,
remaining))` if the stream was terminated, `None` otherwise, as computed by the naive algorithm. -/
theorem c65_fuzz_oracle (s : Prep Bytes) :
    (match observe s with
      | (out, .ok (true, remaining)) => some (out, remaining)
      | _ => none) = naive s.bytes := by
  rw [naive_decode]
  rcases message_or_unfinished s.bytes with ⟨ls, rest, hm⟩ | ⟨ls, part, hu⟩
  · obtain ⟨h1, d, h2, _⟩ := c01_decoding s ls rest hm
    obtain ⟨d', h3, h4⟩ := c02_leftover s ls rest hm
    rw [h2] at h3; simp at h3; subst h3
    simp [observe, h1, h2, h4, Except.map, decode_message hm]
  · obtain ⟨h1, d, h2⟩ := c03_early_end s ls part hu
    simp [observe, h1, h2, Except.map, decode_unfinished hu]

example : naive b!".x\r\n..\r\n.\r\nREST" = some (b!"x\r\n.\r\n", b!"REST") := by decide

end Verif
