import Verif.Props.Sink
import Verif.Proofs.Lines
/-
C76: the two quickcheck properties of smtp-message/src/data, for all inputs. The first one holds; the second one is
false, and what is true instead is proved.
-/
namespace Verif
open Spec

/-! ### data/mod.rs:67-108, `data_stream_and_sink_are_compatible` -/

/-- C76. What is sent through the encoder in any pieces and received in any packets is the message, completed to whole
lines: `received == raw_input` of the test, for the empty message and for messages ending in CRLF or not. -/
theorem c76_compatible (input : List Bytes) (onTheWire : BSink) (src : List (SrcEv Bytes))
    (hs : DSink.sendMessage ⟨[], []⟩ input = some (true, onTheWire)) (hsrc : evBytes src = onTheWire.out.flatten) :
    (DStream.new (Prep.new src)).readAll.1.flatten =
      if input.flatten = [] then [] else if crlf <:+ input.flatten then input.flatten else input.flatten ++ crlf := by
  have := (c10_roundtrip input ⟨[], []⟩ onTheWire (Prep.new src) [] rfl hs (by
    simpa [Prep.bytes, Prep.new, Prep.evs] using hsrc)).1
  rw [this, wholeLines]
  by_cases h1 : input.flatten = []
  · rw [if_pos (.inl h1), if_pos h1, h1]
  · by_cases h2 : crlf <:+ input.flatten
    · rw [if_pos (.inr h2), if_neg h1, if_pos h2]
    · rw [if_neg (by simp [h1, h2]), if_neg h1, if_neg h2]

/-! ### data/stream.rs:279-299, `all_leading_dots_are_escaped` -/

/-- What the test computes: the text received when the input is followed by the end-of-data marker. -/
def dotTest (v : List Bytes) : Bytes :=
  (DStream.new (Prep.new ((v ++ [b!"\r\n.\r\n"]).map .pkt))).readAll.1.flatten

/-- C76. The test's claim, that the text never contains CRLF dot CRLF, is false: it does as soon as the sender has a line
with a lone dot, properly escaped as two dots. -/
theorem c76_dots_refuted : dotTest [b!"a\r\n..\r\nb"] = b!"a\r\n.\r\nb\r\n" ∧
    b!"\r\n.\r\n" <:+: dotTest [b!"a\r\n..\r\nb"] := by
  have h : dotTest [b!"a\r\n..\r\nb"] = b!"a\r\n.\r\nb\r\n" := by
    refine (c01_decoding _ [b!"a", b!"..", b!"b"] [] ⟨by decide +kernel, ?_⟩).1
    intro l hl
    have nc : ∀ l : Bytes, cCR ∉ l → NoCrlf l := fun l h h' => h (h'.subset (by simp))
    simp only [List.mem_cons, List.not_mem_nil, or_false] at hl
    rcases hl with rfl | rfl | rfl <;> exact ⟨nc _ (by decide), by decide⟩
  refine ⟨h, ?_⟩
  rw [h]
  exact ⟨b!"a", b!"b\r\n", by decide⟩

private theorem infix_line {l t : Bytes} (hl : NoCrlf l) :
    b!"\r\n.\r\n" <:+: l ++ crlf ++ t ↔ b!".\r\n" <+: t ∨ b!"\r\n.\r\n" <:+: t := by
  constructor
  · rintro ⟨x, y, h⟩
    have h : x ++ crlf ++ (b!".\r\n" ++ y) = l ++ crlf ++ t := by rw [← h]; simp [crlf]
    rcases crlf_split x with hx | ⟨a, b, ha, rfl⟩
    · obtain ⟨_, e⟩ := firstCrlf_unique hx hl h
      exact .inl ⟨y, e⟩
    · obtain ⟨_, e⟩ := firstCrlf_unique ha hl (t := b ++ crlf ++ (b!".\r\n" ++ y)) (by rw [← h]; simp)
      exact .inr ⟨b, y, by rw [← e]; simp [crlf]⟩
  · rintro (⟨y, h⟩ | ⟨x, y, h⟩)
    · exact ⟨l, y, by rw [← h]; simp [crlf]⟩
    · exact ⟨l ++ crlf ++ x, y, by rw [← h]; simp⟩

private theorem dot_first {ls : List Bytes} (h : ∀ l ∈ ls, NoCrlf l) :
    b!".\r\n" <+: linesBytes ls ↔ ∃ b, ls = b!"." :: b := by
  cases ls with
  | nil => simp [linesBytes]
  | cons l ls =>
    have hl := h l (by simp)
    constructor
    · rintro ⟨y, e⟩
      obtain ⟨e1, _⟩ := firstCrlf_unique (l := b!".") (t := y) (by
        rintro ⟨a, b, h⟩; have := congrArg List.length h; simp at this; omega) hl
        (t' := linesBytes ls) (by
          have : linesBytes (l :: ls) = l ++ crlf ++ linesBytes ls := by simp [linesBytes]
          rw [← this, ← e]; simp [crlf])
      exact ⟨ls, by rw [← e1]⟩
    · rintro ⟨b, e⟩
      cases e
      exact ⟨linesBytes ls, by simp [linesBytes, crlf]⟩

private theorem infix_lines {ls : List Bytes} (h : ∀ l ∈ ls, NoCrlf l) :
    b!"\r\n.\r\n" <:+: linesBytes ls ↔ ∃ a b, ls = a ++ b!"." :: b ∧ a ≠ [] := by
  induction ls with
  | nil => simp [linesBytes]
  | cons l ls ih =>
    have ih := ih fun x hx => h x (by simp [hx])
    have e : linesBytes (l :: ls) = l ++ crlf ++ linesBytes ls := by simp [linesBytes]
    rw [e, infix_line (h l (by simp)), ih, dot_first fun x hx => h x (by simp [hx])]
    constructor
    · rintro (⟨b, rfl⟩ | ⟨a, b, rfl, _⟩)
      · exact ⟨[l], b, rfl, by simp⟩
      · exact ⟨l :: a, b, rfl, by simp⟩
    · rintro ⟨a, b, e, ha⟩
      cases a with
      | nil => exact absurd rfl ha
      | cons x a =>
        simp only [List.cons_append, List.cons.injEq] at e
        obtain ⟨_, rfl⟩ := e
        cases a with
        | nil => exact .inl ⟨b, rfl⟩
        | cons y a => exact .inr ⟨y :: a, b, rfl, by simp⟩

private theorem noCrlf_dropDot {l : Bytes} (h : NoCrlf l) : NoCrlf (dropDot l) := by
  unfold dropDot
  split
  · exact noCrlf_cons h
  · exact h

private theorem dropDot_dot {l : Bytes} (h : l ≠ b!".") : dropDot l = b!"." ↔ l = b!".." := by
  unfold dropDot
  split
  · simp
  · constructor
    · intro e; exact absurd e h
    · rintro rfl
      rename_i hn
      exact absurd rfl (hn b!".")

/-- C76, what holds instead, for any bytes in any packets: the text contains CRLF dot CRLF exactly when the raw message has,
after its first line, a line consisting of two dots. -/
theorem c76_dots_partial (s : Prep Bytes) (ls : List Bytes) (rest : Bytes) (h : IsMessage s.bytes ls rest) :
    b!"\r\n.\r\n" <:+: (DStream.new s).readAll.1.flatten ↔ ∃ a b, ls = a ++ b!".." :: b ∧ a ≠ [] := by
  rw [(c01_decoding s ls rest h).1]
  have e : decodedLines ls = linesBytes (ls.map dropDot) := by
    simp [decodedLines, linesBytes, List.flatMap_map]
  rw [e, infix_lines (by
    intro l hl
    obtain ⟨l', hl', rfl⟩ := List.mem_map.1 hl
    exact noCrlf_dropDot (h.2 l' hl').1)]
  constructor
  · rintro ⟨a, b, hab, ha⟩
    obtain ⟨a', b', rfl, rfl, hb'⟩ := List.map_eq_append_iff.1 hab
    obtain ⟨x, b'', rfl, hx, rfl⟩ := List.map_eq_cons_iff.1 hb'
    have := (dropDot_dot (h.2 x (by simp)).2).1 hx
    exact ⟨a', b'', by rw [this], by intro h; simp [h] at ha⟩
  · rintro ⟨a, b, rfl, ha⟩
    exact ⟨a.map dropDot, b.map dropDot, by simp [dropDot], by simpa using ha⟩

/-- Hence the test passes for the inputs without such a line. -/
theorem c76_dots_test_partial (v : List Bytes) (h : ¬ b!"\r\n..\r\n" <:+: v.flatten ++ b!"\r\n") :
    ¬ b!"\r\n.\r\n" <:+: dotTest v := by
  have hraw : (Prep.new ((v ++ [b!"\r\n.\r\n"]).map SrcEv.pkt)).bytes = v.flatten ++ b!"\r\n.\r\n" := by
    have : ∀ v : List Bytes, evBytes (v.map SrcEv.pkt) = v.flatten := by
      intro v
      induction v with
      | nil => rfl
      | cons x v ih => simp [ih]
    simp [Prep.bytes, Prep.new, Prep.evs, this, -List.map_append]
  obtain ⟨ls, rest, hm⟩ := (c01_marker_iff (v.flatten ++ b!"\r\n.\r\n")).1 (.inr ⟨v.flatten, [], by simp⟩)
  unfold dotTest
  rw [c76_dots_partial _ ls rest (by rw [hraw]; exact hm)]
  rintro ⟨a, b, rfl, ha⟩
  obtain ⟨e, hls⟩ := hm
  apply h
  -- the text lines end no later than the CRLF before the last dot
  have h1 : linesBytes (a ++ b!".." :: b) ++ b!".\r\n" <+: v.flatten ++ b!"\r\n.\r\n" := ⟨rest, by rw [e]⟩
  have h2 : linesBytes (a ++ b!".." :: b) <+: v.flatten ++ b!"\r\n" := by
    have p1 : linesBytes (a ++ b!".." :: b) <+: v.flatten ++ b!"\r\n.\r\n" := (List.prefix_append _ _).trans h1
    have p2 : v.flatten ++ b!"\r\n" <+: v.flatten ++ b!"\r\n.\r\n" := ⟨b!".\r\n", by simp⟩
    refine List.prefix_of_prefix_length_le p1 p2 ?_
    have := h1.length_le
    simp at this ⊢
    omega
  obtain ⟨a0, l, rfl⟩ : ∃ a0 l, a = a0 ++ [l] := ⟨a.dropLast, a.getLast ha, (List.dropLast_concat_getLast ha).symm⟩
  refine List.IsInfix.trans ?_ h2.isInfix
  exact ⟨linesBytes a0 ++ l, linesBytes b, by simp [linesBytes, crlf]⟩

/-- A case of each. -/
example : (DSink.sendMessage ⟨[], []⟩ [b!".a\r", b!"\n."]).map (fun x => x.2.out.flatten) = some b!"..a\r\n..\r\n.\r\n" := by
  decide +kernel
example : b!"\r\n.\r\n" <:+: (DStream.new (Prep.new [.pkt b!"a\r\n.", .pkt b!".\r\n.\r\nQUIT"])).readAll.1.flatten := by
  refine (c76_dots_partial _ [b!"a", b!".."] b!"QUIT" ⟨by decide +kernel, ?_⟩).2 ⟨[b!"a"], [], rfl, by simp⟩
  intro l hl
  have nc : ∀ l : Bytes, cCR ∉ l → NoCrlf l := fun l h h' => h (h'.subset (by simp))
  simp only [List.mem_cons, List.not_mem_nil, or_false] at hl
  rcases hl with rfl | rfl <;> exact ⟨nc _ (by decide), by decide⟩
example : ¬ b!"\r\n..\r\n" <:+: [b!"..\r\n..a", b!"\r\n."].flatten ++ b!"\r\n" := by
  intro h
  exact absurd h (by decide +kernel)

end Verif
