import Verif.Proofs.DataLines
/-
`DataSink` writes the dot-stuffed message.
-/
namespace Verif
open Spec

/-- One-byte state update of the sink, away from a dot that starts a line. -/
def KState.next (st : KState) (c : Byte) : KState :=
  if c = cCR then .crPassed else if st = .crPassed ∧ c = cLF then .crLfPassed else .running

/-- Reference encoding, byte by byte. -/
def encode (st : KState) : Bytes → Bytes × KState
  | [] => ([], st)
  | c :: t =>
    if st = .crLfPassed ∧ c = cDOT then
      (cDOT :: cDOT :: (encode .running t).1, (encode .running t).2)
    else (c :: (encode (st.next c) t).1, (encode (st.next c) t).2)

theorem encode_append (st : KState) (a b : Bytes) :
    encode st (a ++ b) = ((encode st a).1 ++ (encode (encode st a).2 b).1, (encode (encode st a).2 b).2) := by
  induction a generalizing st with
  | nil => simp [encode]
  | cons c t ih =>
    simp only [List.cons_append, encode]
    split <;> simp [ih]

theorem sinkScan_spec (st : KState) (p : Nat) (item : Bytes) :
    match sinkScan st p item with
    | (st', none) => encode st item = (item, st')
    | (st', some n) => ∃ a b, item = a ++ cDOT :: b ∧ n = p + a.length ∧ st' = .running ∧
        encode st a = (a, .crLfPassed) := by
  induction item generalizing st p with
  | nil => simp [sinkScan, encode]
  | cons c t ih =>
    have key : ∀ st1, st.next c = st1 → ¬ (st = .crLfPassed ∧ c = cDOT) →
        match sinkScan st1 (p + 1) t with
        | (st', none) => encode st (c :: t) = (c :: t, st')
        | (st', some n) => ∃ a b, c :: t = a ++ cDOT :: b ∧ n = p + a.length ∧ st' = .running ∧
            encode st a = (a, .crLfPassed) := by
      intro st1 h1 h2
      have := ih st1 (p + 1)
      revert this
      split
      · intro h
        rw [encode, if_neg h2, h1, h]
      · rintro ⟨a, b, rfl, rfl, h5, h6⟩
        refine ⟨c :: a, b, rfl, by simp; omega, h5, ?_⟩
        rw [encode, if_neg h2, h1, h6]
    by_cases h : c = cCR
    · simp only [sinkScan, if_pos h]
      exact key .crPassed (by simp [KState.next, h]) (by simp [h])
    by_cases h' : st = .crPassed ∧ c = cLF
    · simp only [sinkScan, if_neg h, if_pos h']
      exact key .crLfPassed (by simp [KState.next, h']) (by simp [h'])
    by_cases h'' : st = .crLfPassed ∧ c = cDOT
    · simp only [sinkScan, if_neg h, if_neg h', if_pos h'']
      exact ⟨[], t, by simp [h''], by simp, trivial, by simp [encode, h'']⟩
    · simp only [sinkScan, if_neg h, if_neg h', if_neg h'']
      exact key .running (by simp only [KState.next, if_neg h, if_neg h']) h''

/-- A run of the underlying sink that accepted `new` more. -/
theorem BSink.send_cases (s : BSink) (item : Bytes) :
    (∃ s', s.send item = (true, s') ∧ s'.out = s.out ++ [item]) ∨
    (∃ s', s.send item = (false, s') ∧ (s'.out = s.out ∨ s'.out = s.out ++ [item])) := by
  obtain ⟨out, plan⟩ := s
  match plan with
  | [] => left; exact ⟨_, rfl, rfl⟩
  | .ok :: p => left; exact ⟨_, rfl, rfl⟩
  | .errDropped :: p => right; exact ⟨_, rfl, .inl rfl⟩
  | .errAccepted :: p => right; exact ⟨_, rfl, .inr rfl⟩

/-- Outcome of sending the bytes `m` starting from sink `k`. -/
def SendOk (k : DSink) (m : Bytes) : Option (Bool × DSink) → Prop
  | none => False
  | some (true, k') => ∃ new, k'.sink.out = k.sink.out ++ new ∧ (new.flatten, k'.state) = encode k.state m
  | some (false, k') => ∃ new, k'.sink.out = k.sink.out ++ new ∧ new.flatten <+: (encode k.state m).1

theorem sendLoop_ok (fuel : Nat) (k : DSink) (item : Bytes)
    (hf : item.length + 2 ≤ fuel ∨ (k.state = .running ∧ item.length + 1 ≤ fuel)) :
    SendOk k item (DSink.sendLoop fuel k item) := by
  induction fuel generalizing k item with
  | zero => omega
  | succ fuel ih =>
    rw [DSink.sendLoop]
    have hs := sinkScan_spec k.state 0 item
    rcases hsc : sinkScan k.state 0 item with ⟨st, _ | pos⟩
    · rw [hsc] at hs
      simp only at hs ⊢
      rcases k.sink.send_cases item with ⟨s', h1, h2⟩ | ⟨s', h1, h2⟩
      · simp only [h1]
        exact ⟨[item], h2, by simp [hs]⟩
      · simp only [h1]
        rcases h2 with h2 | h2
        · exact ⟨[], by simp [h2], by simp⟩
        · exact ⟨[item], by simp [h2], by simp [hs]⟩
    · rw [hsc] at hs
      simp only at hs ⊢
      obtain ⟨a, b, rfl, rfl, rfl, he⟩ := hs
      have henc : encode k.state (a ++ cDOT :: b)
          = (a ++ [cDOT] ++ (encode .running (cDOT :: b)).1, (encode .running (cDOT :: b)).2) := by
        rw [encode_append, he]
        simp [encode, KState.next]
      have htake : (a ++ cDOT :: b).take (0 + a.length + 1) = a ++ [cDOT] := by
        rw [List.take_append, List.take_of_length_le (by omega)]; simp
      have hdrop : (a ++ cDOT :: b).drop (0 + a.length) = cDOT :: b := by simp
      rw [htake, hdrop]
      rcases k.sink.send_cases (a ++ [cDOT]) with ⟨s', h1, h2⟩ | ⟨s', h1, h2⟩
      · simp only [h1, if_true]
        have hfuel : (cDOT :: b).length + 1 ≤ fuel := by
          rcases hf with hf | ⟨hr, hf⟩
          · simp at hf ⊢; omega
          · have : a ≠ [] := by
              rintro rfl
              simp [encode, hr] at he
            have := List.length_pos_iff.2 this
            simp at hf ⊢; omega
        have := ih { sink := s', state := .running } (cDOT :: b) (.inr ⟨rfl, hfuel⟩)
        revert this
        generalize DSink.sendLoop fuel { sink := s', state := .running } (cDOT :: b) = r
        match r with
        | none => exact fun h => h
        | some (true, k') =>
          rintro ⟨new, h3, h4⟩
          refine ⟨[a ++ [cDOT]] ++ new, by simp [h3, h2], ?_⟩
          rw [henc, ← h4]; simp
        | some (false, k') =>
          rintro ⟨new, h3, h4⟩
          refine ⟨[a ++ [cDOT]] ++ new, by simp [h3, h2], ?_⟩
          rw [henc]; simpa using h4
      · simp only [h1]
        rcases h2 with h2 | h2
        · exact ⟨[], by simp [h2], by simp⟩
        · refine ⟨[a ++ [cDOT]], by simp [h2], ?_⟩
          rw [henc]; simp

theorem send_ok (k : DSink) (item : Bytes) : SendOk k item (k.send item) :=
  sendLoop_ok _ k item (.inl (Nat.le_refl _))

theorem sendAll_ok (k : DSink) (chunks : List Bytes) : SendOk k chunks.flatten (k.sendAll chunks) := by
  induction chunks generalizing k with
  | nil => exact ⟨[], by simp, by simp [encode]⟩
  | cons c cs ih =>
    rw [DSink.sendAll]
    have h := send_ok k c
    rcases hk : k.send c with _ | ⟨_ | _, k'⟩
    · rw [hk] at h; exact h
    · rw [hk] at h
      obtain ⟨new, h1, h2⟩ := h
      refine ⟨new, h1, ?_⟩
      rw [List.flatten_cons, encode_append]
      exact h2.trans (List.prefix_append _ _)
    · rw [hk] at h
      obtain ⟨new, h1, h2⟩ := h
      have := ih k'
      revert this
      simp only
      generalize DSink.sendAll k' cs = r
      have e1 : new.flatten = (encode k.state c).1 := by rw [← h2]
      have e2 : k'.state = (encode k.state c).2 := by rw [← h2]
      match r with
      | none => exact fun h => h
      | some (true, k2) =>
        rintro ⟨new', h3, h4⟩
        refine ⟨new ++ new', by simp [h3, h1], ?_⟩
        rw [List.flatten_cons, encode_append, ← e1, ← e2, ← h4]; simp
      | some (false, k2) =>
        rintro ⟨new', h3, h4⟩
        refine ⟨new ++ new', by simp [h3, h1], ?_⟩
        rw [List.flatten_cons, encode_append, ← e1, ← e2]
        simpa using h4

/-! ### `encode` and lines -/

theorem encode_pass {st : KState} {l : Bytes} (hn : NoCrlf l)
    (h1 : st = .crPassed → l.head? ≠ some cLF) (h2 : st = .crLfPassed → l.head? ≠ some cDOT) :
    (encode st l).1 = l ∧ (l ≠ [] → (encode st l).2 ≠ .crLfPassed) := by
  induction l generalizing st with
  | nil => simp [encode]
  | cons c l ih =>
    have h3 : ¬ (st = .crLfPassed ∧ c = cDOT) := fun h => h2 h.1 (by simp [h.2])
    have h4 : ¬ (st = .crPassed ∧ c = cLF) := fun h => h1 h.1 (by simp [h.2])
    have h5 : st.next c ≠ .crLfPassed := by
      unfold KState.next; rw [if_neg h4]; split <;> simp
    have := ih (st := st.next c) (noCrlf_cons hn) (by
      intro h
      unfold KState.next at h
      split at h
      · rename_i hc; subst hc; exact noCrlf_head hn
      · simp at h) (fun h => absurd h h5)
    rw [encode, if_neg h3]
    refine ⟨by simp [this.1], fun _ => ?_⟩
    by_cases hl : l = []
    · subst hl; simpa [encode] using h5
    · exact this.2 hl

theorem encode_crlf (st : KState) : encode st crlf = (crlf, .crLfPassed) := by
  simp [encode, KState.next]

theorem encode_line {l : Bytes} (hn : NoCrlf l) :
    (encode .crLfPassed l).1 = addDot l ∧ (l ≠ [] → (encode .crLfPassed l).2 ≠ .crLfPassed) := by
  by_cases h : l.head? = some cDOT
  · match l with
    | [] => simp at h
    | c :: l =>
      simp at h; subst h
      have := encode_pass (st := .running) (noCrlf_cons hn) (by simp) (by simp)
      simp only [encode, and_self, if_true, addDot, this.1, true_and]
      intro _
      by_cases hl : l = []
      · subst hl; simp [encode]
      · exact this.2 hl
  · have := encode_pass (st := .crLfPassed) hn (by simp) (fun _ => h)
    refine ⟨?_, this.2⟩
    rw [this.1]
    unfold addDot
    split
    · simp at h
    · rfl

theorem splitCrlf_noCrlf {l : Bytes} (h : NoCrlf l) : splitCrlf l = [l] := by
  fun_induction splitCrlf l with
  | case1 => rfl
  | case2 => rfl
  | case3 c d r hc ih => exact absurd ⟨[], r, by simp [hc]⟩ h
  | case4 c d r hc l ls hs ih => rw [ih (noCrlf_cons h)] at hs; simp at hs; simp [hs]
  | case5 c d r hc hs ih => rw [ih (noCrlf_cons h)] at hs; simp at hs

theorem splitCrlf_line {l t : Bytes} (h : NoCrlf l) : splitCrlf (l ++ crlf ++ t) = l :: splitCrlf t := by
  induction l with
  | nil => simp [splitCrlf]
  | cons c l ih =>
    have ih := ih (noCrlf_cons h)
    cases l with
    | nil =>
      simp only [List.nil_append, List.cons_append] at ih ⊢
      rw [splitCrlf, if_neg (by simp), ih]
    | cons d l =>
      simp only [List.cons_append] at ih ⊢
      rw [splitCrlf, if_neg, ih]
      rintro ⟨rfl, rfl⟩
      exact h ⟨[], l, by simp⟩

theorem splitCrlf_ne_nil (m : Bytes) : splitCrlf m ≠ [] := by
  fun_cases splitCrlf m <;> simp

theorem crlf_suffix_line {l t : Bytes} : (l ++ crlf ++ t = [] ∨ crlf <:+ l ++ crlf ++ t) ↔ (t = [] ∨ crlf <:+ t) ∨ ∃ c, t = [c] ∧ False := by
  simp only [and_false, exists_false, or_false]
  constructor
  · rintro (h | h)
    · simp at h
    · match t with
      | [] => exact .inl rfl
      | [c] =>
        obtain ⟨x, hx⟩ := h
        have : (x ++ crlf).reverse = (l ++ crlf ++ [c]).reverse := by rw [hx]
        simp at this
      | c :: d :: t =>
        right
        have h1 : c :: d :: t <:+ l ++ crlf ++ c :: d :: t := List.suffix_append _ _
        exact List.suffix_of_suffix_length_le h h1 (by simp)
  · rintro (rfl | h)
    · right; simp
    · right; exact h.trans (List.suffix_append _ _)

theorem encode_stuff (m : Bytes) :
    (encode .crLfPassed m).1 = stuff m ∧
      ((encode .crLfPassed m).2 = .crLfPassed ↔ (m = [] ∨ crlf <:+ m)) := by
  rcases crlf_split m with h | ⟨l, t, hl, rfl⟩
  · have h1 := encode_line h
    refine ⟨by simp [stuff, splitCrlf_noCrlf h, joinCrlf, h1.1], ?_⟩
    constructor
    · intro he
      left
      false_or_by_contra
      exact h1.2 (by assumption) he
    · rintro (rfl | h')
      · rfl
      · exact absurd h'.isInfix h
  · have ih := encode_stuff t
    have h1 := encode_line hl
    have e : encode .crLfPassed (l ++ crlf ++ t) =
        (addDot l ++ crlf ++ (encode .crLfPassed t).1, (encode .crLfPassed t).2) := by
      rw [List.append_assoc, encode_append, encode_append, encode_crlf, h1.1]; simp
    rw [e]
    refine ⟨?_, ?_⟩
    · simp only [ih.1, stuff, splitCrlf_line hl, List.map_cons]
      have := splitCrlf_ne_nil t
      cases hs : (splitCrlf t).map addDot with
      | nil => simp at hs; exact absurd hs this
      | cons a b => simp [joinCrlf]
    · rw [crlf_suffix_line]
      simpa using ih.2
termination_by m.length

/-- The lines of a message completed to whole lines. -/
theorem wire_lines (m : Bytes) : ∃ ls : List Bytes, (∀ l ∈ ls, NoCrlf l) ∧
    wireForm m = linesBytes (ls.map addDot) ++ b!".\r\n" ∧ wholeLines m = linesBytes ls := by
  rcases crlf_split m with h | ⟨l, t, hl, rfl⟩
  · by_cases hm : m = []
    · subst hm
      exact ⟨[], by simp, by simp [wireForm, stuff, splitCrlf, joinCrlf, addDot, linesBytes],
        by simp [wholeLines, linesBytes]⟩
    · have hs : ¬ (m = [] ∨ crlf <:+ m) := by
        rintro (h' | h')
        · exact hm h'
        · exact h h'.isInfix
      refine ⟨[m], by simpa using h, ?_, ?_⟩
      · simp [wireForm, if_neg hs, stuff, splitCrlf_noCrlf h, joinCrlf, linesBytes]
      · simp only [wholeLines, if_neg hs]; simp [linesBytes]
  · obtain ⟨ls, h1, h2, h3⟩ := wire_lines t
    have e1 : stuff (l ++ crlf ++ t) = addDot l ++ crlf ++ stuff t := by
      simp only [stuff, splitCrlf_line hl, List.map_cons]
      have := splitCrlf_ne_nil t
      cases hs : (splitCrlf t).map addDot with
      | nil => simp at hs; exact absurd hs this
      | cons a b => simp [joinCrlf]
    have e2 : (l ++ crlf ++ t = [] ∨ crlf <:+ l ++ crlf ++ t) = (t = [] ∨ crlf <:+ t) := by
      rw [crlf_suffix_line]; simp
    refine ⟨l :: ls, ?_, ?_, ?_⟩
    · intro x hx
      rcases List.mem_cons.1 hx with rfl | hx
      · exact hl
      · exact h1 x hx
    · unfold wireForm at h2 ⊢
      simp only [e1]
      simp only [e2]
      rw [List.append_assoc, h2]
      simp [linesBytes]
    · unfold wholeLines at h3 ⊢
      simp only [e2]
      split
      · rename_i h; rw [if_pos h] at h3; rw [h3]; simp [linesBytes]
      · rename_i h; rw [if_neg h] at h3; rw [List.append_assoc, h3]; simp [linesBytes]
termination_by m.length

theorem addDot_ne_dot (l : Bytes) : addDot l ≠ b!"." := by
  unfold addDot; split
  · simp
  · rename_i h; rintro rfl; exact h [] rfl

theorem addDot_noCrlf {l : Bytes} (h : NoCrlf l) : NoCrlf (addDot l) := by
  unfold addDot; split
  · intro h'
    rcases List.infix_cons_iff.1 h' with ⟨x, hx⟩ | h'
    · simp at hx
    · exact h h'
  · exact h

theorem dropDot_addDot (l : Bytes) : dropDot (addDot l) = l := by
  unfold addDot; split
  · rfl
  · rename_i h
    unfold dropDot
    split
    · exact absurd rfl (h _)
    · rfl

theorem wire_message (m rest : Bytes) : ∃ ls, IsMessage (wireForm m ++ rest) ls rest ∧
    decodedLines ls = wholeLines m := by
  obtain ⟨ls, h1, h2, h3⟩ := wire_lines m
  refine ⟨ls.map addDot, ⟨by rw [h2], ?_⟩, ?_⟩
  · intro l hl
    obtain ⟨l', hl', rfl⟩ := List.mem_map.1 hl
    exact ⟨addDot_noCrlf (h1 l' hl'), addDot_ne_dot l'⟩
  · rw [h3]
    simp [decodedLines, linesBytes, List.flatMap_map, dropDot_addDot]

end Verif
