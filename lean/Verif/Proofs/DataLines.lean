import Verif.Proofs.DataPoll
/-
`decode` in terms of lines, and the whole-stream consequences of the one-poll specification.
-/
namespace Verif
open Spec

/-! ### `decode` and lines -/

theorem noCrlf_cons {c : Byte} {l : Bytes} (h : NoCrlf (c :: l)) : NoCrlf l :=
  fun h' => h (h'.trans ⟨[c], [], by simp⟩)

theorem noCrlf_head {l : Bytes} (h : NoCrlf (cCR :: l)) : l.head? ≠ some cLF := by
  intro h'
  cases l with
  | nil => simp at h'
  | cons a r => simp at h'; subst h'; exact h ⟨[], r, by simp⟩

theorem noCrlf_tail {l m : Bytes} (h : NoCrlf (l ++ m)) : NoCrlf m :=
  fun h' => h (h'.trans (List.suffix_append l m).isInfix)

/-- Conditions under which a line without CRLF passes through unchanged. -/
def PassThrough (st : DState) (l : Bytes) : Prop :=
  (st = .crPassed → l.head? ≠ some cLF) ∧ (st = .crLfPassed → l.head? ≠ some cDOT)

theorem passThrough_cons {st : DState} {c : Byte} {l : Bytes} (hn : NoCrlf (c :: l))
    (hp : PassThrough st (c :: l)) : ¬ (st = .crLfPassed ∧ c = cDOT) ∧ PassThrough (st.next c) l := by
  have h2 : ¬ (st = .crLfPassed ∧ c = cDOT) := fun h => hp.2 h.1 (by simp [h.2])
  have h3 : ¬ (st = .crPassed ∧ c = cLF) := fun h => hp.1 h.1 (by simp [h.2])
  refine ⟨h2, ?_, ?_⟩
  · intro h
    unfold DState.next at h
    split at h
    · rename_i hc; subst hc; exact noCrlf_head hn
    · simp at h
  · intro h
    unfold DState.next at h
    split at h
    · simp at h
    · simp at h

theorem decode_line {st : DState} {l t : Bytes} (hn : NoCrlf l) (hp : PassThrough st l) :
    decode st (l ++ crlf ++ t) = pfx (l ++ crlf) (decode .crLfPassed t) := by
  induction l generalizing st with
  | nil =>
    have h1 := decode_cons_of_not (st := st) (c := cCR) (t := cLF :: t) (by simp)
    have h2 := decode_cons_of_not (st := .crPassed) (c := cLF) (t := t) (by simp)
    simp only [DState.next] at h1 h2
    simp [h1, h2]
  | cons c l ih =>
    obtain ⟨h1, h2⟩ := passThrough_cons hn hp
    have := ih (noCrlf_cons hn) h2
    simp only [List.cons_append]
    rw [decode_cons_of_not h1, this]
    simp

theorem decode_part {st : DState} {l : Bytes} (hn : NoCrlf l) (hp : PassThrough st l) :
    decode st l = (l, none) := by
  induction l generalizing st with
  | nil => rfl
  | cons c l ih =>
    obtain ⟨h1, h2⟩ := passThrough_cons hn hp
    rw [decode_cons_of_not h1, ih (noCrlf_cons hn) h2]
    rfl

theorem passThrough_running (l : Bytes) : PassThrough .running l := by
  simp [PassThrough]

theorem dropDot_of_head {l : Bytes} (h : l.head? ≠ some cDOT) : dropDot l = l := by
  unfold dropDot
  split
  · simp at h
  · rfl

theorem decode_dotline {d : Byte} {l t : Bytes} (hn : NoCrlf (d :: l)) :
    decode .crLfPassed (cDOT :: (d :: l ++ crlf ++ t)) = decode .running (d :: l ++ crlf ++ t) := by
  cases l with
  | nil => exact decode_dot (by simp)
  | cons e l =>
    refine decode_dot ?_
    rintro ⟨rfl, rfl⟩
    exact hn ⟨[], l, by simp⟩

theorem decode_full_line {l t : Bytes} (hn : NoCrlf l) (hl : l ≠ b!".") :
    decode .crLfPassed (l ++ crlf ++ t) = pfx (dropDot l ++ crlf) (decode .crLfPassed t) := by
  by_cases h : l.head? = some cDOT
  · match l with
    | [] => simp at h
    | [c] => simp at h; subst h; exact absurd rfl hl
    | c :: d :: l =>
      simp at h; subst h
      have := decode_dotline (t := t) (noCrlf_cons hn)
      simp only [List.cons_append] at this ⊢
      rw [this]
      exact decode_line (l := d :: l) (noCrlf_cons hn) (passThrough_running _)
  · rw [dropDot_of_head h]
    exact decode_line hn ⟨by simp, fun _ => h⟩

theorem decode_lines {ls : List Bytes} {t : Bytes} (h : ∀ l ∈ ls, NoCrlf l ∧ l ≠ b!".") :
    decode .crLfPassed (linesBytes ls ++ t) = pfx (decodedLines ls) (decode .crLfPassed t) := by
  induction ls with
  | nil => rfl
  | cons l ls ih =>
    have h1 := decode_full_line (t := linesBytes ls ++ t) (h l (by simp)).1 (h l (by simp)).2
    simp only [linesBytes, decodedLines, List.flatMap_cons, List.append_assoc] at ih h1 ⊢
    rw [h1, ih (fun l hl => h l (by simp [hl]))]
    simp

theorem decode_partial {part : Bytes} (hn : NoCrlf part) :
    decode .crLfPassed part = (decodedPart part, none) := by
  unfold decodedPart
  split
  · rename_i h
    rcases h with rfl | rfl <;> rfl
  · rename_i h
    by_cases hd : part.head? = some cDOT
    · match part with
      | [] => simp at hd
      | [c] => simp at hd; subst hd; simp at h
      | [c, d] =>
        simp at hd; subst hd
        rw [decode_dot' (by simpa using h)]
        exact decode_part (noCrlf_cons hn) (passThrough_running _)
      | c :: d :: e :: l =>
        simp at hd; subst hd
        rw [decode_dot]
        · exact decode_part (noCrlf_cons hn) (passThrough_running _)
        · rintro ⟨rfl, rfl⟩
          exact hn ⟨[cDOT], l, by simp⟩
    · rw [dropDot_of_head hd]
      exact decode_part hn ⟨by simp, fun _ => hd⟩

theorem decode_message {raw : Bytes} {ls rest} (h : IsMessage raw ls rest) :
    decode .crLfPassed raw = (decodedLines ls, some rest) := by
  rw [h.1, List.append_assoc, decode_lines h.2]
  simp [decode_marker, pfx]

theorem decode_unfinished {raw : Bytes} {ls part} (h : IsUnfinished raw ls part) :
    decode .crLfPassed raw = (decodedLines ls ++ decodedPart part, none) := by
  rw [h.1, decode_lines h.2.1, decode_partial h.2.2]
  rfl

/-- Every input either has a first CRLF or none. -/
theorem crlf_split (raw : Bytes) : NoCrlf raw ∨ ∃ l t, NoCrlf l ∧ raw = l ++ crlf ++ t := by
  match raw with
  | [] => left; simp [NoCrlf]
  | [c] =>
    left; intro h; have := h.length_le; simp at this
  | c :: d :: r =>
    by_cases h : c = cCR ∧ d = cLF
    · right
      obtain ⟨rfl, rfl⟩ := h
      exact ⟨[], r, by simp [NoCrlf], rfl⟩
    · rcases crlf_split (d :: r) with h1 | ⟨l, t, hl, hr⟩
      · left
        intro h2
        rcases List.infix_cons_iff.1 h2 with h3 | h3
        · obtain ⟨x, hx⟩ := h3
          simp at hx
          exact h ⟨hx.1.symm, hx.2.1.symm⟩
        · exact h1 h3
      · right
        refine ⟨c :: l, t, ?_, by simp [hr]⟩
        intro h2
        rcases List.infix_cons_iff.1 h2 with h3 | h3
        · obtain ⟨x, hx⟩ := h3
          simp at hx
          obtain ⟨rfl, hx⟩ := hx
          cases l with
          | nil => simp at hx
          | cons e l =>
            simp at hx hr
            exact h ⟨rfl, by rw [hr.1, ← hx.1]⟩
        · exact hl h3

/-- Every input is a complete message followed by something, or an unfinished message. -/
theorem message_or_unfinished (raw : Bytes) :
    (∃ ls rest, IsMessage raw ls rest) ∨ (∃ ls part, IsUnfinished raw ls part) := by
  rcases crlf_split raw with h | ⟨l, t, hl, hr⟩
  · exact .inr ⟨[], raw, by simp [linesBytes], by simp, h⟩
  · by_cases hd : l = b!"."
    · left
      exact ⟨[], t, by simp [linesBytes, hr, hd], by simp⟩
    · rcases message_or_unfinished t with ⟨ls, rest, h⟩ | ⟨ls, part, h⟩
      · left
        refine ⟨l :: ls, rest, ?_, ?_⟩
        · rw [hr, h.1]; simp [linesBytes]
        · intro x hx
          rcases List.mem_cons.1 hx with rfl | hx
          · exact ⟨hl, hd⟩
          · exact h.2 x hx
      · right
        refine ⟨l :: ls, part, ?_, ?_, h.2.2⟩
        · rw [hr, h.1]; simp [linesBytes]
        · intro x hx
          rcases List.mem_cons.1 hx with rfl | hx
          · exact ⟨hl, hd⟩
          · exact h.2.1 x hx
termination_by raw.length
decreasing_by simp [hr]; omega

/-- The decomposition of a message is unique. -/
theorem isMessage_unique {raw ls ls' rest rest'} (h : IsMessage raw ls rest)
    (h' : IsMessage raw ls' rest') : rest = rest' ∧ decodedLines ls = decodedLines ls' := by
  have h1 := decode_message h
  have h2 := decode_message h'
  rw [h1] at h2
  simp at h2
  exact ⟨h2.2, h2.1⟩

theorem decode_marker_any {st : DState} {t : Bytes} :
    (decode st (b!"\r\n.\r\n" ++ t)).2 = some t := by
  have h1 := decode_cons_of_not (st := st) (c := cCR) (t := cLF :: b!".\r\n" ++ t) (by simp)
  have h2 := decode_cons_of_not (st := .crPassed) (c := cLF) (t := b!".\r\n" ++ t) (by simp)
  have e : b!"\r\n.\r\n" ++ t = cCR :: (cLF :: b!".\r\n" ++ t) := rfl
  have n1 : st.next cCR = .crPassed := rfl
  have n2 : DState.crPassed.next cLF = .crLfPassed := rfl
  have e2 : cLF :: b!".\r\n" ++ t = cLF :: (b!".\r\n" ++ t) := rfl
  rw [e, h1, n1, e2, h2, n2]
  simp [pfx, decode_marker]

theorem decode_infix {st : DState} {raw : Bytes} (h : b!"\r\n.\r\n" <:+: raw) :
    (decode st raw).2.isSome := by
  induction hn : raw.length using Nat.strongRecOn generalizing st raw with
  | ind n ih =>
  match raw with
  | [] => simp at h
  | c :: t =>
    rcases List.infix_cons_iff.1 h with ⟨x, hx⟩ | h'
    · rw [← hx, decode_marker_any]; rfl
    · by_cases hc : st = .crLfPassed ∧ c = cDOT
      · obtain ⟨rfl, rfl⟩ := hc
        match t with
        | [] => simp at h'
        | [d] => have := h'.length_le; simp at this
        | d :: e :: r =>
          by_cases hm : d = cCR ∧ e = cLF
          · obtain ⟨rfl, rfl⟩ := hm; rw [decode_marker]; rfl
          · rw [decode_dot hm]; exact ih _ (by simp at hn ⊢; omega) h' rfl
      · rw [decode_cons_of_not hc]
        simpa [pfx] using ih _ (by simp at hn ⊢; omega) h' (st := st.next c) rfl

/-- The end-of-data marker is present. -/
theorem hasMarker_iff (raw : Bytes) :
    (∃ ls rest, IsMessage raw ls rest) ↔ HasMarker raw := by
  constructor
  · rintro ⟨ls, rest, h, _⟩
    rcases List.eq_nil_or_concat ls with rfl | ⟨ls', l, rfl⟩
    · left; exact ⟨rest, by simp [h, linesBytes]⟩
    · right; exact ⟨linesBytes ls' ++ l, rest, by simp [h, linesBytes]⟩
  · intro h
    rcases message_or_unfinished raw with hm | ⟨ls, part, hu⟩
    · exact hm
    · exfalso
      have := decode_unfinished hu
      rcases h with ⟨t, ht⟩ | h
      · rw [← ht] at this
        simp [decode_marker] at this
      · have h2 := decode_infix (st := .crLfPassed) h
        rw [this] at h2; simp at h2


theorem decode_none_iff (raw : Bytes) : (decode .crLfPassed raw).2 = none ↔ ¬ HasMarker raw := by
  rw [← hasMarker_iff]
  constructor
  · rintro h ⟨ls, rest, hm⟩
    simp [decode_message hm] at h
  · intro h
    rcases message_or_unfinished raw with hm | ⟨ls, part, hu⟩
    · exact absurd hm h
    · rw [decode_unfinished hu]

/-! ### Reading to the end -/

structure ReadSpec (d : DStream) (os : List Bytes) (d' : DStream) (taken : List (SrcEv Bytes)) : Prop where
  src : d.source.evs = taken ++ d'.source.evs
  same : taken = [] → d'.source = { d.source with ends := d'.source.ends }
  /-- only the poll that finds the connection ended leaves a trace in the count of those -/
  ends : d'.source.ends = d.source.ends + (if d'.state = .earlyFin then 1 else 0)
  pre : taken ≠ [] → d'.source.pre = none
  lazy : ∀ t e t', taken = t ++ e :: t' → (decode d.state (d.buf ++ evBytes t)).2 = none
  nonempty : ∀ o ∈ os, o ≠ []
  slot : d'.SlotFree
  res : (d'.state = .finished ∧
          ∀ more, decode d.state (d.buf ++ evBytes taken ++ more) = (os.flatten, some (d'.buf ++ more))) ∨
        (d'.state = .earlyFin ∧ d'.source.evs = [] ∧ d'.source.pre = none ∧
          decode d.state (d.buf ++ evBytes taken) = (os.flatten, none))

theorem ReadSpec.after {d d1 d2 : DStream} {r : Poll (Option Bytes)} {o : Bytes} {os : List Bytes}
    {taken t2 : List (SrcEv Bytes)} (sp : PollSpec d r d1 taken)
    (ha : d1.state ≠ .earlyFin)
    (hdec : ∀ more, decode d.state (d.buf ++ evBytes taken ++ more) = pfx o (decode d1.state (d1.buf ++ more)))
    (hr : ReadSpec d1 os d2 t2) (os' : List Bytes) (hos : os'.flatten = o ++ os.flatten)
    (hne : ∀ x ∈ os', x ≠ []) : ReadSpec d os' d2 (taken ++ t2) := by
  have s1 := sp.src
  rw [hr.src] at s1
  refine ⟨by simp [s1], ?_, by rw [hr.ends, sp.ends]; simp [ha], ?_, ?_, hne, hr.slot, ?_⟩
  · intro h
    simp at h
    have e1 := hr.same h.2
    have e2 := sp.same h.1
    rw [e1, e2]
  · intro h
    by_cases h2 : t2 = []
    · rw [hr.same h2]
      exact sp.pre (by simpa [h2] using h)
    · exact hr.pre h2
  · intro t e t' h
    rcases List.append_eq_append_iff.1 h with ⟨a, rfl, h'⟩ | ⟨c, h', h''⟩
    · have := hr.lazy a e t' h'
      have h4 := hdec (evBytes a)
      simp only [List.append_assoc] at h4
      simp only [evBytes_append]
      rw [h4]; simpa [pfx] using this
    · cases c with
      | nil =>
        simp at h' h''
        subst h'
        have := hr.lazy [] e t' (by simp [h''])
        have h4 := hdec []
        simp only [List.append_nil] at h4
        rw [h4]; simpa [pfx] using this
      | cons f c =>
        simp at h''
        obtain ⟨rfl, h''⟩ := h''
        exact sp.lazy t _ c h'
  · have hd : ∀ more, decode d.state (d.buf ++ evBytes (taken ++ t2) ++ more)
        = pfx o (decode d1.state (d1.buf ++ evBytes t2 ++ more)) := by
      intro more
      have := hdec (evBytes t2 ++ more)
      simpa using this
    rw [hos]
    rcases hr.res with h | h
    · left
      refine ⟨h.1, fun more => ?_⟩
      rw [hd, h.2]; rfl
    · right
      refine ⟨h.1, h.2.1, h.2.2.1, ?_⟩
      have := hd []
      simp only [List.append_nil] at this
      rw [this, h.2.2.2]; rfl

theorem pollNext_active {d : DStream} (ha : d.state.Active) : d.pollNext = d.pollLoop := by
  unfold DStream.pollNext
  rcases ha with h | h | h <;> simp [h]

theorem pollNext_finished {d : DStream} (h : d.state = .finished) : d.pollNext = (.ready none, d) := by
  simp [DStream.pollNext, h]

theorem readAll_finished {d : DStream} (h : d.state = .finished) : d.readAll = ([], d) := by
  rw [DStream.readAll.eq_def]
  have := pollNext_finished h
  split <;> rename_i h3 <;> rw [this] at h3 <;> simp at h3
  rw [h3]

theorem readAll_spec (d : DStream) (ha : d.state.Active) (hs : d.SlotFree) :
    ∃ taken, ReadSpec d d.readAll.1 d.readAll.2 taken := by
  fun_induction DStream.readAll d with
  | case1 d d' h =>
    rw [pollNext_active ha] at h
    obtain ⟨taken, sp⟩ := pollLoop_spec d ha
    have hsl := pollLoop_slotFree d hs
    rw [h] at sp hsl
    have hres := sp.res
    simp only at hres
    refine ⟨taken, sp.src, sp.same, sp.ends, sp.pre, sp.lazy, by simp, hsl.1, ?_⟩
    simpa using hres
  | case2 d o d' h ih =>
    rw [pollNext_active ha] at h
    obtain ⟨taken, sp⟩ := pollLoop_spec d ha
    have hsl := pollLoop_slotFree d hs
    rw [h] at sp hsl
    have hres := sp.res
    simp only at hres
    rcases hres.2 with ⟨h1, h2⟩ | ⟨h1, h2⟩
    · obtain ⟨t2, hr⟩ := ih h1 hsl.1
      refine ⟨taken ++ t2, hr.after sp (DState.Active.ne_early h1) h2 _ (by simp) ?_⟩
      intro x hx
      rcases List.mem_cons.1 hx with rfl | hx
      · exact hres.1
      · exact hr.nonempty x hx
    · rw [readAll_finished h1]
      refine ⟨taken, sp.src, sp.same, sp.ends, sp.pre, sp.lazy, ?_, hsl.1, .inl ⟨h1, ?_⟩⟩
      · simpa using hres.1
      · simpa using h2
  | case3 d d' h ih =>
    rw [pollNext_active ha] at h
    obtain ⟨taken, sp⟩ := pollLoop_spec d ha
    have hsl := pollLoop_slotFree d hs
    rw [h] at sp hsl
    have hres := sp.res
    simp only at hres
    obtain ⟨t2, hr⟩ := ih hres.1 hsl.1
    exact ⟨taken ++ t2, hr.after sp (DState.Active.ne_early hres.1) (o := []) (by simpa using hres.2.2) _ (by simp) hr.nonempty⟩

end Verif
