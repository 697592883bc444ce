import Verif.Proofs.DataLines
/-
C01 - C07, C12: reading a message with `DataStream`.
-/
namespace Verif
open Spec

/-! The two cases below are the only ones, and which one applies is whether the marker occurs. -/

theorem c01_marker_iff (raw : Bytes) : HasMarker raw ↔ ∃ ls rest, IsMessage raw ls rest :=
  (hasMarker_iff raw).symm

theorem c03_no_marker_iff (raw : Bytes) : ¬ HasMarker raw ↔ ∃ ls part, IsUnfinished raw ls part := by
  constructor
  · intro h
    rcases message_or_unfinished raw with h' | h'
    · exact absurd ((hasMarker_iff raw).1 h') h
    · exact h'
  · rintro ⟨ls, part, hu⟩
    rw [← decode_none_iff, decode_unfinished hu]

private theorem new_spec (s : Prep Bytes) :
    ∃ taken, ReadSpec (DStream.new s) (DStream.new s).readAll.1 (DStream.new s).readAll.2 taken :=
  readAll_spec _ (by simp [DStream.new, DState.Active]) (by simp [DStream.new, DStream.SlotFree])

theorem complete_finished {d : DStream} (h : d.state = .finished) (hs : d.SlotFree) :
    ∃ d', d.complete = .ok (true, d') ∧ d'.source.bytes = d.buf ++ d.source.bytes ∧ d'.wasCompleted = true ∧
      d'.source.src = d.source.src ∧ d'.buf = [] := by
  unfold DStream.complete
  simp only [h]
  by_cases hb : d.buf = []
  · refine ⟨{ d with state := .completed }, by simp [hb], by simp [hb], rfl, rfl, hb⟩
  · have hp := hs hb
    refine ⟨{ source := { d.source with pre := some d.buf }, state := .completed, buf := [] }, ?_, ?_, rfl, rfl, rfl⟩
    · simp [hb, Prep.prepend, hp]
    · simp [Prep.bytes, Prep.evs, hp]

theorem complete_earlyFin {d : DStream} (h : d.state = .earlyFin) :
    d.complete = .ok (false, { d with state := .completed }) := by
  simp [DStream.complete, h]

theorem message_result (s : Prep Bytes) {o rest} (h : decode .crLfPassed s.bytes = (o, some rest)) :
    ∃ d, (DStream.new s).readAll.2.complete = .ok (true, d) ∧
      (DStream.new s).readAll.1.flatten = o ∧ d.source.bytes = rest ∧ d.wasCompleted = true := by
  obtain ⟨taken, sp⟩ := new_spec s
  have hsrc : s.bytes = evBytes taken ++ (DStream.new s).readAll.2.source.bytes := by
    have := sp.src
    simp only [DStream.new] at this
    simp [Prep.bytes, this, DStream.new]
  rcases sp.res with ⟨h1, h2⟩ | ⟨h1, h2, h3, h4⟩
  · obtain ⟨d', c1, c2, c3, _⟩ := complete_finished h1 sp.slot
    have := h2 (DStream.new s).readAll.2.source.bytes
    simp only [DStream.new, List.nil_append] at this
    simp only [DStream.new] at hsrc
    rw [← hsrc, h] at this
    simp only [Prod.mk.injEq, Option.some.injEq] at this
    refine ⟨d', c1, this.1.symm, ?_, c3⟩
    rw [c2]; exact this.2.symm
  · exfalso
    have : (DStream.new s).readAll.2.source.bytes = [] := by simp [Prep.bytes, h2]
    rw [this] at hsrc
    simp only [DStream.new, List.nil_append] at h4
    simp at hsrc
    rw [← hsrc, h] at h4
    simp at h4

theorem unfinished_result (s : Prep Bytes) {o} (h : decode .crLfPassed s.bytes = (o, none)) :
    ∃ d, (DStream.new s).readAll.2.complete = .ok (false, d) ∧
      (DStream.new s).readAll.1.flatten = o ∧ d.source.bytes = [] ∧ d.wasCompleted = true := by
  obtain ⟨taken, sp⟩ := new_spec s
  have hsrc : s.bytes = evBytes taken ++ (DStream.new s).readAll.2.source.bytes := by
    have := sp.src
    simp only [DStream.new] at this
    simp [Prep.bytes, this, DStream.new]
  rcases sp.res with ⟨h1, h2⟩ | ⟨h1, h2, h3, h4⟩
  · exfalso
    have := h2 (DStream.new s).readAll.2.source.bytes
    simp only [DStream.new, List.nil_append] at this
    simp only [DStream.new] at hsrc
    rw [← hsrc, h] at this
    simp at this
  · have he : (DStream.new s).readAll.2.source.bytes = [] := by simp [Prep.bytes, h2]
    rw [he] at hsrc
    simp only [DStream.new, List.nil_append] at h4
    simp at hsrc
    rw [← hsrc, h] at h4
    simp at h4
    exact ⟨_, complete_earlyFin h1, h4.symm, he, rfl⟩

/-- C01. The bytes from the source (in any packets, with any number of not-ready polls, with or without a
pushed-back packet) being text lines `ls`, the lone-dot line and `rest`: reading to the end yields the
lines with one leading dot removed, and `complete()` is `Ok`. -/
theorem c01_decoding (s : Prep Bytes) (ls : List Bytes) (rest : Bytes) (h : IsMessage s.bytes ls rest) :
    (DStream.new s).readAll.1.flatten = decodedLines ls ∧
    ∃ d, (DStream.new s).readAll.2.complete = .ok (true, d) ∧ d.wasCompleted = true := by
  obtain ⟨d, h1, h2, h3, h4⟩ := message_result s (decode_message h)
  exact ⟨h2, d, h1, h4⟩

/-- C02. After `complete()` returned `Ok`, reading the underlying stream gives exactly `rest`. -/
theorem c02_leftover (s : Prep Bytes) (ls : List Bytes) (rest : Bytes) (h : IsMessage s.bytes ls rest) :
    ∃ d, (DStream.new s).readAll.2.complete = .ok (true, d) ∧ d.source.items.flatten = rest := by
  obtain ⟨d, h1, h2, h3, h4⟩ := message_result s (decode_message h)
  exact ⟨d, h1, by rw [Prep.items_flatten, h3]⟩

/-- C03. No marker: the stream still ends, `complete()` is `Err`, and the text is what was received. -/
theorem c03_early_end (s : Prep Bytes) (ls : List Bytes) (part : Bytes) (h : IsUnfinished s.bytes ls part) :
    (DStream.new s).readAll.1.flatten = decodedLines ls ++ decodedPart part ∧
    ∃ d, (DStream.new s).readAll.2.complete = .ok (false, d) := by
  obtain ⟨d, h1, h2, h3, h4⟩ := unfinished_result s (decode_unfinished h)
  exact ⟨h2, d, h1⟩

/-- C03, converse reading: `complete()` is `Ok` exactly when the marker was received. -/
theorem c03_ok_iff_marker (s : Prep Bytes) :
    (∃ d, (DStream.new s).readAll.2.complete = .ok (true, d)) ↔ HasMarker s.bytes := by
  constructor
  · rintro ⟨d, h⟩
    false_or_by_contra
    rename_i hn
    obtain ⟨ls, part, hu⟩ := (c03_no_marker_iff _).1 hn
    obtain ⟨_, d', h'⟩ := c03_early_end s ls part hu
    rw [h'] at h; simp at h
  · intro h
    obtain ⟨ls, rest, hm⟩ := (c01_marker_iff _).1 h
    obtain ⟨_, d, hd, _⟩ := c01_decoding s ls rest hm
    exact ⟨d, hd⟩

/-- What a reader observes of a message: the text, the result of `complete()`, the bytes left. -/
def observe (s : Prep Bytes) : Bytes × Except Panic (Bool × Bytes) :=
  ((DStream.new s).readAll.1.flatten,
    (DStream.new s).readAll.2.complete.map fun (ok, d) => (ok, d.source.items.flatten))

/-- C04. Packet boundaries, not-ready polls and push-back are not observable. -/
theorem c04_packet_independence (s1 s2 : Prep Bytes) (h : s1.bytes = s2.bytes) : observe s1 = observe s2 := by
  unfold observe
  rcases hd : decode .crLfPassed s1.bytes with ⟨o, _ | rest⟩
  · obtain ⟨d, h1, h2, h3, h4⟩ := unfinished_result s1 hd
    obtain ⟨d', h1', h2', h3', h4'⟩ := unfinished_result s2 (h ▸ hd)
    rw [h1, h2, h1', h2']
    simp [Except.map, Prep.items_flatten, h3, h3']
  · obtain ⟨d, h1, h2, h3, h4⟩ := message_result s1 hd
    obtain ⟨d', h1', h2', h3', h4'⟩ := message_result s2 (h ▸ hd)
    rw [h1, h2, h1', h2']
    simp [Except.map, Prep.items_flatten, h3, h3']

/-- States of a `DataStream` over `s` that polling can reach; `ended` tells whether some poll has already
returned the end of the stream. -/
inductive DReach (s : Prep Bytes) : Bool → DStream → Prop
  | new : DReach s false (DStream.new s)
  | poll {e d r d'} : DReach s e d → d.pollNext = (r, d') → DReach s (e || r = .ready none) d'

/-- C05 (chunks). No poll ever yields an empty chunk, not even one made after the end. -/
theorem c05_chunks_nonempty (s : Prep Bytes) (e d o d') (_ : DReach s e d)
    (h : d.pollNext = (.ready (some o), d')) : o ≠ [] := by
  unfold DStream.pollNext at h
  split at h
  · simp at h
  · exact pollLoop_nonempty d o (by rw [h])

private theorem reach_inv {s e d} (h : DReach s e d) :
    d.SlotFree ∧ (e = false → d.state.Active ∨ d.state = .finished) := by
  induction h with
  | new => exact ⟨by simp [DStream.new, DStream.SlotFree], fun _ => .inl (by simp [DStream.new, DState.Active])⟩
  | @poll e d r d' h1 h2 ih =>
    by_cases hf : d.state = .finished
    · rw [pollNext_finished hf] at h2
      simp at h2
      obtain ⟨rfl, rfl⟩ := h2
      exact ⟨ih.1, by simp⟩
    · have hp : d.pollNext = d.pollLoop := by simp [DStream.pollNext, hf]
      rw [hp] at h2
      have hsl := pollLoop_slotFree d ih.1
      rw [h2] at hsl
      refine ⟨hsl.1, fun he => ?_⟩
      simp at he
      have ha := (ih.2 he.1).resolve_right hf
      obtain ⟨taken, sp⟩ := pollLoop_spec d ha
      rw [h2] at sp
      have := sp.res
      match r with
      | .pending => exact .inl this.1
      | .ready (some o) =>
        rcases this.2 with h | h
        · exact .inl h.1
        · exact .inr h.1
      | .ready none => simp at he

/-- C05 (end is sticky). Once the stream has ended because of the marker (that is, `complete()` would be
`Ok`), any number of further polls report the end and change nothing, in particular not the source. -/
theorem c05_end_sticky (s : Prep Bytes) (d d' : DStream) (e : Bool) (_ : DReach s e d)
    (_ : d.pollNext = (.ready none, d')) (hc : ∃ x, d'.complete = .ok (true, x)) :
    d'.pollNext = (.ready none, d') := by
  obtain ⟨x, hx⟩ := hc
  apply pollNext_finished
  unfold DStream.complete at hx
  split at hx
  · simp at hx
  · split at hx
    · simp at hx
    · rename_i h1; simpa using h1

/-- C06. If the marker is completed by packet `p`, the events after `p` have not been taken. -/
theorem c06_no_overread (s : Prep Bytes) (before after : List (SrcEv Bytes)) (p : Bytes)
    (hs : s.evs = before ++ .pkt p :: after)
    (h1 : ¬ HasMarker (evBytes before)) (h2 : HasMarker (evBytes before ++ p)) :
    (DStream.new s).readAll.2.source = { src := after, pre := none, ends := s.ends } := by
  obtain ⟨taken, sp⟩ := new_spec s
  have hsrc := sp.src
  have hlazy := sp.lazy
  have hres := sp.res
  simp only [DStream.new, List.nil_append] at hsrc hlazy hres
  rw [hs] at hsrc
  have hfin : (DStream.new s).readAll.2.state = .finished ∧ ∀ more, (decode .crLfPassed (evBytes taken ++ more)).2.isSome := by
    rcases hres with ⟨h, h'⟩ | ⟨h, h', _, h''⟩
    · exact ⟨h, fun more => by rw [h']; rfl⟩
    · exfalso
      have ht : taken = before ++ .pkt p :: after := by
        rw [hsrc]; simp [h']
      have hn := (decode_none_iff (evBytes taken)).1 (by rw [h''])
      have : (decode .crLfPassed (evBytes before ++ p)).2 ≠ none := by
        rw [Ne, decode_none_iff]; exact not_not_intro h2
      obtain ⟨ls, rest, hm⟩ := (c01_marker_iff _).1 h2
      apply hn
      rw [c01_marker_iff]
      refine ⟨ls, rest ++ evBytes after, ?_, hm.2⟩
      rw [ht]
      simp only [evBytes_append, evBytes_pkt]
      rw [← List.append_assoc, hm.1]; simp
  have hpre : (DStream.new s).readAll.2.source.evs = after → taken ≠ [] →
      (DStream.new s).readAll.2.source = { src := after, pre := none, ends := s.ends } := by
    intro ha ht
    have hp := sp.pre ht
    have he : (DStream.new s).readAll.2.source.ends = s.ends := by
      rw [sp.ends, hfin.1]; rfl
    generalize (DStream.new s).readAll.2.source = q at *
    cases q
    simp [Prep.evs] at ha hp he
    subst hp
    simp at ha ⊢
    exact ⟨ha, he⟩
  rcases List.append_eq_append_iff.1 hsrc with ⟨a, hta, ha⟩ | ⟨c, hb, hc⟩
  · -- taken = before ++ a, a ++ rem = pkt p :: after
    cases a with
    | nil =>
      exfalso
      apply h1
      simp at hta
      have := hfin.2 []
      false_or_by_contra
      rename_i hn
      rw [← decode_none_iff] at hn
      rw [List.append_nil, hta, hn] at this
      simp at this
    | cons e a =>
      simp only [List.cons_append, List.cons.injEq] at ha
      obtain ⟨rfl, ha⟩ := ha
      cases a with
      | nil => exact hpre ha.symm (by simp [hta])
      | cons f a =>
        exfalso
        have := hlazy (before ++ [.pkt p]) f a (by simp [hta])
        simp only [evBytes_append, evBytes_pkt, evBytes_nil, List.append_nil] at this
        exact (decode_none_iff _).1 this h2
  · exfalso
    apply h1
    have := hfin.2 (evBytes c)
    false_or_by_contra
    rename_i hn
    rw [← decode_none_iff, hb] at hn
    simp only [evBytes_append] at hn
    rw [hn] at this
    simp at this

/-- C07. Whenever the last poll returned the end of the stream, `complete()` does not panic. -/
theorem c07_complete_no_panic (s : Prep Bytes) (e : Bool) (d d' : DStream) (hr : DReach s e d)
    (h : d.pollNext = (.ready none, d')) : ∃ ok x, d'.complete = .ok (ok, x) := by
  have h1 := (reach_inv (hr.poll h)).1
  have h2 : d'.state = .finished ∨ d'.state = .earlyFin := by
    by_cases hf : d.state = .finished
    · rw [pollNext_finished hf] at h
      simp at h; subst h; exact .inl hf
    · have hp : d.pollNext = d.pollLoop := by simp [DStream.pollNext, hf]
      rw [hp] at h
      have := (pollLoop_slotFree d (reach_inv hr).1).2
      rw [h] at this
      exact this rfl
  rcases h2 with h2 | h2
  · obtain ⟨x, hx, _⟩ := complete_finished h2 h1
    exact ⟨true, x, hx⟩
  · exact ⟨false, _, complete_earlyFin h2⟩

/-- C07. Calling it while there is still text to come, or again after it was called, panics. -/
theorem c07_complete_too_early (s : Prep Bytes) (d : DStream) (hr : DReach s false d)
    (h : d.readAll.1 ≠ []) : d.complete = .error .notFinished := by
  have := (reach_inv hr).2 rfl
  rcases this with h1 | h1
  · unfold DStream.complete
    rcases h1 with h1 | h1 | h1 <;> simp [h1]
  · simp [readAll_finished h1] at h

theorem c07_complete_twice (d d' : DStream) (ok : Bool) (h : d.complete = .ok (ok, d')) :
    d'.complete = .error .notFinished := by
  have : d'.state = .completed := by
    unfold DStream.complete at h
    split at h
    · simp at h; rw [← h.2]
    · split at h
      · simp at h
      · split at h
        · split at h <;> simp at h
          rw [← h.2]
        · simp at h; rw [← h.2]
  simp [DStream.complete, this]

/-- The buffer does not start with the marker (unless in the middle of a line). -/
def DStream.NoLone (d : DStream) : Prop := d.state = .running ∨ (decode d.state d.buf).2 = none

private theorem pollLoop_noLone (d : DStream) (ha : d.state.Active) (h : d.pollLoop.2.state.Active) : d.pollLoop.2.NoLone := by
  fun_induction DStream.pollLoop d with
  | case1 d st hs hlen => exact .inr rfl
  | case2 d st hs hlen s h =>
    have : d.buf = [] := by simpa using hlen
    exact .inr (by simp only [this]; rfl)
  | case3 => rcases h with h | h | h <;> cases h
  | case4 d st hs hlen b s hp ih =>
    refine ih ?_ h
    have := scanBuf_ok d.state d.buf [] ha
    simp only [hs, SplitOk] at this
    exact this.1
  | case5 => rcases h with h | h | h <;> cases h
  | case6 => rcases h with h | h | h <;> cases h
  | case7 => exact .inl rfl
  | case8 d st x hs hlen ih => exact ih (.inl rfl) h
  | case9 d st x hs hx =>
    have := scanBuf_ok d.state d.buf [] ha
    simp only [hs, SplitOk] at this
    obtain ⟨a, b, h1, h2, h3, h4, _⟩ := this
    subst h3
    refine .inr ?_
    simp only [h1, h2, Nat.zero_add, List.drop_left]
    rcases h4 with rfl | rfl <;> rfl
  | case10 d st x hs hx s hp =>
    have := scanBuf_ok d.state d.buf [] ha
    simp only [hs, SplitOk] at this
    obtain ⟨a, b, h1, h2, h3, h4, _⟩ := this
    have : a = [] := List.eq_nil_of_length_eq_zero (by omega)
    subst this
    subst h3
    refine .inr ?_
    simp only [h1, List.nil_append]
    rcases h4 with rfl | rfl <;> rfl
  | case11 => rcases h with h | h | h <;> cases h
  | case12 d st x hs hx b s hp ih =>
    refine ih ?_ h
    have := scanBuf_ok d.state d.buf [] ha
    simp only [hs, SplitOk] at this
    obtain ⟨a, b, h1, h2, h3, h4, _⟩ := this
    subst h3
    exact .inr (.inr rfl)

/-- Where a stream is that has not ended yet. -/
private structure Where (s : Prep Bytes) (d : DStream) (taken : List (SrcEv Bytes)) (out : Bytes) : Prop where
  src : s.evs = taken ++ d.source.evs
  res : (d.state.Active ∧ d.NoLone ∧
      ∀ more, decode .crLfPassed (evBytes taken ++ more) = pfx out (decode d.state (d.buf ++ more))) ∨
    (d.state = .finished ∧ ∀ more, decode .crLfPassed (evBytes taken ++ more) = (out, some (d.buf ++ more)))

private theorem reach_where {s e d} (h : DReach s e d) : e = false → ∃ taken out, Where s d taken out := by
  induction h with
  | new => exact fun _ => ⟨[], [], rfl, .inl ⟨.inr (.inr rfl), .inr rfl, fun more => by simp [DStream.new]⟩⟩
  | @poll e d r d' h1 h2 ih =>
    intro he
    simp only [Bool.or_eq_false_iff, decide_eq_false_iff_not] at he
    obtain ⟨taken, out, hs, hw⟩ := ih he.1
    rcases hw with ⟨ha, hn, hd⟩ | ⟨hf, _⟩
    · rw [pollNext_active ha] at h2
      obtain ⟨t, sp⟩ := pollLoop_spec d ha
      have hnl := pollLoop_noLone d ha
      rw [h2] at sp hnl
      refine ⟨taken ++ t, ?_⟩
      have hsrc : s.evs = (taken ++ t) ++ d'.source.evs := by rw [hs, sp.src, List.append_assoc]
      have hb : ∀ more, decode .crLfPassed (evBytes (taken ++ t) ++ more) = pfx out (decode d.state (d.buf ++ evBytes t ++ more)) := by
        intro more
        rw [evBytes_append, List.append_assoc, hd, List.append_assoc]
      have hr := sp.res
      match r, he, hr with
      | .pending, _, hr =>
        exact ⟨out, hsrc, .inl ⟨hr.1, hnl hr.1, fun more => by rw [hb, hr.2.2]⟩⟩
      | .ready (some o), _, hr =>
        refine ⟨out ++ o, hsrc, ?_⟩
        rcases hr.2 with ⟨h3, h4⟩ | ⟨h3, h4⟩
        · exact .inl ⟨h3, hnl h3, fun more => by rw [hb, h4, pfx_pfx]⟩
        · exact .inr ⟨h3, fun more => by rw [hb, h4]; rfl⟩
      | .ready none, he, _ => exact absurd rfl he.2
    · rw [pollNext_finished hf] at h2
      simp only [Prod.mk.injEq] at h2
      exact absurd h2.1.symm he.2

private theorem decode_running_text {t : Bytes} (h : (decode .running t).2 ≠ none) : (decode .running t).1 ≠ [] := by
  cases t with
  | nil => simp [decode] at h
  | cons c t => rw [decode_cons_of_not (by simp)]; simp [pfx]

private theorem decode_more {st : DState} {t : Bytes} (h : (decode st t).2 ≠ none) (more : Bytes) :
    (decode st (t ++ more)).1 = (decode st t).1 := by
  fun_induction decode st t with
  | case1 => simp at h
  | case2 => simp at h
  | case3 => simp at h
  | case4 st c hc d hd ih =>
    obtain ⟨rfl, rfl⟩ := hc
    simp [decode] at h
  | case5 st c hc d e r hde =>
    obtain ⟨rfl, rfl⟩ := hc
    obtain ⟨rfl, rfl⟩ := hde
    simp only [List.cons_append]
    rw [decode_marker]
  | case6 st c hc d e r hde ih =>
    obtain ⟨rfl, rfl⟩ := hc
    rw [← ih h]
    simp only [List.cons_append]
    rw [decode_dot hde]
  | case7 st c t hc ih1 =>
    simp only [List.cons_append]
    rw [decode_cons_of_not hc]
    simp only [pfx]
    rw [ih1 h]
    rfl

/-- C07, exactly. As long as no poll has returned the end: `complete()` does not panic if and only if all the text has been
yielded and the marker is among the packets taken from the connection; and then it is `Ok`. -/
theorem c07_complete_exact (s : Prep Bytes) (d : DStream) (hr : DReach s false d) (taken : List (SrcEv Bytes))
    (ht : s.evs = taken ++ d.source.evs) :
    ((∃ r, d.complete = .ok r) ↔ HasMarker (evBytes taken) ∧ d.readAll.1 = []) ∧
    ∀ ok x, d.complete = .ok (ok, x) → ok = true := by
  obtain ⟨t, out, hs, hw⟩ := reach_where hr rfl
  have : t = taken := List.append_cancel_right (hs ▸ ht)
  subst this
  have hsl := (reach_inv hr).1
  rcases hw with ⟨ha, hn, hd⟩ | ⟨hf, hd⟩
  · have hp : d.complete = .error .notFinished := by
      unfold DStream.complete
      rcases ha with h | h | h <;> simp [h]
    refine ⟨⟨?_, ?_⟩, ?_⟩
    · rintro ⟨r, h⟩; rw [hp] at h; cases h
    · rintro ⟨hm, hall⟩
      exfalso
      have h1 : (decode .crLfPassed (evBytes t)).2 ≠ none := fun h => (decode_none_iff _).1 h hm
      have h2 := hd []
      simp only [List.append_nil] at h2
      rw [h2] at h1
      simp only [pfx] at h1
      -- the text that is left
      obtain ⟨t2, sp⟩ := readAll_spec d ha hsl
      have h3 : (decode d.state (d.buf ++ evBytes t2)).1 = d.readAll.1.flatten := by
        rcases sp.res with ⟨_, h⟩ | ⟨_, _, _, h⟩
        · have := h []; simp only [List.append_nil] at this; rw [this]
        · rw [h]
      rw [decode_more h1, hall] at h3
      rcases hn with h | h
      · rw [h] at h1 h3
        exact decode_running_text h1 h3
      · exact h1 h
    · intro ok x h; rw [hp] at h; cases h
  · obtain ⟨x, hx, _⟩ := complete_finished hf hsl
    refine ⟨⟨fun _ => ⟨?_, by rw [readAll_finished hf]⟩, fun _ => ⟨_, hx⟩⟩, ?_⟩
    · have h2 := hd []
      simp only [List.append_nil] at h2
      exact Classical.byContradiction fun hm => by
        have := (decode_none_iff _).2 hm
        rw [h2] at this
        cases this
    · intro ok y h; rw [hx] at h; cases h; rfl

/-! ### C12 -/

theorem linesBytes_marker {ms : List Bytes} (h : ∀ m ∈ ms, NoCrlf m) :
    HasMarker (linesBytes ms) ↔ b!"." ∈ ms := by
  constructor
  · intro hm
    false_or_by_contra
    rename_i hn
    refine (c03_no_marker_iff _).2 ⟨ms, [], by simp, ?_, by simp [NoCrlf]⟩ hm
    intro l hl
    exact ⟨h l hl, fun e => hn (e ▸ hl)⟩
  · intro hm
    obtain ⟨a, b, rfl⟩ := List.append_of_mem hm
    rcases List.eq_nil_or_concat a with rfl | ⟨a, l, rfl⟩
    · left; exact ⟨linesBytes b, by simp [linesBytes]⟩
    · right; exact ⟨linesBytes a ++ l, linesBytes b, by simp [linesBytes]⟩

theorem dropDot_noCrlf {l : Bytes} (h : NoCrlf l) : NoCrlf (dropDot l) := by
  unfold dropDot; split
  · exact noCrlf_cons h
  · exact h

/-- C12 is false of the code: the decoded text may itself contain a line with a single dot. -/
theorem c12_refuted : ¬ ∀ (s : Prep Bytes) (ls rest), IsMessage s.bytes ls rest →
    ¬ HasMarker (DStream.new s).readAll.1.flatten := by
  intro h
  have hm : IsMessage (Prep.new [SrcEv.pkt b!"a\r\n..\r\nb\r\n.\r\n"]).bytes [b!"a", b!"..", b!"b"] [] := by
    refine ⟨by decide, ?_⟩
    intro l hl
    simp at hl
    rcases hl with rfl | rfl | rfl <;>
      refine ⟨fun hi => ?_, by decide⟩ <;>
      exact absurd (hi.subset (by simp : cCR ∈ crlf)) (by decide)
  refine h _ _ _ hm ?_
  rw [(c01_decoding _ _ _ hm).1]
  right
  exact ⟨b!"a", b!"b\r\n", by decide⟩

/-- C12, the part that holds: exactly the line `..` on the wire gives a lone-dot line in the text. What
is missing of C12: messages with a `..` line do contain the marker after decoding (as they must). -/
theorem c12_partial (s : Prep Bytes) (ls : List Bytes) (rest : Bytes) (h : IsMessage s.bytes ls rest) :
    HasMarker (DStream.new s).readAll.1.flatten ↔ b!".." ∈ ls := by
  rw [(c01_decoding s ls rest h).1]
  have : decodedLines ls = linesBytes (ls.map dropDot) := by
    simp [decodedLines, linesBytes, List.flatMap_map]
  rw [this, linesBytes_marker]
  · simp only [List.mem_map]
    constructor
    · rintro ⟨l, hl, hd⟩
      unfold dropDot at hd
      split at hd
      · subst hd; exact hl
      · subst hd; exact absurd rfl (h.2 _ hl).2
    · intro hl; exact ⟨_, hl, rfl⟩
  · intro m hm
    obtain ⟨l, hl, rfl⟩ := List.mem_map.1 hm
    exact dropDot_noCrlf (h.2 l hl).1

/-! ### Concrete cases meeting the hypotheses -/

/-- The marker split over packets, a not-ready poll, a stuffed line, a pipelined command. -/
private def exSrc : Prep Bytes :=
  { src := [.pkt b!"lo\r", .pending, .pkt b!"\n..x\r\n.", .pkt b!"\r\nRSET\r", .pkt b!"\n"], pre := some b!"hel" }

private theorem noCrlf_of_cr {l : Bytes} (h : cCR ∉ l) : NoCrlf l :=
  fun hi => h (hi.subset (by simp))

example : IsMessage exSrc.bytes [b!"hello", b!"..x"] b!"RSET\r\n" :=
  ⟨by decide, by
    intro l hl; simp at hl
    rcases hl with rfl | rfl <;> exact ⟨noCrlf_of_cr (by decide), by decide⟩⟩
example : exSrc.evs = [.pkt b!"hel", .pkt b!"lo\r", .pending, .pkt b!"\n..x\r\n."] ++
    .pkt b!"\r\nRSET\r" :: [.pkt b!"\n"] := by decide
example : IsUnfinished (Prep.new [SrcEv.pkt b!"a\r\nb", .pkt b!"\r\n.\r"]).bytes [b!"a", b!"b"] b!".\r" :=
  ⟨by decide, by
    intro l hl; simp at hl
    rcases hl with rfl | rfl <;> exact ⟨noCrlf_of_cr (by decide), by decide⟩,
   fun hi => by have := hi.subset (by simp : cLF ∈ crlf); revert this; decide⟩
/-- A reachable state in which `complete()` is called too early. -/
example : DReach exSrc false (DStream.new exSrc) ∧ (DStream.new exSrc).readAll.1 ≠ [] := by
  refine ⟨.new, ?_⟩
  intro h
  have hm : IsMessage exSrc.bytes [b!"hello", b!"..x"] b!"RSET\r\n" := ⟨by decide, by
    intro l hl; simp at hl
    rcases hl with rfl | rfl <;> exact ⟨noCrlf_of_cr (by decide), by decide⟩⟩
  have := (c01_decoding _ _ _ hm).1
  rw [h] at this
  revert this; decide
/-- A reachable state in which `complete()` may be called although no poll has returned the end. -/
example : ∃ d, DReach (Prep.new [.pkt b!"x\r\n.\r\nQUIT\r\n"]) false d ∧ (∃ r, d.complete = .ok r) ∧
    (Prep.new [.pkt b!"x\r\n.\r\nQUIT\r\n"]).evs = [.pkt b!"x\r\n.\r\nQUIT\r\n"] ++ d.source.evs := by
  have h : (DStream.new (Prep.new [.pkt b!"x\r\n.\r\nQUIT\r\n"])).pollNext =
      (.ready (some b!"x\r\n"), ⟨⟨[], none, 0⟩, .finished, b!"QUIT\r\n"⟩) := by decide +kernel
  exact ⟨_, .poll .new h, ⟨_, rfl⟩, rfl⟩

end Verif
