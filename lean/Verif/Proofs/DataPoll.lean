import Verif.Proofs.DataStream
import Verif.Spec.Streams
/-
What one poll of a `DataStream` does, for every buffer, state and source.
-/
namespace Verif

/-- What one poll says about the bytes still to be decoded: `taken` are the source events it took. -/
structure PollSpec (d : DStream) (r : Poll (Option Bytes)) (d' : DStream)
    (taken : List (SrcEv Bytes)) : Prop where
  src : d.source.evs = taken ++ d'.source.evs
  same : taken = [] → d'.source = { d.source with ends := d'.source.ends }
  /-- only the poll that finds the connection ended leaves a trace in the count of those -/
  ends : d'.source.ends = d.source.ends + (if d'.state = .earlyFin then 1 else 0)
  pre : taken ≠ [] → d'.source.pre = none
  /-- an event is taken only if the marker is not yet complete -/
  lazy : ∀ t e t', taken = t ++ e :: t' → (decode d.state (d.buf ++ evBytes t)).2 = none
  buf : d'.buf ≠ [] → taken ≠ [] ∨ d.buf ≠ []
  res : match r with
    | .pending => d'.state.Active ∧ taken ≠ [] ∧
        ∀ more, decode d.state (d.buf ++ evBytes taken ++ more) = decode d'.state (d'.buf ++ more)
    | .ready (some o) => o ≠ [] ∧
        ((d'.state.Active ∧
          ∀ more, decode d.state (d.buf ++ evBytes taken ++ more) = pfx o (decode d'.state (d'.buf ++ more))) ∨
         (d'.state = .finished ∧
          ∀ more, decode d.state (d.buf ++ evBytes taken ++ more) = (o, some (d'.buf ++ more))))
    | .ready none =>
        (d'.state = .finished ∧
          ∀ more, decode d.state (d.buf ++ evBytes taken ++ more) = ([], some (d'.buf ++ more))) ∨
        (d'.state = .earlyFin ∧ d'.source.evs = [] ∧ d'.source.pre = none ∧
          decode d.state (d.buf ++ evBytes taken) = ([], none))

theorem PollSpec.read {d d' : DStream} {r : Poll (Option Bytes)} {st : DState} {s : Prep Bytes}
    {taken} {b : Bytes}
    (hs : d.source.evs = .pkt b :: s.evs) (hp : s.pre = none) (he : s.ends = d.source.ends)
    (hd : ∀ more, decode d.state (d.buf ++ more) = decode st (d.buf ++ more))
    (hl : (decode d.state d.buf).2 = none)
    (ih : PollSpec { d with source := s, state := st, buf := d.buf ++ b } r d' taken) :
    PollSpec d r d' (.pkt b :: taken) := by
  have hb : ∀ more, decode d.state (d.buf ++ evBytes (.pkt b :: taken) ++ more)
      = decode st (d.buf ++ b ++ evBytes taken ++ more) := by
    intro more; rw [List.append_assoc, hd]; simp
  refine ⟨?_, by simp, by rw [ih.ends]; simp [he], ?_, ?_, by simp, ?_⟩
  · rw [hs, ih.src]; rfl
  · intro _
    cases taken with
    | nil => rw [ih.same rfl]; exact hp
    | cons e t => exact ih.pre (by simp)
  · intro t p t' h
    cases t with
    | nil => simpa using hl
    | cons e t =>
      simp only [List.cons_append, List.cons.injEq] at h
      obtain ⟨rfl, h⟩ := h
      have := ih.lazy t p t' h
      rw [hd]; simpa using this
  · have := ih.res
    match r with
    | .pending => 
      simp only at this ⊢
      refine ⟨this.1, by simp, fun more => ?_⟩
      rw [hb]; exact this.2.2 more
    | .ready (some o) =>
      simp only at this ⊢
      refine ⟨this.1, ?_⟩
      rcases this.2 with h | h
      · left; exact ⟨h.1, fun more => by rw [hb]; exact h.2 more⟩
      · right; exact ⟨h.1, fun more => by rw [hb]; exact h.2 more⟩
    | .ready none =>
      simp only at this ⊢
      rcases this with h | h
      · left; exact ⟨h.1, fun more => by rw [hb]; exact h.2 more⟩
      · right
        refine ⟨h.1, h.2.1, h.2.2.1, ?_⟩
        have := hb []
        simp only [List.append_nil] at this
        rw [this]; exact h.2.2.2

/-- Dropping an escape dot without delivering anything. -/
theorem PollSpec.skip {d d' : DStream} {r : Poll (Option Bytes)} {st : DState} {b' : Bytes} {taken}
    (hne : d.buf ≠ [])
    (hd : ∀ more, decode d.state (d.buf ++ more) = decode st (b' ++ more))
    (ih : PollSpec { d with state := st, buf := b' } r d' taken) :
    PollSpec d r d' taken := by
  have hb : ∀ more, decode d.state (d.buf ++ evBytes taken ++ more)
      = decode st (b' ++ evBytes taken ++ more) := by
    intro more; rw [List.append_assoc, hd]; simp
  refine ⟨ih.src, ih.same, ih.ends, ih.pre, ?_, fun _ => .inr hne, ?_⟩
  · intro t p t' h
    rw [hd]; exact ih.lazy t p t' h
  · have := ih.res
    match r with
    | .pending => 
      simp only at this ⊢
      exact ⟨this.1, this.2.1, fun more => by rw [hb]; exact this.2.2 more⟩
    | .ready (some o) =>
      simp only at this ⊢
      refine ⟨this.1, ?_⟩
      rcases this.2 with h | h
      · left; exact ⟨h.1, fun more => by rw [hb]; exact h.2 more⟩
      · right; exact ⟨h.1, fun more => by rw [hb]; exact h.2 more⟩
    | .ready none =>
      simp only at this ⊢
      rcases this with h | h
      · left; exact ⟨h.1, fun more => by rw [hb]; exact h.2 more⟩
      · right
        refine ⟨h.1, h.2.1, h.2.2.1, ?_⟩
        have := hb []
        simp only [List.append_nil] at this
        rw [this]; exact h.2.2.2

theorem pollSpec_pending {d : DStream} {st : DState} {s : Prep Bytes}
    (hs : d.source.evs = .pending :: s.evs) (hp : s.pre = none) (he : s.ends = d.source.ends) (ha : st.Active)
    (hd : ∀ more, decode d.state (d.buf ++ more) = decode st (d.buf ++ more))
    (hl : (decode d.state d.buf).2 = none) :
    PollSpec d .pending { d with source := s, state := st } [.pending] := by
  refine ⟨hs, by simp, by simp [he, DState.Active.ne_early ha], fun _ => hp, ?_, by simp, ?_⟩
  · intro t p t' h
    cases t <;> simp at h
    simpa using hl
  · simp only
    exact ⟨ha, by simp, fun more => by simpa using hd more⟩

theorem pollSpec_end {d : DStream} {s : Prep Bytes}
    (hs : s = { d.source with ends := d.source.ends + 1 } ∧ d.source.evs = [] ∧ d.source.pre = none)
    (hd : decode d.state d.buf = ([], none)) :
    PollSpec d (.ready none) { d with source := s, state := .earlyFin } [] := by
  obtain ⟨rfl, h1, h2⟩ := hs
  refine ⟨rfl, fun _ => rfl, by simp, by simp, by simp, fun h => .inr h, ?_⟩
  right
  exact ⟨rfl, h1, h2, by simpa using hd⟩

theorem pollLoop_spec (d : DStream) (ha : d.state.Active) :
    ∃ taken, PollSpec d d.pollLoop.1 d.pollLoop.2 taken := by
  fun_induction DStream.pollLoop d with
  | case1 d st hs hlen =>
    have := fun more => scanBuf_ok d.state d.buf more ha
    simp only [hs, SplitOk] at this
    refine ⟨[], rfl, fun _ => rfl, by simp [DState.Active.ne_early (this []).1], by simp, by simp, by simp, ?_⟩
    refine ⟨by simpa using List.ne_nil_of_length_pos hlen, .inl ⟨(this []).1, fun more => ?_⟩⟩
    simpa using (this more).2
  | case2 d st hs hlen s h =>
    have hb : d.buf = [] := by simpa using hlen
    have := fun more => scanBuf_ok d.state d.buf more ha
    simp only [hs, SplitOk] at this
    exact ⟨_, pollSpec_pending (Prep.pollNext_pending h).1 (Prep.pollNext_pending h).2 (Prep.pollNext_ends_pending h) (this []).1
      (fun more => by simpa [hb] using (this more).2) (by rw [hb]; rfl)⟩
  | case3 d st hs hlen s h =>
    have hb : d.buf = [] := by simpa using hlen
    exact ⟨_, pollSpec_end (Prep.pollNext_none h) (by rw [hb]; rfl)⟩
  | case4 d st hs hlen b s h ih =>
    have hb : d.buf = [] := by simpa using hlen
    have := fun more => scanBuf_ok d.state d.buf more ha
    simp only [hs, SplitOk] at this
    obtain ⟨taken, ih⟩ := ih (this []).1
    exact ⟨_, PollSpec.read (Prep.pollNext_some h).1 (Prep.pollNext_some h).2 (Prep.pollNext_ends_some h)
      (fun more => by simpa [hb] using (this more).2) (by rw [hb]; rfl) ih⟩
  | case5 d st x hs res d' hlen =>
    have := fun more => scanBuf_ok d.state d.buf more ha
    simp only [hs, SplitOk] at this
    obtain ⟨a, b, h1, h2, _⟩ := this []
    have h3 : ∀ more, decode d.state (d.buf ++ more) = (a, some (b ++ more)) := by
      intro more
      obtain ⟨a', b', h1', h2', h3'⟩ := this more
      have : a'.length = a.length := by omega
      have e := h1.symm.trans h1'
      simp only [List.append_assoc] at e
      have e2 := List.append_inj e (by omega)
      have e3 := List.append_inj e2.2 (by simp)
      rw [h3', e2.1, e3.2]
    have hr : res = a := by simp [res, h1, h2]
    have hd : d'.buf = b := by simp [d', h1, h2]
    refine ⟨[], rfl, fun _ => rfl, by simp [d'], by simp, by simp, ?_, ?_⟩
    · intro _; right; rw [h1]; simp
    · simp only
      refine ⟨List.ne_nil_of_length_pos hlen, .inr ⟨rfl, fun more => ?_⟩⟩
      simpa [hr, hd] using h3 more
  | case6 d st x hs res d' hlen =>
    have := fun more => scanBuf_ok d.state d.buf more ha
    simp only [hs, SplitOk] at this
    obtain ⟨a, b, h1, h2, _⟩ := this []
    have h3 : ∀ more, decode d.state (d.buf ++ more) = (a, some (b ++ more)) := by
      intro more
      obtain ⟨a', b', h1', h2', h3'⟩ := this more
      have : a'.length = a.length := by omega
      have e := h1.symm.trans h1'
      simp only [List.append_assoc] at e
      have e2 := List.append_inj e (by omega)
      have e3 := List.append_inj e2.2 (by simp)
      rw [h3', e2.1, e3.2]
    have hr : res = a := by simp [res, h1, h2]
    have hd : d'.buf = b := by simp [d', h1, h2]
    have ha : a = [] := by rw [← hr]; simpa using hlen
    refine ⟨[], rfl, fun _ => rfl, by simp [d'], by simp, by simp, ?_, ?_⟩
    · intro _; right; rw [h1]; simp
    · simp only
      refine .inl ⟨rfl, fun more => ?_⟩
      simpa [hd, ha] using h3 more
  | case7 d st x hs hlen =>
    have := fun more => scanBuf_ok d.state d.buf more ha
    simp only [hs, SplitOk] at this
    refine ⟨[], rfl, fun _ => rfl, by simp, by simp, by simp, ?_, ?_⟩
    · intro h; right; intro h'; simp [h'] at h
    · simp only
      refine ⟨List.ne_nil_of_length_pos hlen, .inl ⟨.inl rfl, fun more => ?_⟩⟩
      obtain ⟨a, b, h1, h2, h3⟩ := this more
      simpa [h1, h2, List.drop_append] using h3
  | case8 d st x hs hlen ih =>
    have := fun more => scanBuf_ok d.state d.buf more ha
    simp only [hs, SplitOk] at this
    obtain ⟨taken, ih⟩ := ih (.inl rfl)
    obtain ⟨a, b, h1, h2, _⟩ := this []
    refine ⟨taken, ih.skip (by rw [h1]; simp) fun more => ?_⟩
    obtain ⟨a, b, h1, h2, h3⟩ := this more
    have : a = [] := by simpa [h1, h2] using hlen
    simpa [h1, h2, List.drop_append, this] using h3
  | case9 d st x hs hx =>
    have := fun more => scanBuf_ok d.state d.buf more ha
    simp only [hs, SplitOk] at this
    refine ⟨[], rfl, fun _ => rfl, by obtain ⟨_, _, _, _, hst, _⟩ := this []; simp [hst], by simp, by simp, ?_, ?_⟩
    · intro h; right; intro h'; simp [h'] at h
    · simp only
      obtain ⟨a, b, h1, h2, hst, _⟩ := this []
      refine ⟨?_, .inl ⟨.inr (.inr hst), fun more => ?_⟩⟩
      · have : a ≠ [] := by intro h; simp [h] at h2; omega
        simpa [h1, h2] using this
      · obtain ⟨a, b, h1, h2, hst, hb, h3⟩ := this more
        simpa [h1, h2, hst] using h3
  | case10 d st x hs hx s h =>
    have := fun more => scanBuf_ok d.state d.buf more ha
    simp only [hs, SplitOk] at this
    obtain ⟨a, b, h1, h2, hst, hb, h3⟩ := this []
    refine ⟨_, pollSpec_pending (Prep.pollNext_pending h).1 (Prep.pollNext_pending h).2 (Prep.pollNext_ends_pending h) (.inr (.inr hst))
      (fun more => ?_) ?_⟩
    · obtain ⟨a, b, h1, h2, hst, hb, h3⟩ := this more
      have : a = [] := by apply List.eq_nil_of_length_eq_zero; omega
      simpa [h1, this, hst] using h3
    · have : a = [] := by apply List.eq_nil_of_length_eq_zero; omega
      simp only [List.append_nil] at h3
      rw [h3, this]
      rcases hb with rfl | rfl <;> rfl
  | case11 d st x hs hx s h =>
    have := scanBuf_ok d.state d.buf [] ha
    simp only [hs, SplitOk] at this
    obtain ⟨a, b, h1, h2, hst, hb, h3⟩ := this
    have : a = [] := by apply List.eq_nil_of_length_eq_zero; omega
    refine ⟨_, pollSpec_end (Prep.pollNext_none h) ?_⟩
    simp only [List.append_nil] at h3
    rw [h3, this]
    rcases hb with rfl | rfl <;> rfl
  | case12 d st x hs hx b s h ih =>
    have := fun more => scanBuf_ok d.state d.buf more ha
    simp only [hs, SplitOk] at this
    obtain ⟨a, c, h1, h2, hst, hb, h3⟩ := this []
    obtain ⟨taken, ih⟩ := ih (.inr (.inr hst))
    refine ⟨_, PollSpec.read (Prep.pollNext_some h).1 (Prep.pollNext_some h).2 (Prep.pollNext_ends_some h) (fun more => ?_) ?_ ih⟩
    · obtain ⟨a, b, h1, h2, hst, hb, h3⟩ := this more
      have : a = [] := by apply List.eq_nil_of_length_eq_zero; omega
      simpa [h1, this, hst] using h3
    · have : a = [] := by apply List.eq_nil_of_length_eq_zero; omega
      simp only [List.append_nil] at h3
      rw [h3, this]
      rcases hb with rfl | rfl <;> rfl

/-! ### Facts that hold in every state, even after the end was reported -/

theorem pollLoop_nonempty (d : DStream) (o : Bytes) (h : d.pollLoop.1 = .ready (some o)) : o ≠ [] := by
  fun_induction DStream.pollLoop d with
  | case1 d st hs hlen => simp at h; subst h; exact List.ne_nil_of_length_pos hlen
  | case2 => simp at h
  | case3 => simp at h
  | case4 d st hs hlen b s hp ih => exact ih h
  | case5 d st x hs res d' hlen => simp at h; subst h; exact List.ne_nil_of_length_pos hlen
  | case6 => simp at h
  | case7 d st x hs hlen => simp at h; subst h; exact List.ne_nil_of_length_pos hlen
  | case8 d st x hs hlen ih => exact ih h
  | case9 d st x hs hx =>
    simp at h; subst h
    have := scanBuf_lt (.inr hs)
    apply List.ne_nil_of_length_pos; simp; omega
  | case10 => simp at h
  | case11 => simp at h
  | case12 d st x hs hx b s hp ih => exact ih h

/-- The slot of the source is free whenever the decoder holds bytes. -/
def DStream.SlotFree (d : DStream) : Prop := d.buf ≠ [] → d.source.pre = none

theorem pollLoop_slotFree (d : DStream) (h : d.SlotFree) :
    d.pollLoop.2.SlotFree ∧
      (d.pollLoop.1 = .ready none → d.pollLoop.2.state = .finished ∨ d.pollLoop.2.state = .earlyFin) := by
  have sub : ∀ {d : DStream} {b : Bytes}, d.SlotFree → (b ≠ [] → d.buf ≠ []) → b ≠ [] → d.source.pre = none :=
    fun h h1 h2 => h (h1 h2)
  fun_induction DStream.pollLoop d with
  | case1 d st hs hlen => simp [DStream.SlotFree]
  | case2 d st hs hlen s hp => exact ⟨fun _ => (Prep.pollNext_pending hp).2, by simp⟩
  | case3 d st hs hlen s hp =>
    refine ⟨?_, by simp⟩
    obtain ⟨rfl, h1, h2⟩ := Prep.pollNext_none hp
    exact fun _ => h2
  | case4 d st hs hlen b s hp ih => exact ih (fun _ => (Prep.pollNext_some hp).2)
  | case5 d st x hs res d' hlen =>
    refine ⟨fun hb => h ?_, by simp⟩
    intro h'; simp [d', h'] at hb
  | case6 d st x hs res d' hlen =>
    refine ⟨fun hb => h ?_, fun _ => .inl rfl⟩
    intro h'; simp [d', h'] at hb
  | case7 d st x hs hlen =>
    refine ⟨fun hb => h ?_, by simp⟩
    intro h'; simp [h'] at hb
  | case8 d st x hs hlen ih =>
    refine ih (fun hb => h ?_)
    intro h'; simp [h'] at hb
  | case9 d st x hs hx =>
    refine ⟨fun hb => h ?_, by simp⟩
    intro h'; simp [h'] at hb
  | case10 d st x hs hx s hp => exact ⟨fun _ => (Prep.pollNext_pending hp).2, by simp⟩
  | case11 d st x hs hx s hp =>
    refine ⟨?_, by simp⟩
    obtain ⟨rfl, h1, h2⟩ := Prep.pollNext_none hp
    exact fun _ => h2
  | case12 d st x hs hx b s hp ih => exact ih (fun _ => (Prep.pollNext_some hp).2)

end Verif
