import Verif.Props.Sink
/-
C82: the decoder and the encoder hold nothing back, and a `Pending` always comes from the connection.
-/
namespace Verif
open Spec

/-- `Polled s os d`: the `DataStream` made from `s` has been polled any number of times, has not reported its end, has yielded
the chunks `os`, and is now `d`. -/
inductive Polled (s : Prep Bytes) : List Bytes → DStream → Prop
  | new : Polled s [] (DStream.new s)
  | chunk {os d o d'} : Polled s os d → d.pollNext = (.ready (some o), d') → Polled s (os ++ [o]) d'
  | pending {os d d'} : Polled s os d → d.pollNext = (.pending, d') → Polled s os d'

private theorem pollLoop_pending_src (d : DStream) (h : d.pollLoop.1 = .pending) :
    ∃ t, d.source.evs = t ++ .pending :: d.pollLoop.2.source.evs := by
  fun_induction DStream.pollLoop d with
  | case1 => simp at h
  | case2 d st hs hlen s hp => exact ⟨[], (Prep.pollNext_pending hp).1⟩
  | case3 => simp at h
  | case4 d st hs hlen b s hp ih =>
    obtain ⟨t, ht⟩ := ih h
    exact ⟨.pkt b :: t, by rw [(Prep.pollNext_some hp).1]; simpa using ht⟩
  | case5 => simp at h
  | case6 => simp at h
  | case7 => simp at h
  | case8 d st x hs hlen ih => exact ih h
  | case9 => simp at h
  | case10 d st x hs hx s hp => exact ⟨[], (Prep.pollNext_pending hp).1⟩
  | case11 => simp at h
  | case12 d st x hs hx b s hp ih =>
    obtain ⟨t, ht⟩ := ih h
    exact ⟨.pkt b :: t, by rw [(Prep.pollNext_some hp).1]; simpa using ht⟩

private theorem pollLoop_pending_buf (d : DStream) (ha : d.state.Active) (h : d.pollLoop.1 = .pending) :
    decode d.pollLoop.2.state d.pollLoop.2.buf = ([], none) ∧ d.pollLoop.2.buf.length ≤ 2 := by
  fun_induction DStream.pollLoop d with
  | case1 => simp at h
  | case2 d st hs hlen s hp =>
    have hb : d.buf = [] := by simpa using hlen
    simp [hb, decode]
  | case3 => simp at h
  | case4 d st hs hlen b s hp ih =>
    have := scanBuf_ok d.state d.buf [] ha
    simp only [hs, SplitOk] at this
    exact ih this.1 h
  | case5 => simp at h
  | case6 => simp at h
  | case7 => simp at h
  | case8 d st x hs hlen ih => exact ih (.inl rfl) h
  | case9 => simp at h
  | case10 d st x hs hx s hp =>
    have := scanBuf_ok d.state d.buf [] ha
    simp only [hs, SplitOk] at this
    obtain ⟨a, b, h1, h2, hst, hb, h3⟩ := this
    have : a = [] := by apply List.eq_nil_of_length_eq_zero; omega
    subst this
    simp only [h1, hst]
    rcases hb with rfl | rfl <;> simp [decode]
  | case11 => simp at h
  | case12 d st x hs hx b s hp ih =>
    have := scanBuf_ok d.state d.buf [] ha
    simp only [hs, SplitOk] at this
    obtain ⟨a, c, h1, h2, hst, hb, h3⟩ := this
    exact ih (.inr (.inr hst)) h

private theorem polled_inv {s os d} (h : Polled s os d) :
    d.state = .finished ∨
    (d.state.Active ∧ ∃ taken, s.evs = taken ++ d.source.evs ∧
      ∀ more, decode .crLfPassed (evBytes taken ++ more) = pfx os.flatten (decode d.state (d.buf ++ more))) := by
  induction h with
  | new => exact .inr ⟨.inr (.inr rfl), [], rfl, fun more => by simp [DStream.new]⟩
  | @chunk os d o d' _ hp ih =>
    rcases ih with hf | ⟨ha, taken, h1, h2⟩
    · rw [pollNext_finished hf] at hp; simp at hp
    · rw [pollNext_active ha] at hp
      obtain ⟨t, sp⟩ := pollLoop_spec d ha
      rw [hp] at sp
      rcases sp.res.2 with ⟨ha', hr⟩ | ⟨hf, _⟩
      · refine .inr ⟨ha', taken ++ t, by rw [h1, sp.src]; simp, fun more => ?_⟩
        have := h2 (evBytes t ++ more)
        rw [← List.append_assoc d.buf, hr] at this
        simpa using this
      · exact .inl hf
  | @pending os d d' _ hp ih =>
    rcases ih with hf | ⟨ha, taken, h1, h2⟩
    · rw [pollNext_finished hf] at hp; simp at hp
    · rw [pollNext_active ha] at hp
      obtain ⟨t, sp⟩ := pollLoop_spec d ha
      rw [hp] at sp
      refine .inr ⟨sp.res.1, taken ++ t, by rw [h1, sp.src]; simp, fun more => ?_⟩
      have := h2 (evBytes t ++ more)
      rw [← List.append_assoc d.buf, sp.res.2.2] at this
      simpa using this

/-- C82 (no lost wake-up). A poll of a `DataStream`, whatever its state, returns `Pending` only if in this very poll the
connection has been polled and has returned `Pending` last; so the task is registered with the connection. -/
theorem c82_pending_from_source (d d' : DStream) (h : d.pollNext = (.pending, d')) :
    ∃ t, d.source.evs = t ++ .pending :: d'.source.evs := by
  unfold DStream.pollNext at h
  split at h
  · simp at h
  · have := pollLoop_pending_src d (by rw [h])
    rwa [h] at this

/-- The same for `Prependable`. -/
theorem c82_prependable_pending {α : Type} (p p' : Prep α) (h : p.pollNext = (.pending, p')) :
    p.evs = .pending :: p'.evs :=
  (Prep.pollNext_pending h).1

/-- C82 (nothing is held back). When a `DataStream` returns `Pending`, the chunks it has yielded are exactly the decoded
text of the bytes the connection has delivered so far: whole lines without their escape dots and the unfinished line, except
that a lone "." or ".CR" at the beginning of a line must wait. At most these two bytes are kept in memory. -/
theorem c82_prompt (s : Prep Bytes) (os : List Bytes) (d d' : DStream) (hr : Polled s os d)
    (h : d.pollNext = (.pending, d')) :
    ∃ taken ls part, s.evs = taken ++ .pending :: d'.source.evs ∧ IsUnfinished (evBytes taken) ls part ∧
      os.flatten = decodedLines ls ++ decodedPart part ∧ d'.buf.length ≤ 2 := by
  rcases polled_inv (.pending hr h) with hf | ⟨ha', taken, h1, h2⟩
  · rcases polled_inv hr with hf' | ⟨ha, _⟩
    · rw [pollNext_finished hf'] at h; simp at h
    · rw [pollNext_active ha] at h
      obtain ⟨t, sp⟩ := pollLoop_spec d ha
      rw [h] at sp
      have := sp.res.1
      simp [hf, DState.Active] at this
  · rcases polled_inv hr with hf' | ⟨ha, taken0, h3, h4⟩
    · rw [pollNext_finished hf'] at h; simp at h
    · rw [pollNext_active ha] at h
      have hb := pollLoop_pending_buf d ha (by rw [h])
      rw [h] at hb
      obtain ⟨t, ht⟩ := pollLoop_pending_src d (by rw [h])
      rw [h] at ht
      have e : taken = taken0 ++ t ++ [.pending] := by
        rw [h3, ht] at h1
        have : taken0 ++ t ++ [.pending] ++ d'.source.evs = taken ++ d'.source.evs := by simpa using h1
        exact (List.append_cancel_right this).symm
      subst e
      have hd := h2 []
      simp only [List.append_nil] at hd
      rw [hb.1] at hd
      simp [pfx] at hd
      rw [← evBytes_append] at hd
      have hn : ¬ HasMarker (evBytes (taken0 ++ t)) := by
        rw [← decode_none_iff, hd]
      obtain ⟨ls, part, hu⟩ := (c03_no_marker_iff _).1 hn
      refine ⟨taken0 ++ t, ls, part, by rw [h3, ht]; simp, hu, ?_, hb.2⟩
      rw [decode_unfinished hu] at hd
      simpa using hd.symm

/-- C82 (encoder). After every successful `send`, the underlying sink has accepted the stuffed form of everything sent so
far: the encoder holds nothing back either. -/
theorem c82_sink_prompt (s : BSink) (chunks : List Bytes) (k : DSink)
    (h : (DSink.new s).sendAll chunks = some (true, k)) :
    k.sink.out.flatten = s.out.flatten ++ stuff chunks.flatten := by
  have hk := sendAll_ok (DSink.new s) chunks
  rw [h] at hk
  obtain ⟨new, h1, h2⟩ := hk
  have : new.flatten = stuff chunks.flatten := by
    have h3 := (encode_stuff chunks.flatten).1
    have h4 : (new.flatten, k.state) = encode .crLfPassed chunks.flatten := h2
    rw [← h3, ← h4]
  rw [h1]
  simp [DSink.new, this]

/-! ### Concrete cases -/

private def exSrc : Prep Bytes := Prep.new [.pkt b!"a\r\n..b\r\n.", .pending, .pkt b!"\r", .pending, .pkt b!"\n"]

/-- The second `Pending` comes when ".CR" has arrived at the beginning of a line; the two lines before it are out. -/
example : ∃ os d d', Polled exSrc os d ∧ d.pollNext = (.pending, d') ∧ os.flatten = b!"a\r\n.b\r\n" ∧
    d'.source.evs = [.pkt b!"\n"] := by
  have h1 : (DStream.new exSrc).pollNext = (.ready (some b!"a\r\n"), (DStream.new exSrc).pollNext.2) := by decide +kernel
  have h2 : (DStream.new exSrc).pollNext.2.pollNext =
      (.ready (some b!".b\r\n"), (DStream.new exSrc).pollNext.2.pollNext.2) := by decide +kernel
  have h3 : (DStream.new exSrc).pollNext.2.pollNext.2.pollNext =
      (.pending, (DStream.new exSrc).pollNext.2.pollNext.2.pollNext.2) := by decide +kernel
  have h4 : (DStream.new exSrc).pollNext.2.pollNext.2.pollNext.2.pollNext =
      (.pending, (DStream.new exSrc).pollNext.2.pollNext.2.pollNext.2.pollNext.2) := by decide +kernel
  exact ⟨_, _, _, .pending (.chunk (.chunk .new h1) h2) h3, h4, rfl, by decide +kernel⟩

end Verif
