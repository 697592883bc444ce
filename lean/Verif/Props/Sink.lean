import Verif.Proofs.DataSink
import Verif.Props.Data
/-
C08 - C11: writing a message with `DataSink`.
-/
namespace Verif
open Spec

private theorem finish_wire {st : KState} {m : Bytes} (h : encode .crLfPassed m = (stuff m, st)) :
    stuff m ++ (DSink.endBytes st) = wireForm m := by
  have h2 := (encode_stuff m).2
  rw [h] at h2
  unfold wireForm
  cases st <;> simp at h2 <;> simp [h2, DSink.endBytes]

private theorem sendMessage_spec (s : BSink) (chunks : List Bytes) :
    match DSink.sendMessage s chunks with
    | none => False
    | some (true, s') => ∃ new, s'.out = s.out ++ new ∧ new.flatten = wireForm chunks.flatten
    | some (false, s') => ∃ new, s'.out = s.out ++ new ∧ new.flatten <+: wireForm chunks.flatten := by
  unfold DSink.sendMessage
  have h := sendAll_ok (DSink.new s) chunks
  have he := encode_stuff chunks.flatten
  rcases hk : (DSink.new s).sendAll chunks with _ | ⟨_ | _, k'⟩
  · rw [hk] at h; exact h
  · rw [hk] at h
    obtain ⟨new, h1, h2⟩ := h
    refine ⟨new, h1, ?_⟩
    have : (encode (DSink.new s).state chunks.flatten).1 = stuff chunks.flatten := he.1
    rw [this] at h2
    exact h2.trans (List.prefix_append _ _)
  · rw [hk] at h
    obtain ⟨new, h1, h2⟩ := h
    have h3 : encode .crLfPassed chunks.flatten = (stuff chunks.flatten, k'.state) := by
      rw [← he.1]
      have : encode .crLfPassed chunks.flatten = (new.flatten, k'.state) := h2.symm
      rw [this]
    have h4 := finish_wire h3
    have h5 : new.flatten = stuff chunks.flatten := by
      have : (new.flatten, k'.state) = encode .crLfPassed chunks.flatten := h2
      rw [h3] at this; simpa using this
    simp only
    unfold DSink.finish
    rcases k'.sink.send_cases (DSink.endBytes k'.state) with ⟨s', g1, g2⟩ | ⟨s', g1, g2⟩
    · rw [g1]
      refine ⟨new ++ [DSink.endBytes k'.state], by rw [g2, h1]; simp [DSink.new], ?_⟩
      rw [← h4]; simp [h5]
    · rw [g1]
      simp only
      rcases g2 with g2 | g2
      · exact ⟨new, by rw [g2, h1]; simp [DSink.new], by rw [h5]; exact List.prefix_append _ _⟩
      · refine ⟨new ++ [DSink.endBytes k'.state], by rw [g2, h1]; simp [DSink.new], ?_⟩
        rw [← h4]; simp [h5]

/-- C08. Sending the chunks and `end()`, if it succeeds, has written exactly the wire form. -/
theorem c08_sink_output (s s' : BSink) (chunks : List Bytes)
    (h : DSink.sendMessage s chunks = some (true, s')) :
    s'.out.flatten = s.out.flatten ++ wireForm chunks.flatten := by
  have := sendMessage_spec s chunks
  rw [h] at this
  obtain ⟨new, h1, h2⟩ := this
  rw [h1]; simp [h2]

/-- C08. It does succeed on a sink that never fails. -/
theorem c08_sink_succeeds (s : BSink) (chunks : List Bytes) (h : ∀ r ∈ s.plan, r = .ok) :
    ∃ s', DSink.sendMessage s chunks = some (true, s') := by
  have hsend : ∀ (s : BSink) item, (∀ r ∈ s.plan, r = .ok) →
      ∃ s', s.send item = (true, s') ∧ ∀ r ∈ s'.plan, r = .ok := by
    intro s item h
    unfold BSink.send
    split
    · exact ⟨_, rfl, h⟩
    · rename_i p hp; rw [hp] at h; exact ⟨_, rfl, fun r hr => h r (by simp [hr])⟩
    · rename_i p hp; rw [hp] at h; exact absurd (h .errDropped (by simp)) (by simp)
    · rename_i p hp; rw [hp] at h; exact absurd (h .errAccepted (by simp)) (by simp)
  have hloop : ∀ fuel (k : DSink) item, (∀ r ∈ k.sink.plan, r = .ok) →
      DSink.sendLoop fuel k item = none ∨
        ∃ k', DSink.sendLoop fuel k item = some (true, k') ∧ ∀ r ∈ k'.sink.plan, r = .ok := by
    intro fuel
    induction fuel with
    | zero => intros; left; rfl
    | succ fuel ih =>
      intro k item h
      rw [DSink.sendLoop]
      split
      · obtain ⟨s', h1, h2⟩ := hsend k.sink item h
        right; exact ⟨_, by rw [h1], h2⟩
      · rename_i st pos _
        obtain ⟨s', h1, h2⟩ := hsend k.sink (item.take (pos + 1)) h
        rw [h1]
        exact ih { sink := s', state := st } _ h2
  have hall : ∀ chunks (k : DSink), (∀ r ∈ k.sink.plan, r = .ok) →
      ∃ k', k.sendAll chunks = some (true, k') ∧ ∀ r ∈ k'.sink.plan, r = .ok := by
    intro chunks
    induction chunks with
    | nil => intro k h; exact ⟨k, rfl, h⟩
    | cons c cs ih =>
      intro k h
      have h1 := send_ok k c
      rcases hloop (c.length + 2) k c h with h2 | ⟨k', h2, h3⟩
      · unfold DSink.send at h1; rw [h2] at h1; exact absurd h1 (by simp [SendOk])
      · obtain ⟨k2, h4, h5⟩ := ih k' h3
        refine ⟨k2, ?_, h5⟩
        rw [DSink.sendAll]
        unfold DSink.send
        rw [h2]; exact h4
  obtain ⟨k, h1, h2⟩ := hall chunks (DSink.new s) h
  obtain ⟨s', h3, _⟩ := hsend k.sink (DSink.endBytes k.state) h2
  exact ⟨s', by unfold DSink.sendMessage; rw [h1]; exact congrArg some h3⟩

/-- C09. The wire form is text lines and the marker, and no proper prefix of it contains the marker. -/
theorem c09_marker_only_at_end (m x y : Bytes) (h : wireForm m = x ++ y) : HasMarker x ↔ y = [] := by
  obtain ⟨ls, h1, _⟩ := wire_message m []
  simp only [List.append_nil] at h1
  constructor
  · intro hx
    obtain ⟨ls', rest', hm⟩ := (c01_marker_iff _).1 hx
    have : IsMessage (wireForm m) ls' (rest' ++ y) := ⟨by rw [h, hm.1]; simp, hm.2⟩
    have := (isMessage_unique h1 this).1
    have := this.symm
    simp at this; exact this.2
  · rintro rfl
    simp at h
    rw [← h, c01_marker_iff]
    exact ⟨ls, [], h1⟩

/-- C10. Round trip: whatever chunks the message was sent in, whatever packets it arrives in, and whatever
follows it on the connection. -/
theorem c10_roundtrip (chunks : List Bytes) (k k' : BSink) (src : Prep Bytes) (rest : Bytes)
    (hk : k.out = []) (hs : DSink.sendMessage k chunks = some (true, k'))
    (hsrc : src.bytes = k'.out.flatten ++ rest) :
    (DStream.new src).readAll.1.flatten = wholeLines chunks.flatten ∧
    ∃ d, (DStream.new src).readAll.2.complete = .ok (true, d) ∧ d.source.items.flatten = rest := by
  have h1 := c08_sink_output k k' chunks hs
  rw [hk] at h1
  simp at h1
  obtain ⟨ls, h2, h3⟩ := wire_message chunks.flatten rest
  rw [← h1, ← hsrc] at h2
  exact ⟨by rw [(c01_decoding src ls rest h2).1, h3], c02_leftover src ls rest h2⟩

/-- C11. Whatever the sink does, what it has accepted is a prefix of the wire form. -/
theorem c11_failure_prefix (s : BSink) (chunks : List Bytes) :
    ∃ ok s' new, DSink.sendMessage s chunks = some (ok, s') ∧ s'.out = s.out ++ new ∧
      new.flatten <+: wireForm chunks.flatten := by
  have := sendMessage_spec s chunks
  revert this
  split
  · exact fun h => h.elim
  · rename_i s' h; rintro ⟨new, h1, h2⟩; exact ⟨true, s', new, h, h1, by rw [h2]; exact List.prefix_rfl⟩
  · rename_i s' h; rintro ⟨new, h1, h2⟩; exact ⟨false, s', new, h, h1, h2⟩

/-- C09, for what the sink writes: after a successful send, no proper prefix of the bytes written for the message contains
the marker, and they contain it. -/
theorem c09_sink_output (s s' : BSink) (chunks : List Bytes) (h : DSink.sendMessage s chunks = some (true, s')) :
    ∃ w, s'.out.flatten = s.out.flatten ++ w ∧ ∀ x y, w = x ++ y → (HasMarker x ↔ y = []) :=
  ⟨_, c08_sink_output s s' chunks h, fun x y h => c09_marker_only_at_end _ x y h⟩

/-- C09, for failing sinks: whenever the marker has been written, the message has been written completely. -/
theorem c09_sink_failure (s : BSink) (chunks : List Bytes) : ∃ ok s' new, DSink.sendMessage s chunks = some (ok, s') ∧
    s'.out = s.out ++ new ∧ (HasMarker new.flatten → new.flatten = wireForm chunks.flatten) := by
  obtain ⟨ok, s', new, h1, h2, y, h3⟩ := c11_failure_prefix s chunks
  refine ⟨ok, s', new, h1, h2, fun h => ?_⟩
  have := (c09_marker_only_at_end _ _ y h3.symm).1 h
  rw [← h3, this, List.append_nil]

/-! ### Concrete cases -/

private def exChunks : List Bytes := [b!".a\r", b!"\n", b!"..b\r\n.c"]
example : wireForm exChunks.flatten = b!"..a\r\n...b\r\n..c\r\n.\r\n" := by
  decide
example : ∃ s', DSink.sendMessage ⟨[], []⟩ exChunks = some (true, s') :=
  c08_sink_succeeds _ _ (by simp)
/-- A failing run is possible, too. -/
example : (DSink.sendMessage ⟨[], [.ok, .errAccepted]⟩ exChunks).map (·.1) = some false := by decide
example : wireForm b!".\r\n" = b!"..\r\n.\r\n" := by decide

end Verif
