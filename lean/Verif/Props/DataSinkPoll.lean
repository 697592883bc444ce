import Verif.Proofs.DataSinkPoll
import Verif.Props.Sink
import Verif.Props.SinkPoll
/-
C113: `DataSink` over a sink that is polled.
-/
namespace Verif
open Spec SinkPoll
variable {σ : Type}

/-- C113. `DataSink` uses its sink as the trait demands. -/
theorem c113_contract (R : RawSink σ) (st : σ) (chunks : List Bytes) (n : Nat) :
    SinkContract (Sender.after R st chunks n).sink.log := (good_after st chunks n).contract

/-- C113. Whenever the sending is stopped, what the sink was given is the beginning of the message's wire form, and it has the end
marker only if it is all of it: nobody takes a part for the message. -/
theorem c113_prefix (R : RawSink σ) (st : σ) (chunks : List Bytes) (n : Nat) :
    (handed (Sender.after R st chunks n).sink.log).flatten <+: wireForm chunks.flatten ∧
    (HasMarker (handed (Sender.after R st chunks n).sink.log).flatten →
      (handed (Sender.after R st chunks n).sink.log).flatten = wireForm chunks.flatten) := by
  have h := (good_after (R := R) st chunks n).cut
  refine ⟨h, fun hm => ?_⟩
  obtain ⟨y, hy⟩ := h
  have := (c09_marker_only_at_end _ _ y hy.symm).1 hm
  rw [← hy, this, List.append_nil]

/-- C113. Each piece is flushed before the next one is handed over. -/
theorem c113_one_unflushed (R : RawSink σ) (st : σ) (chunks : List Bytes) (n : Nat) :
    ∃ more, handed (Sender.after R st chunks n).sink.log = flushed (Sender.after R st chunks n).sink.log ++ more ∧ more.length ≤ 1 :=
  (tidy_after st chunks n).one

/-- C113. No wake-up is missed: when a poll leaves the sending unfinished, the last call it made to the sink was answered `Pending`, or
it was a complete flush, after which the sender goes on at once with the next piece. -/
theorem c113_woken (R : RawSink σ) (st : σ) (chunks : List Bytes) (n : Nat) (h : ∀ ok, (Sender.after R st chunks (n + 1)).pc ≠ .over ok) :
    (Sender.after R st chunks (n + 1)).sink.log.getLast? = some (.ready .pending) ∨
    (Sender.after R st chunks (n + 1)).sink.log.getLast? = some (.flush .pending) ∨
    ((Sender.after R st chunks (n + 1)).sink.log.getLast? = some (.flush .ready) ∧ heldBy (Sender.after R st chunks (n + 1)).pc ≠ none) := by
  have key : ∀ item (x : Raw σ), ((sendPoll R item x).1 = .pending → (sendPoll R item x).2.2.log.getLast? = some (.ready .pending) ∨
      (sendPoll R item x).2.2.log.getLast? = some (.flush .pending)) ∧
      ((sendPoll R item x).1 = .ready → (sendPoll R item x).2.2.log.getLast? = some (.flush .ready)) := by
    have fl : ∀ x : Raw σ, (x.pollFlush R).2.log.getLast? = some (.flush (x.pollFlush R).1) := by intro x; simp [Raw.pollFlush]
    intro item x
    cases item with
    | none =>
      simp only [sendPoll]
      exact ⟨fun h => .inr (by rw [fl, h]), fun h => by rw [fl, h]⟩
    | some it =>
      simp only [sendPoll]
      rcases hp : x.pollReady R with ⟨_ | _ | _, y⟩ <;> simp only
      · rcases hs : y.startSend R it with ⟨_ | _ | _, z⟩ <;> simp only
        · exact ⟨fun h => .inr (by rw [fl, h]), fun h => by rw [fl, h]⟩
        · exact ⟨by simp, by simp⟩
        · exact ⟨by simp, by simp⟩
      · refine ⟨fun _ => .inl ?_, by simp⟩
        have h1 := congrArg Prod.fst hp; have h2 := congrArg Prod.snd hp
        simp only [Raw.pollReady] at h1 h2
        rw [← h2, h1]; simp
      · exact ⟨by simp, by simp⟩
  have e : Sender.after R st chunks (n + 1) = (Sender.after R st chunks n).step R := rfl
  rw [e] at h ⊢
  generalize Sender.after R st chunks n = x at h
  obtain ⟨pc, k, s⟩ := x
  cases pc with
  | over ok => exact absurd rfl (h ok)
  | sending item rest cs =>
    have hk := key item s
    simp only [Sender.step] at h ⊢
    rcases hp : sendPoll R item s with ⟨a, it, s'⟩
    rw [hp] at hk h
    cases a with
    | ready =>
      have h1 := hk.2 rfl
      cases rest with
      | some r =>
        obtain ⟨_, _, e⟩ := scanned_shape k r cs
        exact .inr (.inr ⟨h1, by simp [e, heldBy]⟩)
      | none =>
        refine .inr (.inr ⟨h1, ?_⟩)
        rcases nextChunk_shape k cs with ⟨_, _, _, e⟩ | ⟨_, e⟩ <;> simp [e, heldBy]
    | pending =>
      rcases hk.1 rfl with h1 | h1
      · exact .inl h1
      · exact .inr (.inl h1)
    | error => exact absurd rfl (h false)
  | ending item =>
    have hk := key item s
    simp only [Sender.step] at h ⊢
    rcases hp : sendPoll R item s with ⟨a, it, s'⟩
    rw [hp] at hk h
    cases a with
    | ready => exact absurd rfl (h true)
    | pending =>
      rcases hk.1 rfl with h1 | h1
      · exact .inl h1
      · exact .inr (.inl h1)
    | error => exact absurd rfl (h false)

/-- C113. `Ok` means that the whole message is flushed. -/
theorem c113_ok (R : RawSink σ) (st : σ) (chunks : List Bytes) (n : Nat) (h : (Sender.after R st chunks n).pc = .over true) :
    (flushed (Sender.after R st chunks n).sink.log).flatten = wireForm chunks.flatten ∧
    handed (Sender.after R st chunks n).sink.log = flushed (Sender.after R st chunks n).sink.log ∧
    ∀ c ∈ (Sender.after R st chunks n).sink.log, ¬ c.Failed := by
  have hg := good_after (R := R) st chunks n
  have hf := hg.flushed h
  refine ⟨?_, hf.symm, (hg.fine (by rw [h]; simp)).nofail⟩
  have := hg.bytes (by rw [h]; simp)
  rw [h] at this
  rw [hf, ← this]; simp [leftBytes]

/-- C113. `Err` is reported if the sink failed, at once, and only then. -/
theorem c113_err (R : RawSink σ) (st : σ) (chunks : List Bytes) (n : Nat) :
    (Sender.after R st chunks n).pc = .over false ↔ ∃ c ∈ (Sender.after R st chunks n).sink.log, c.Failed := by
  rw [(good_after (R := R) st chunks n).failed]
  simp [NoFail, Classical.not_forall]

/-- C113. A sink that does not fail and does not answer `Pending` for ever gets the whole message. -/
theorem c113_live (R : RawSink σ) (wait : σ → Nat) (hw : Willing R wait) (st : σ) (chunks : List Bytes) :
    ∃ n, (Sender.after R st chunks n).pc = .over true := by
  refine sender_ends hw (Sender.init st chunks) ?_
  unfold Sender.init
  rcases nextChunk_shape .crLfPassed chunks with ⟨_, _, _, e⟩ | ⟨_, e⟩ <;> simp [e]

/-- C113. And then whoever reads these bytes, in whatever packets, reads the message. -/
theorem c113_roundtrip (R : RawSink σ) (st : σ) (chunks : List Bytes) (n : Nat) (h : (Sender.after R st chunks n).pc = .over true)
    (src : Prep Bytes) (rest : Bytes) (hsrc : src.bytes = (flushed (Sender.after R st chunks n).sink.log).flatten ++ rest) :
    (DStream.new src).readAll.1.flatten = wholeLines chunks.flatten ∧
    ∃ d, (DStream.new src).readAll.2.complete = .ok (true, d) ∧ d.source.items.flatten = rest := by
  rw [(c113_ok R st chunks n h).1] at hsrc
  obtain ⟨ls, h2, h3⟩ := wire_message chunks.flatten rest
  rw [← hsrc] at h2
  exact ⟨by rw [(c01_decoding src ls rest h2).1, h3], c02_leftover src ls rest h2⟩

/-- C113. A `send` that is dropped after its chunk was handed over (it was only waiting for the flush) does no harm: with other chunks
instead of the ones that were to follow, the sink gets the message that has those. -/
theorem c113_go_on (R : RawSink σ) (st : σ) (done cs chunks : List Bytes) (n n' : Nat)
    (h : (Sender.after R st (done ++ cs) n).pc = .sending none none cs) :
    SinkContract (Sender.steps R n' ((Sender.after R st (done ++ cs) n).goOn chunks)).sink.log ∧
    (handed (Sender.steps R n' ((Sender.after R st (done ++ cs) n).goOn chunks)).sink.log).flatten <+: wireForm (done ++ chunks).flatten ∧
    ((Sender.steps R n' ((Sender.after R st (done ++ cs) n).goOn chunks)).pc = .over true →
      (flushed (Sender.steps R n' ((Sender.after R st (done ++ cs) n).goOn chunks)).sink.log).flatten = wireForm (done ++ chunks).flatten) := by
  have ht := tracks_after (R := R) st (done ++ cs) n
  have hf := (good_after (R := R) st (done ++ cs) n).fine (by rw [h]; simp)
  unfold Tracks at ht
  rw [h] at ht
  obtain ⟨done', hd, he⟩ := ht
  cases List.append_cancel_right hd
  have hg : Good (wireForm (done ++ chunks).flatten) ((Sender.after R st (done ++ cs) n).goOn chunks) := by
    refine good_next hf ?_
    rw [← tailBytes_wire, List.flatten_append, tailBytes_append, he]
    simp [encode]
  have hg := hg.steps (R := R) n'
  refine ⟨hg.contract, hg.cut, fun ho => ?_⟩
  have := hg.bytes (by rw [ho]; simp)
  rw [ho] at this
  rw [hg.flushed ho, ← this]; simp [leftBytes]

/-! ### Concrete cases -/

/-- C113: on the sink that answers `Pending` every other time. -/
theorem c113_example_live : (Sender.after lazySink true [b!".a\r", b!"\n.b"] 16).pc = .over true ∧
    (flushed (Sender.after lazySink true [b!".a\r", b!"\n.b"] 16).sink.log) = [b!".", b!".a\r", b!"\n.", b!".b", b!"\r\n.\r\n"] := by
  decide +kernel

/-- C113: a `send` that waits for the flush only, as in `c113_go_on`. -/
theorem c113_example_flushing : (Sender.after lazySink false ([b!"a\r"] ++ [b!"b"]) 1).pc = .sending none none [b!"b"] := by decide +kernel

/-- C113: what `c113_go_on` asks for is needed. Here `send("a")` is dropped before its chunk was handed over, and the same `DataSink` is
used to send a line that is a dot. The state says that a line has begun, so the dot is not doubled: the sink gets the end of the
message, and what was meant as text follows it as a command. -/
theorem c113_example_dropped_send : (Sender.after lazySink true [b!"a"] 1).pc = .sending (some b!"a") none [] ∧
    (Sender.steps lazySink 9 ((Sender.after lazySink true [b!"a"] 1).goOn [b!".\r\nRSET\r\n"])).pc = .over true ∧
    (handed (Sender.steps lazySink 9 ((Sender.after lazySink true [b!"a"] 1).goOn [b!".\r\nRSET\r\n"])).sink.log).flatten =
      b!".\r\nRSET\r\n.\r\n" := by
  decide +kernel

end Verif
