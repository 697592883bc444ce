import Verif.Proofs.Checked
import Verif.Props.Data
import Verif.Props.Task
import Verif.Props.SessionExamples
/-
C115: no index, split, sum or difference of the code is out of range; what is left is a line that is longer than any buffer.
-/
namespace Verif
open Spec Checked
variable {M : Machine}

/-- C115. `DataStream`, polled in any way on packets of any kind: no operation is out of range, no buffer too large, and the answer is
that of Model/Data.lean. -/
theorem c115_stream (hM : 16 ≤ M.bits) {s : Prep Bytes} (hs : ∀ b, .pkt b ∈ s.src → b.length + 2 ≤ M.cap)
    (hp : ∀ b, s.pre = some b → b.length + 2 ≤ M.cap) {e : Bool} {d : DStream} (h : DReach s e d) :
    Checked.pollNext M d = .ok d.pollNext ∧ Checked.complete d = .ok d.complete := by
  have : DSmall M d := by
    induction h with
    | new => exact ⟨⟨hs, hp⟩, by simp [DStream.new], by simp [DStream.new]⟩
    | poll _ hq ih =>
      have := (poll_ok hM _ ih).2
      rw [hq] at this
      exact this
  exact ⟨(poll_ok hM d this).1, (complete_ok hM d this).1⟩

/-- C115. The same for `DataSink::send`. -/
theorem c115_sink (hM : 16 ≤ M.bits) (fuel : Nat) (k : DSink) (item : Bytes) (h : item.length ≤ M.cap) :
    Checked.sendLoop M fuel k item = .ok (DSink.sendLoop fuel k item) :=
  Checked.sendLoop_ok fuel k item (by have := top_cap hM; omega)

variable {L : IpLib} {S U : Type} {C : Config L S U}

/-- C115. A whole session, on any machine of at least 16 bits, with or without overflow checks, wherever its lines are in memory. Up to
any point it is the session of the other models, unless a line was longer, as far as it had arrived, than a buffer can be; then, and
only then, it panics (`capacity overflow`). -/
theorem c115_session (hM : 16 ≤ M.bits) (hL : IpLaws L) (hT : TextsExist M.cap C) (place : Bytes → Nat) (incoming : List (SrcEv Bytes))
    (hin : ∀ b, .pkt b ∈ incoming → b.length + 2 ≤ M.cap) (outgoing : BSink) (s : S) (u : U) (n : Nat) :
    ((∀ m < n, ¬ Full M (Task.after C incoming outgoing s u m)) →
      Checked.after M C place incoming outgoing s u n = .ok (Task.after C incoming outgoing s u n)) ∧
    ((∃ m < n, Full M (Task.after C incoming outgoing s u m)) →
      Checked.after M C place incoming outgoing s u n = .error .memory) := by
  have key : (Checked.after M C place incoming outgoing s u n = .ok (Task.after C incoming outgoing s u n) ∧
        Inv M C (Task.after C incoming outgoing s u n) ∧ ∀ m < n, ¬ Full M (Task.after C incoming outgoing s u m)) ∨
      (Checked.after M C place incoming outgoing s u n = .error .memory ∧ ∃ m < n, Full M (Task.after C incoming outgoing s u m)) := by
    induction n with
    | zero =>
      left
      refine ⟨say_ok hM (hT.says .welcomeBanner s) _ _, ?_, fun m hm => absurd hm (by omega)⟩
      exact inv_reply _ _ _ ⟨hin, fun b hb => by cases hb⟩
    | succ n ih =>
      have e : Task.after C incoming outgoing s u (n + 1) = Task.step C (Task.after C incoming outgoing s u n) :=
        Task.steps_succ C n _
      rcases ih with ⟨h1, h2, h3⟩ | ⟨h1, m, hm, h2⟩
      · rcases step_ok hM hL hT place _ h2 with ⟨h4, h5⟩ | ⟨h4, h5⟩
        · left
          refine ⟨?_, by rw [e]; exact h5, ?_⟩
          · rw [Checked.after, h1, e]
            exact h4
          · intro m hm hf
            by_cases hmn : m < n
            · exact h3 m hmn hf
            · have : m = n := by omega
              subst this
              obtain ⟨buf, w, pkt, s', e1, e2, e3⟩ := hf
              rw [e1] at h4
              simp only [Checked.step, e2, unsplit, if_neg (show ¬ buf.length + pkt.length ≤ M.cap by omega), bind, Except.bind] at h4
              cases h4
        · right
          refine ⟨?_, n, by omega, h5⟩
          rw [Checked.after, h1]
          exact h4
      · right
        refine ⟨?_, m, by omega, h2⟩
        rw [Checked.after, h1]
        rfl
  rcases key with ⟨h1, _, h3⟩ | ⟨h1, m, hm, h2⟩
  · exact ⟨fun _ => h1, fun ⟨m, hm, hf⟩ => absurd hf (h3 m hm)⟩
  · exact ⟨fun h => absurd h2 (h m hm), fun _ => h1⟩

/-- C115. So if all that is received fits into one buffer, nothing goes wrong. -/
theorem c115_fits (hM : 16 ≤ M.bits) (hL : IpLaws L) (hT : TextsExist M.cap C) (place : Bytes → Nat) (incoming : List (SrcEv Bytes))
    (hin : (evBytes incoming).length + 2 ≤ M.cap) (outgoing : BSink) (s : S) (u : U) (n : Nat) :
    Checked.after M C place incoming outgoing s u n = .ok (Task.after C incoming outgoing s u n) := by
  have hpk : ∀ b, SrcEv.pkt b ∈ incoming → b.length ≤ (evBytes incoming).length := by
    intro b hb
    clear hin
    induction incoming with
    | nil => cases hb
    | cons e r ih =>
      cases hb with
      | head => simp [evBytes]
      | tail _ hb =>
        have := ih hb
        cases e <;> simp [evBytes] <;> omega
  refine (c115_session hM hL hT place incoming (fun b hb => by have := hpk b hb; omega) outgoing s u n).1 ?_
  intro m _ hf
  have hw : within (evBytes incoming).length (Task.after C incoming outgoing s u m) := by
    clear hf
    induction m with
    | zero => exact within_reply _ _ _ (Nat.le_refl _)
    | succ m ih =>
      rw [show Task.after C incoming outgoing s u (m + 1) = Task.step C (Task.after C incoming outgoing s u m) from Task.steps_succ C m _]
      exact within_step _ (ih (by omega))
  obtain ⟨buf, w, pkt, s', e1, e2, e3⟩ := hf
  rw [e1] at hw
  have hw : buf.length + w.reader.bytes.length ≤ (evBytes incoming).length := hw
  rw [bytes_some e2] at hw
  simp only [List.length_append] at hw
  omega

/-- C115. With a conforming configuration (C50) the server does not panic, for any reason at all, as long as no line exceeds what a buffer
can hold. -/
theorem c115_no_panic (hM : 16 ≤ M.bits) (hL : IpLaws L) (hT : TextsExist M.cap C) (hS : SendableConfig C)
    (hc : ∀ s u m, Conforming (C.handleMail s u m)) (place : Bytes → Nat) (incoming : List (SrcEv Bytes))
    (hin : ∀ b, .pkt b ∈ incoming → b.length + 2 ≤ M.cap) (outgoing : BSink) (s : S) (u : U) (n : Nat)
    (hl : ∀ m < n, ¬ Full M (Task.after C incoming outgoing s u m)) :
    ∃ pc w, Checked.after M C place incoming outgoing s u n = .ok (pc, w) ∧ ∀ p, pc ≠ .over (.panic p) := by
  refine ⟨_, _, (c115_session hM hL hT place incoming hin outgoing s u n).1 hl, ?_⟩
  intro p hp
  obtain ⟨_, fuel, hf⟩ := ((c101_same C incoming outgoing s u).1 _ _).1 ⟨n, Prod.ext hp rfl⟩
  exact c50_no_panic C hS hc fuel incoming outgoing s u p (by rw [hf])

/-! ### Examples -/

theorem example_texts (hM : 16 ≤ M.bits) : TextsExist M.cap exampleConfig := by
  have hc := (top_cap hM).2
  constructor
  · intro h s
    have : (Spec.says exampleConfig h s).2.length ≤ 100 := by cases s; cases h <;> decide +kernel
    omega
  · intro s u f r f' s' u' h; simp [exampleRequired, Required.toConfig] at h
  · intro s u t m r t' m' s' u' h
    simp only [exampleRequired, Required.toConfig, Prod.mk.injEq] at h
    have := h.1
    split at this
    · split at this
      · simp at this; subst this
        have : (b!"No such host" : Bytes).length ≤ 100 := by decide
        simp only; omega
      · simp at this
    · simp at this
  · intro s u m r m' s' u' h; simp [Required.toConfig] at h
  · intro s u m h r s' u' hd
    simp only [exampleRequired, Required.toConfig, readerAct] at hd
    split at hd
    · rename_i ok _
      cases ok <;> simp at hd
      subst hd
      simp only
      have : (b!"Bad" : Bytes).length ≤ 100 := by decide
      omega
    · simp at hd
    · simp at hd

/-- C115: the session of the examples, in a debug build on a machine of 16 bits, is that of the model at every step. -/
theorem c115_example (place : Bytes → Nat) (n : Nat) :
    Checked.after ⟨16, .checked⟩ exampleConfig place [.pkt exampleInput] ⟨[], []⟩ () () n =
      .ok (Task.after exampleConfig [.pkt exampleInput] ⟨[], []⟩ () () n) :=
  c115_fits (by decide) exampleIp_laws (example_texts (by decide)) place _ (by decide +kernel) _ _ _ n

/-- C115: a line that does not end makes the server panic, on every machine. -/
theorem c115_example_memory (hM : 16 ≤ M.bits) (place : Bytes → Nat) :
    Checked.after M exampleConfig place [.pkt (List.replicate (M.cap - 2) 65), .pkt (List.replicate (M.cap - 2) 65)] ⟨[], []⟩ () () 4 =
      .error .memory := by
  have hc := (top_cap hM).2
  refine (c115_session hM exampleIp_laws (example_texts hM) place _ ?_ _ _ _ 4).2 ⟨3, by omega, ?_⟩
  · intro b hb
    have : b = List.replicate (M.cap - 2) 65 := by simpa using hb
    subst this
    simp; omega
  · generalize hx : List.replicate (M.cap - 2) (65 : UInt8) = x
    have hn : findCrlf x = none := by
      have : ∀ n, findCrlf (List.replicate n (65 : UInt8)) = none := by
        intro n
        induction n with
        | zero => rfl
        | succ n ih =>
          cases n with
          | zero => rfl
          | succ n =>
            rw [List.replicate_succ, List.replicate_succ, findCrlf, if_neg (by decide), ← List.replicate_succ, ih]
            rfl
      rw [← hx]; exact this _
    have hl : x.length = M.cap - 2 := by rw [← hx]; simp
    have hk : byteChunks b!"test Service ready" ReplyLine.maxLen = some [b!"test Service ready"] := by decide +kernel
    have hr : exampleConfig.welcomeBanner () = (ReplyCode.serviceReady, b!"test Service ready") := by decide +kernel
    have hb : ReplyLine.build ReplyCode.serviceReady .yes b!"test Service ready" =
      .ok ⟨ReplyCode.serviceReady, .yes, b!"test Service ready"⟩ := by rfl
    have hw : ¬ (⟨ReplyCode.serviceReady, .yes, b!"test Service ready"⟩ : ReplyLine).byteLen <
      (⟨ReplyCode.serviceReady, .yes, b!"test Service ready"⟩ : ReplyLine).sendTo.length := by decide +kernel
    simp only [Task.after, Task.steps, Task.init, Task.reply, hr, hk, Task.step, List.isEmpty_nil, if_true, hb, Server.writeLine, if_neg hw,
      Server.start, BSink.send, Server.flush, Task.resume, Prep.pollNext, Prep.new, List.nil_append, hn]
    exact ⟨x, _, x, ⟨[], none, 0⟩, rfl, rfl, by omega⟩

end Verif
