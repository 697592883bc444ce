import Verif.Props.Task
import Verif.Props.Await
/-
C109: a write failure only cuts a session short. C74 at every moment of a session, whatever the writer does.
-/
namespace Verif
open Spec Server Verif.Task Ex
variable {L : IpLib} {S U : Type}

/-! ### Two futures, one of them with a writer that never fails -/

/-- One answer, with a failing and with a working writer: the same, or the write failed. -/
theorem Task.step_reliable (C : Config L S U) (x : State L S U) :
    step C (withPlan x []) = withPlan (step C x) [] ∨
    ∃ r left a, x.1 = .send r left a ∧ (step C x).1 = .over .err ∧ (step C x).2.trace = x.2.trace ++ [.writeError] ∧
      (step C x).2.cfg = x.2.cfg ∧ (step C x).2.conn = x.2.conn ∧ (step C x).2.mail = x.2.mail ∧ (step C x).2.reader = x.2.reader ∧
      ((step C x).2.writer.out = x.2.writer.out ∨ (step C x).2.writer.out = (step C (withPlan x [])).2.writer.out) := by
  obtain ⟨pc, w⟩ := x
  cases pc with
  | read buf =>
    left
    simp only [step, withPlan]
    split
    · rfl
    · split
      · split
        · rename_i s' _
          exact dispatch_withPlan (C := C) { w with reader := s', trace := w.trace ++ [.line _] } [] _
        · rfl
      · rfl
    · split
      · rfl
      · rfl
  | send r left a =>
    obtain ⟨rd, ⟨out, plan⟩, s, u, m, tr⟩ := w
    cases left with
    | nil =>
      match plan with
      | [] => left; exact resume_withPlan (C := C) ⟨rd, ⟨out, []⟩, s, u, m, tr ++ [.reply r]⟩ [] a
      | .ok :: p => left; exact resume_withPlan (C := C) ⟨rd, ⟨out, p⟩, s, u, m, tr ++ [.reply r]⟩ [] a
      | .errDropped :: p => right; exact ⟨r, [], a, rfl, rfl, rfl, rfl, rfl, rfl, rfl, .inl rfl⟩
      | .errAccepted :: p => right; exact ⟨r, [], a, rfl, rfl, rfl, rfl, rfl, rfl, rfl, .inl rfl⟩
    | cons t ts =>
      cases hb : ReplyLine.build r.1 (if ts.isEmpty then .yes else .no) t with
      | error e => left; simp only [step, withPlan, hb]
      | ok l =>
        have h0 : ¬ l.byteLen < l.sendTo.length := by rw [c19_byte_len]; omega
        match plan with
        | [] => left; simp only [step, hb, writeLine, if_neg h0, BSink.send, withPlan, if_true]
        | .ok :: p => left; simp only [step, hb, writeLine, if_neg h0, BSink.send, withPlan, if_true]
        | .errDropped :: p =>
          right
          refine ⟨r, t :: ts, a, rfl, ?_⟩
          simp only [step, hb, writeLine, if_neg h0, BSink.send, withPlan, if_true, Bool.false_eq_true, if_false]
          exact ⟨trivial, trivial, trivial, trivial, trivial, trivial, .inl trivial⟩
        | .errAccepted :: p =>
          right
          refine ⟨r, t :: ts, a, rfl, ?_⟩
          simp only [step, hb, writeLine, if_neg h0, BSink.send, withPlan, if_true, Bool.false_eq_true, if_false]
          exact ⟨trivial, trivial, trivial, trivial, trivial, trivial, .inr trivial⟩
  | newMail f => left; rfl
  | filterFrom f => left; simp only [step, withPlan]; split <;> rfl
  | filterTo t m => left; simp only [step, withPlan]; split <;> rfl
  | filterData m => left; simp only [step, withPlan]; split <;> rfl
  | handle act hi d =>
    left
    simp only [step, withPlan]
    split
    · rfl
    · split <;> rfl
    · split <;> rfl
  | over r => left; rfl

/-- Two sessions that differ in their writers only, the second one never failing, after `n` answers each. -/
theorem Task.steps_reliable (C : Config L S U) (x : State L S U) (n : Nat) :
    steps C n (withPlan x []) = withPlan (steps C n x) [] ∨
    ∃ k r left a, k < n ∧ (steps C k (withPlan x [])).1 = .send r left a ∧ (steps C n x).1 = .over .err ∧
      (steps C n x).2.trace = (steps C k (withPlan x [])).2.trace ++ [.writeError] ∧
      (steps C n x).2.cfg = (steps C k (withPlan x [])).2.cfg ∧ (steps C n x).2.conn = (steps C k (withPlan x [])).2.conn ∧
      (steps C n x).2.mail = (steps C k (withPlan x [])).2.mail ∧ (steps C n x).2.reader = (steps C k (withPlan x [])).2.reader ∧
      ((steps C n x).2.writer.out = (steps C k (withPlan x [])).2.writer.out ∨
       (steps C n x).2.writer.out = (steps C (k + 1) (withPlan x [])).2.writer.out) := by
  induction n with
  | zero => exact .inl rfl
  | succ n ih =>
    rcases ih with h | ⟨k, r, left, a, hk, h1, h2, h3⟩
    · rw [steps_succ, steps_succ, h]
      rcases step_reliable C (steps C n x) with h' | ⟨r, left, a, e1, e2, e3, e4, e5, e6, e7, e8⟩
      · exact .inl h'
      · refine .inr ⟨n, r, left, a, Nat.lt_succ_self _, ?_⟩
        rw [steps_succ, h]
        exact ⟨e1, e2, e3, e4, e5, e6, e7, e8⟩
    · right
      refine ⟨k, r, left, a, Nat.lt_succ_of_lt hk, h1, ?_⟩
      have e : steps C (n + 1) x = steps C n x := by
        rw [steps_succ]
        rcases hx : steps C n x with ⟨pc, w⟩
        rw [hx] at h2
        cases h2
        rfl
      rw [e]
      exact ⟨h2, h3⟩

/-- C109. A writer that does not fail is not noticed: unless the session ends with a write error, it does what it does with a writer
that never fails, in result, events, output and state. -/
theorem c109_writer_unnoticed (C : Config L S U) (fuel : Nat) (incoming : List (SrcEv Bytes)) (outgoing : BSink) (s : S) (u : U)
    (r : Res Unit) (w : World L S U) (h : interact C fuel incoming outgoing s u = (r, w)) (h1 : r ≠ .err) (h2 : r ≠ .running) :
    ∃ fuel', interact C fuel' incoming ⟨outgoing.out, []⟩ s u = (r, { w with writer := ⟨w.writer.out, []⟩ }) := by
  obtain ⟨n, hn⟩ := ((c101_same C incoming outgoing s u).1 r w).2 ⟨h2, fuel, h⟩
  have key := steps_reliable C (init C incoming outgoing s u) n
  unfold after at hn
  rw [hn] at key
  rcases key with e | ⟨_, _, _, _, _, _, e, _⟩
  · obtain ⟨_, f, hf⟩ := ((c101_same C incoming ⟨outgoing.out, []⟩ s u).1 r { w with writer := ⟨w.writer.out, []⟩ }).1 ⟨n, e⟩
    exact ⟨f, hf⟩
  · cases e
    exact absurd rfl h1

/-- C109. A write failure only cuts the session short. Compare it with the same session over a writer that never fails: everything
that happened before the failure happens there too, in the same order; the next thing to happen there is a reply, namely the one
that was being written, unless its text cannot be sent; and what was written is the beginning of what is written there. The failing
session leaves the configuration, the connection data and the unread input as the other session has them when it writes this
reply. -/
theorem c109_only_cuts (C : Config L S U) (f1 f2 : Nat) (incoming : List (SrcEv Bytes)) (outgoing : BSink) (s : S) (u : U)
    (w1 w2 : World L S U) (r2 : Res Unit) (h1 : interact C f1 incoming outgoing s u = (.err, w1))
    (h2 : interact C f2 incoming ⟨outgoing.out, []⟩ s u = (r2, w2)) (hr : r2 ≠ .running) :
    ∃ pre, w1.trace = pre ++ [.writeError] ∧ w1.writer.out <+: w2.writer.out ∧
      ((w2.trace = pre ∧ r2 = .panic .buildUnwrap) ∨ ∃ rp, pre ++ [.reply rp] <+: w2.trace) ∧
      ∃ k rp left a, (after C incoming ⟨outgoing.out, []⟩ s u k).1 = .send rp left a ∧
        (after C incoming ⟨outgoing.out, []⟩ s u k).2.trace = pre ∧
        w1.cfg = (after C incoming ⟨outgoing.out, []⟩ s u k).2.cfg ∧ w1.conn = (after C incoming ⟨outgoing.out, []⟩ s u k).2.conn ∧
        w1.mail = (after C incoming ⟨outgoing.out, []⟩ s u k).2.mail ∧
        w1.reader = (after C incoming ⟨outgoing.out, []⟩ s u k).2.reader := by
  obtain ⟨n, hn⟩ := ((c101_same C incoming outgoing s u).1 _ w1).2 ⟨by simp, f1, h1⟩
  obtain ⟨m, hm⟩ := ((c101_same C incoming ⟨outgoing.out, []⟩ s u).1 r2 w2).2 ⟨hr, f2, h2⟩
  have key := steps_reliable C (init C incoming outgoing s u) n
  have hrel : withPlan (init C incoming outgoing s u) [] = init C incoming ⟨outgoing.out, []⟩ s u := rfl
  unfold after at hn hm ⊢
  rw [hn, hrel] at key
  rcases key with e | ⟨k, rp, left, a, _, e1, _, e3, e4, e5, e6, e7, e8⟩
  · exfalso
    obtain ⟨_, f, hf⟩ := ((c101_same C incoming ⟨outgoing.out, []⟩ s u).1 .err { w1 with writer := ⟨w1.writer.out, []⟩ }).1 ⟨n, e⟩
    obtain ⟨oks, o, h, _⟩ := (c49_no_write_after C f incoming ⟨outgoing.out, []⟩ s u _ _ hf).1 rfl
    simp at h
  have stays : ∀ j, m ≤ j → steps C j (init C incoming ⟨outgoing.out, []⟩ s u) = (.over r2, w2) := by
    intro j hj
    obtain ⟨i, rfl⟩ := Nat.exists_eq_add_of_le hj
    rw [steps_add, hm, steps_over]
  have hkm : k < m := by
    rcases Nat.lt_or_ge k m with h | h
    · exact h
    · rw [stays k h] at e1; cases e1
  have grows : ∀ j, (steps C j (init C incoming ⟨outgoing.out, []⟩ s u)).2.trace <+: w2.trace ∧
      (steps C j (init C incoming ⟨outgoing.out, []⟩ s u)).2.writer.out <+: w2.writer.out := by
    intro j
    rcases Nat.le_total j m with h | h
    · obtain ⟨i, rfl⟩ := Nat.exists_eq_add_of_le h
      have := grows_steps (C := C) i (steps C j (init C incoming ⟨outgoing.out, []⟩ s u))
      rw [← steps_add, hm] at this
      exact this
    · rw [stays j h]; exact ⟨List.prefix_refl _, List.prefix_refl _⟩
  refine ⟨_, e3, ?_, ?_, k, rp, left, a, e1, rfl, e4, e5, e6, e7⟩
  · rcases e8 with e | e <;> rw [e]
    · exact (grows k).2
    · exact (grows (k + 1)).2
  · rcases hx : steps C k (init C incoming ⟨outgoing.out, []⟩ s u) with ⟨pc, w⟩
    rw [hx] at e1
    dsimp only at e1
    subst e1
    have hp : w.writer.plan = [] := by
      obtain ⟨q, hq, _⟩ := uses_steps (C := C) k (init C incoming ⟨outgoing.out, []⟩ s u)
      rw [hx] at hq
      exact (List.append_eq_nil_iff.1 hq.symm).2
    cases hl : replyLines rp.1 left with
    | some ls =>
      obtain ⟨j, hj⟩ := Task.send_on (C := C) rp a left ls hl w hp
      rw [← hx, ← steps_add] at hj
      exact .inr ⟨rp, hj.trans (grows _).1⟩
    | none =>
      obtain ⟨j, wr, hj⟩ := Task.send_panics (C := C) rp a left hl w hp
      rw [← hx, ← steps_add] at hj
      left
      have h3 : steps C (k + j + m) (init C incoming ⟨outgoing.out, []⟩ s u) = (.over r2, w2) := stays _ (Nat.le_add_left _ _)
      rw [steps_add, hj, steps_over] at h3
      cases h3
      exact ⟨rfl, rfl⟩

/-- C109, for other packets. When mail handlers decide by the whole text, the session to compare with may get the same bytes in
any other packets. -/
theorem c109_any_packets (C : Config L S U) (V : Verdict L S U) (hV : ∀ s u m, WholeMessage (C.handleMail s u m) (V s u m))
    (f1 f2 : Nat) (in1 in2 : List (SrcEv Bytes)) (outgoing : BSink) (s : S) (u : U) (w1 w2 : World L S U) (r2 : Res Unit)
    (hin : evBytes in1 = evBytes in2) (h1 : interact C f1 in1 outgoing s u = (.err, w1))
    (h2 : interact C f2 in2 ⟨outgoing.out, []⟩ s u = (r2, w2)) (hr : r2 ≠ .running) :
    ∃ pre, w1.trace = pre ++ [.writeError] ∧ w1.writer.out <+: w2.writer.out ∧
      ((w2.trace = pre ∧ r2 = .panic .buildUnwrap) ∨ ∃ rp, pre ++ [.reply rp] <+: w2.trace) := by
  obtain ⟨n0, ⟨r, w⟩, hr1, h3⟩ := c53_terminates C (fun s u m => (hV s u m).conforming.returns') in1 ⟨outgoing.out, []⟩ s u
  obtain ⟨rfl, e1, e2, _⟩ := c42_packets C V hV n0 f2 in1 in2 ⟨outgoing.out, []⟩ s u hin r r2 w w2 (h3 n0 (Nat.le_refl _)) h2 hr1 hr
  obtain ⟨pre, k1, k2, k3, _⟩ := c109_only_cuts C f1 n0 in1 outgoing s u w1 w r h1 (h3 n0 (Nat.le_refl _)) hr1
  exact ⟨pre, k1, e2 ▸ k2, e1 ▸ k3⟩

/-! ### C74, whatever the writer does -/

/-- C74. At every `.await` of a session, and so also when a write has failed or the session is dropped: the mailbox holds what it
held before and one message for each one accepted so far, and each of them came in after a DATA line, has a sender and recipients
the filters let pass, and its text, decoded, does not say "World". -/
theorem c74_mailbox_any_moment (incoming : List (SrcEv Bytes)) (outgoing : BSink) (box : MailBox L) (n : Nat) :
    ∃ new, (after (testConfig L) incoming outgoing box () n).2.cfg = box ++ new ∧
      new.length = acceptedMessages (after (testConfig L) incoming outgoing box () n).2.trace ∧
      ∀ x ∈ new, Storable (evBytes incoming) x := by
  have h := c103_every_await (testConfig L) (testVerdict L) test_whole incoming outgoing box () n
  generalize (after (testConfig L) incoming outgoing box () n).2.trace = tr at h ⊢
  generalize (after (testConfig L) incoming outgoing box () n).2.cfg = s' at h ⊢
  generalize (after (testConfig L) incoming outgoing box () n).2.conn = u' at h
  have none_ : Passed (none : Option (MailMeta L)) := by intro x hx; cases hx
  cases h with
  | greeting h => exact ⟨[], by simp, by rcases h with rfl | rfl <;> rfl, by simp⟩
  | between h =>
    obtain ⟨_, _, new, e1, e2, e3⟩ := dialogue_box (raw := evBytes incoming) h [] rfl none_
    exact ⟨new, e1, e2, e3⟩
  | @within evs st l b cur s' u' e h hl hu he =>
    obtain ⟨hp, ⟨before, hb⟩, new, e1, e2, e3⟩ := dialogue_box (raw := evBytes incoming) h [] rfl none_
    have cut : acceptedMessages (.reply ((testConfig L).welcomeBanner box) :: evs ++ .line (l ++ crlf) :: cur ++ e) =
        acceptedMessages evs + acceptedMessages cur := by
      have h1 : acceptedMessages e = 0 := by rcases he with rfl | rfl <;> rfl
      have h2 : acceptedMessages (.line (l ++ crlf) :: cur) = acceptedMessages cur := rfl
      have h3 : acceptedMessages (.reply ((testConfig L).welcomeBanner box) :: evs) = acceptedMessages evs := rfl
      rw [acceptedMessages_append, acceptedMessages_append, h1, h2, h3, Nat.add_zero]
    rw [cut]
    have quiet : s' = st.cfg → acceptedMessages cur = 0 → ∃ new, s' = box ++ new ∧
        new.length = acceptedMessages evs + acceptedMessages cur ∧ ∀ x ∈ new, Storable (evBytes incoming) x :=
      fun h1 h2 => ⟨new, h1.trans e1, by rw [h2, e2]; rfl, e3⟩
    generalize hc : (commandOn (l ++ crlf) : Option (Command L)) = c at hu
    cases hu with
    | read => exact quiet rfl rfl
    | newMail => exact quiet rfl rfl
    | data _ hf => cases hf; exact quiet rfl rfl
    | handling _ hf => cases hf; exact quiet rfl rfl
    | answering hx =>
      obtain ⟨_, _, new', f1, f2, f3⟩ := exchange_box (raw := evBytes incoming) (before := before) (l := l ++ crlf)
        (by rw [hc]; exact hx) (by rw [hb]; simp) hp
      refine ⟨new ++ new', by rw [f1, e1, List.append_assoc], ?_, ?_⟩
      · rw [acceptedMessages_append] at f2
        rw [List.length_append, e2, f2]
        rfl
      · intro x hx
        rcases List.mem_append.1 hx with hx | hx
        · exact e3 x hx
        · exact f3 x hx

/-- C74. In particular after a session that ended with a write error, as `c74_mailbox` says it of one that ended normally. -/
theorem c74_mailbox_any_end (fuel : Nat) (incoming : List (SrcEv Bytes)) (outgoing : BSink) (box : MailBox L) :
    ∃ new, (interact (testConfig L) fuel incoming outgoing box ()).2.cfg = box ++ new ∧
      new.length = acceptedMessages (interact (testConfig L) fuel incoming outgoing box ()).2.trace ∧
      ∀ x ∈ new, Storable (evBytes incoming) x := by
  obtain ⟨n, hn⟩ := (c101_same (testConfig L) incoming outgoing box ()).2.2 fuel
  rw [← hn]
  exact c74_mailbox_any_moment incoming outgoing box n

/-! ### A session -/

/-- C109: in the session of `c103_example`, the write of the last reply fails (the flush after it, or the write itself): the mail is
in the mailbox all the same, and the record is that of the other session without the last reply. -/
theorem c109_example : ∃ w1 w2, interact (testConfig exampleIp) 40 [.pkt oneMail] ⟨[], List.replicate 8 .ok ++ [.errDropped]⟩ [] () = (.err, w1) ∧
    interact (testConfig exampleIp) 40 [.pkt oneMail] ⟨[], []⟩ [] () = (.ok (), w2) ∧
    w1.cfg.length = 1 ∧ w1.trace.length = w2.trace.length ∧ w1.writer.out.length + 1 = w2.writer.out.length := by
  have e1 : (match after (testConfig exampleIp) [.pkt oneMail] ⟨[], List.replicate 8 .ok ++ [.errDropped]⟩ [] () 40 with
      | (.over .err, w) => w.cfg.length == 1 && w.trace.length == 14 && w.writer.out.length == 4
      | _ => false) = true := by decide +kernel
  have e2 : (match after (testConfig exampleIp) [.pkt oneMail] ⟨[], []⟩ [] () 40 with
      | (.over (.ok ()), w) => w.trace.length == 14 && w.writer.out.length == 5
      | _ => false) = true := by decide +kernel
  rcases h1 : after (testConfig exampleIp) [.pkt oneMail] ⟨[], List.replicate 8 .ok ++ [.errDropped]⟩ [] () 40 with ⟨pc1, w1⟩
  rcases h2 : after (testConfig exampleIp) [.pkt oneMail] ⟨[], []⟩ [] () 40 with ⟨pc2, w2⟩
  rw [h1] at e1
  rw [h2] at e2
  split at e1
  · rename_i heq1
    split at e2
    · rename_i heq2
      cases heq1
      cases heq2
      simp only [Bool.and_eq_true, beq_iff_eq] at e1 e2
      exact ⟨w1, w2, (c101_same _ _ _ _ _).2.1 40 _ _ h1 40 (Nat.le_refl _), (c101_same _ _ _ _ _).2.1 40 _ _ h2 40 (Nat.le_refl _),
        e1.1.1, by rw [e1.1.2, e2.1], by rw [e1.2, e2.2]⟩
    · cases e2
  · cases e1

end Verif
