import Verif.Proofs.Task
import Verif.Props.Neighbours
import Verif.Props.SessionExamples
/-
C101: what holds at every `.await` of a session, where its future may be dropped.
-/
namespace Verif
open Spec Server Verif.Task Ex
variable {L : IpLib} {S U : Type}

/-- C101. The state machine and `interact` end alike: the future is ready (or panics) after some number of answers if and only
if the session ends, with the same result and the same state; and every state the session is seen in is one of the future. -/
theorem c101_same (C : Config L S U) (incoming : List (SrcEv Bytes)) (outgoing : BSink) (s : S) (u : U) :
    (∀ r w, (∃ n, after C incoming outgoing s u n = (.over r, w)) ↔
      r ≠ .running ∧ ∃ fuel, interact C fuel incoming outgoing s u = (r, w)) ∧
    (∀ n r w, after C incoming outgoing s u n = (.over r, w) → ∀ fuel, n ≤ fuel → interact C fuel incoming outgoing s u = (r, w)) ∧
    (∀ fuel, ∃ n, (after C incoming outgoing s u n).2 = (interact C fuel incoming outgoing s u).2) := by
  have key : ∀ n r w, after C incoming outgoing s u n = (.over r, w) → ∀ fuel, n ≤ fuel →
      interact C fuel incoming outgoing s u = (r, w) ∧ r ≠ .running := by
    intro n r w h fuel hf
    have he := ends_interact (C := C) fuel incoming outgoing s u
    rcases hi : interact C fuel incoming outgoing s u with ⟨r', w'⟩
    rw [hi] at he
    cases r' with
    | running =>
      obtain ⟨k, pc, h1, h2, h3⟩ := he
      obtain ⟨j, rfl⟩ := Nat.exists_eq_add_of_le (Nat.le_trans hf h1)
      rw [steps_add, show steps C n _ = _ from h, steps_over] at h2
      cases h2
      exact absurd rfl (h3 r)
    | ok a => obtain ⟨k, hk⟩ := he; obtain ⟨rfl, rfl⟩ := steps_over_unique h hk; exact ⟨rfl, by simp⟩
    | err => obtain ⟨k, hk⟩ := he; obtain ⟨rfl, rfl⟩ := steps_over_unique h hk; exact ⟨rfl, by simp⟩
    | panic p => obtain ⟨k, hk⟩ := he; obtain ⟨rfl, rfl⟩ := steps_over_unique h hk; exact ⟨rfl, by simp⟩
  refine ⟨?_, fun n r w h fuel hf => (key n r w h fuel hf).1, ?_⟩
  · intro r w
    constructor
    · rintro ⟨n, h⟩
      exact ⟨(key n r w h n (Nat.le_refl _)).2, n, (key n r w h n (Nat.le_refl _)).1⟩
    · rintro ⟨hr, fuel, h⟩
      have he := ends_interact (C := C) fuel incoming outgoing s u
      rw [h] at he
      cases r with
      | running => exact absurd rfl hr
      | ok a => exact he
      | err => exact he
      | panic p => exact he
  · intro fuel
    have he := ends_interact (C := C) fuel incoming outgoing s u
    rcases hi : interact C fuel incoming outgoing s u with ⟨r, w⟩
    rw [hi] at he
    cases r with
    | running => obtain ⟨k, pc, _, h2, _⟩ := he; exact ⟨k, by unfold after; rw [h2]⟩
    | ok a => obtain ⟨k, h2⟩ := he; exact ⟨k, by unfold after; rw [h2]⟩
    | err => obtain ⟨k, h2⟩ := he; exact ⟨k, by unfold after; rw [h2]⟩
    | panic p => obtain ⟨k, h2⟩ := he; exact ⟨k, by unfold after; rw [h2]⟩

/-- C101. Wherever the future is dropped, what has happened and what was written until then are beginnings of what the
session that is not dropped does and writes. -/
theorem c101_cut (C : Config L S U) (incoming : List (SrcEv Bytes)) (outgoing : BSink) (s : S) (u : U) (n : Nat) :
    (after C incoming outgoing s u n).2.trace <+: (interact C n incoming outgoing s u).2.trace ∧
    (after C incoming outgoing s u n).2.writer.out <+: (interact C n incoming outgoing s u).2.writer.out := by
  have he := ends_interact (C := C) n incoming outgoing s u
  have later : ∀ k, Grows (steps C k (after C incoming outgoing s u n)) (steps C n (steps C k (init C incoming outgoing s u))) := by
    intro k
    unfold after
    rw [← steps_add, ← steps_add, Nat.add_comm]
    exact .refl _
  have main : ∀ k pc w, steps C k (init C incoming outgoing s u) = (pc, w) → (n ≤ k ∨ ∃ r, pc = .over r) →
      Grows (after C incoming outgoing s u n) (pc, w) := by
    intro k pc w hk h
    rcases h with h | ⟨r, rfl⟩
    · obtain ⟨j, rfl⟩ := Nat.exists_eq_add_of_le h
      rw [← hk, steps_add]
      exact grows_steps j _
    · have := later k
      rw [hk, steps_over] at this
      exact (grows_steps k _).trans this
  rcases hi : interact C n incoming outgoing s u with ⟨r, w⟩
  rw [hi] at he
  cases r with
  | running => obtain ⟨k, pc, h1, h2, _⟩ := he; exact main k pc w h2 (.inl h1)
  | ok a => obtain ⟨k, h2⟩ := he; exact main k _ w h2 (.inr ⟨_, rfl⟩)
  | err => obtain ⟨k, h2⟩ := he; exact main k _ w h2 (.inr ⟨_, rfl⟩)
  | panic p => obtain ⟨k, h2⟩ := he; exact main k _ w h2 (.inr ⟨_, rfl⟩)

theorem outputOf_flat (evs : List (Ev L)) : outputOf evs = (repliesOf evs).flatMap wire := by
  induction evs with
  | nil => rfl
  | cons e evs ih => cases e <;> simp_all [outputOf, repliesOf]

theorem Task.send_on {C : Config L S U} (r : Reply) (a : After L) (left : List Bytes) (ls : List ReplyLine)
    (h : replyLines r.1 left = some ls) (w : World L S U) (hw : w.writer.plan = []) :
    ∃ k, w.trace ++ [.reply r] <+: (steps C k (.send r left a, w)).2.trace := by
  induction left generalizing ls w with
  | nil =>
    obtain ⟨rd, ⟨out, plan⟩, s, u, m, tr⟩ := w
    cases hw
    exact ⟨1, (grows_resume (C := C) (⟨rd, ⟨out, []⟩, s, u, m, tr ++ [.reply r]⟩ : World L S U) a).1⟩
  | cons t ts ih =>
    rw [replyLines_cons] at h
    cases hb : ReplyLine.build r.1 (if ts.isEmpty then .yes else .no) t with
    | error e => rw [hb] at h; exact absurd h (by simp [Except.toOption])
    | ok l =>
      rw [hb] at h
      simp only [Except.toOption, Option.map_eq_some_iff] at h
      obtain ⟨ls', h, _⟩ := h
      have h0 : ¬ l.byteLen < l.sendTo.length := by rw [c19_byte_len]; omega
      obtain ⟨k, hk⟩ := ih ls' h { w with writer := ⟨w.writer.out ++ [l.sendTo], []⟩ } rfl
      refine ⟨k + 1, ?_⟩
      simp only [steps, step, hb, writeLine, if_neg h0, BSink.send, hw, if_true]
      exact hk

/-- A reply with a text that cannot be sent, and a writer that never fails. -/
theorem Task.send_panics {C : Config L S U} (r : Reply) (a : After L) (left : List Bytes) (h : replyLines r.1 left = none)
    (w : World L S U) (hw : w.writer.plan = []) :
    ∃ k wr, steps C k (.send r left a, w) = (.over (.panic .buildUnwrap), { w with writer := wr }) := by
  induction left generalizing w with
  | nil => simp [replyLines] at h
  | cons t ts ih =>
    rw [replyLines_cons] at h
    cases hb : ReplyLine.build r.1 (if ts.isEmpty then .yes else .no) t with
    | error e => exact ⟨1, w.writer, by simp only [steps, step, hb]⟩
    | ok l =>
      rw [hb] at h
      simp only [Except.toOption, Option.map_eq_none_iff] at h
      have h0 : ¬ l.byteLen < l.sendTo.length := by rw [c19_byte_len]; omega
      obtain ⟨k, wr, hk⟩ := ih h { w with writer := ⟨w.writer.out ++ [l.sendTo], []⟩ } rfl
      refine ⟨k + 1, wr, ?_⟩
      simp only [steps, step, hb, writeLine, if_neg h0, BSink.send, hw, if_true]
      exact hk

/-- C101. At every point of a session that has not ended, the wire holds the lines of the replies that are complete, and possibly
the first lines of one more. If the writer fails no more, that reply is the next thing to happen, unless a text of it cannot be sent:
then nothing more happens and the session panics. -/
theorem c101_wire (C : Config L S U) (incoming : List (SrcEv Bytes)) (outgoing : BSink) (s : S) (u : U) (n : Nat)
    (hn : ∀ r, (after C incoming outgoing s u n).1 ≠ .over r) :
    ∃ part, (after C incoming outgoing s u n).2.writer.out =
        outgoing.out ++ (repliesOf (after C incoming outgoing s u n).2.trace).flatMap wire ++ part ∧
      (part ≠ [] → ∃ plan fuel, plan <+: outgoing.plan ∧
        ((∃ r, part <+: wire r ∧ (after C incoming outgoing s u n).2.trace ++ [.reply r] <+:
            (interact C fuel incoming ⟨outgoing.out, plan⟩ s u).2.trace) ∨
          ((interact C fuel incoming ⟨outgoing.out, plan⟩ s u).1 = .panic .buildUnwrap ∧
            (interact C fuel incoming ⟨outgoing.out, plan⟩ s u).2.trace = (after C incoming outgoing s u n).2.trace))) := by
  have hi := inv_after (C := C) incoming outgoing s u n
  rcases hx : after C incoming outgoing s u n with ⟨pc, w⟩
  rw [hx] at hi hn
  have plain : Settled outgoing.out w → ∃ part, w.writer.out = outgoing.out ++ (repliesOf w.trace).flatMap wire ++ part ∧
      (part ≠ [] → ∃ plan fuel, plan <+: outgoing.plan ∧
        ((∃ r, part <+: wire r ∧ w.trace ++ [.reply r] <+: (interact C fuel incoming ⟨outgoing.out, plan⟩ s u).2.trace) ∨
          ((interact C fuel incoming ⟨outgoing.out, plan⟩ s u).1 = .panic .buildUnwrap ∧
            (interact C fuel incoming ⟨outgoing.out, plan⟩ s u).2.trace = w.trace))) := by
    intro h
    exact ⟨[], by rw [← outputOf_flat, List.append_nil]; exact h, fun h => absurd rfl h⟩
  cases pc with
  | over r => exact absurd rfl (hn r)
  | send r left a =>
    obtain ⟨_, part, h1, h2, h3⟩ := hi
    refine ⟨part, by rw [← outputOf_flat]; exact h1, fun _ => ?_⟩
    obtain ⟨q, hq1, hq2⟩ := uses_steps (C := C) n (init C incoming outgoing s u)
    have e := hq2 [] (List.nil_prefix)
    rw [List.append_nil, show steps C n (init C incoming outgoing s u) = _ from hx] at e
    have e' : steps C n (init C incoming ⟨outgoing.out, q⟩ s u) = _ := e
    refine ⟨q, ?_⟩
    cases hl : replyLines r.1 left with
    | none =>
      obtain ⟨k, wr, hk⟩ := send_panics (C := C) r a left hl { w with writer := { w.writer with plan := [] } } rfl
      have h4 : after C incoming ⟨outgoing.out, q⟩ s u (n + k) = (.over (.panic .buildUnwrap), { w with writer := wr }) := by
        unfold after
        rw [steps_add, e']
        exact hk
      obtain ⟨_, f, hf⟩ := ((c101_same C incoming ⟨outgoing.out, q⟩ s u).1 _ _).1 ⟨_, h4⟩
      exact ⟨f, ⟨_, hq1.symm⟩, .inr (by rw [hf]; exact ⟨rfl, rfl⟩)⟩
    | some ls =>
      obtain ⟨k, hk⟩ := send_on (C := C) r a left ls hl { w with writer := { w.writer with plan := [] } } rfl
      have h4 := (c101_cut C incoming ⟨outgoing.out, q⟩ s u (n + k)).1
      unfold after at h4
      rw [steps_add, e'] at h4
      exact ⟨n + k, ⟨_, hq1.symm⟩, .inl ⟨r, ⟨_, h3 ls hl⟩, hk.trans h4⟩⟩
  | read b => exact plain hi.1
  | newMail f => exact plain hi.1
  | filterFrom f => exact plain hi.1
  | filterTo t m => exact plain hi.1
  | filterData m => exact plain hi.1
  | handle act h d => exact plain hi.1

/-- C101. Nothing is written about a message before its handler has returned: as soon as anything is on the wire beyond the
replies given before `handle_mail` was called, the handler has returned, and the record holds its decision. -/
theorem c101_no_early_answer (C : Config L S U) (incoming : List (SrcEv Bytes)) (outgoing : BSink) (s : S) (u : U) (n : Nat)
    (pre post : List (Ev L)) (m : MailMeta L) (ht : (after C incoming outgoing s u n).2.trace = pre ++ .handleMail m :: post)
    (ho : (after C incoming outgoing s u n).2.writer.out ≠ outgoing.out ++ (repliesOf pre).flatMap wire) :
    ∃ d post', post = .handled d :: post' := by
  cases post with
  | nil =>
    exfalso
    apply ho
    have hi := inv_after (C := C) incoming outgoing s u n
    rcases hx : after C incoming outgoing s u n with ⟨pc, w⟩
    rw [hx] at hi ht
    have hh : Task.Handling w := ⟨pre, m, ht⟩
    have hs : Settled outgoing.out w := by
      cases pc with
      | over r => exact hi hh
      | send r left a => exact absurd hh hi.1
      | read b => exact hi.1
      | newMail f => exact hi.1
      | filterFrom f => exact hi.1
      | filterTo t m => exact hi.1
      | filterData m => exact hi.1
      | handle act h d => exact hi.1
    simp only at ht
    unfold Settled at hs
    rw [ht, outputOf_append, outputOf_flat pre] at hs
    simpa [outputOf] using hs
  | cons e post =>
    obtain ⟨rest, hr⟩ := (c101_cut C incoming outgoing s u n).1
    rw [ht] at hr
    have := c71_neighbours C n incoming outgoing s u pre (post ++ rest) (.handleMail m) e (by rw [← hr]; simp)
    rcases this with h | ⟨_, _, _, r, h⟩
    · cases h
      exact ⟨_, _, rfl⟩
    · cases h

/-- C101. The connection is read only when everything due is written: an answer that takes something from the connection comes
when the last thing that happened is a complete reply or the call of a mail handler, and all replies are on the wire. -/
theorem c101_reads_when_settled (C : Config L S U) (incoming : List (SrcEv Bytes)) (outgoing : BSink) (s : S) (u : U) (n : Nat)
    (h : input (after C incoming outgoing s u (n + 1)) ≠ input (after C incoming outgoing s u n)) :
    (after C incoming outgoing s u n).2.writer.out =
      outgoing.out ++ (repliesOf (after C incoming outgoing s u n).2.trace).flatMap wire ∧
    ∃ evs e, (after C incoming outgoing s u n).2.trace = evs ++ [e] ∧ ((∃ r, e = .reply r) ∨ ∃ m, e = .handleMail m) := by
  have hi := inv_after (C := C) incoming outgoing s u n
  have hst : after C incoming outgoing s u (n + 1) = step C (after C incoming outgoing s u n) := steps_succ C n _
  rw [hst] at h
  rcases hx : after C incoming outgoing s u n with ⟨pc, w⟩
  rw [hx] at hi h
  have fin : Settled outgoing.out w → w.writer.out = outgoing.out ++ (repliesOf w.trace).flatMap wire := by
    rw [← outputOf_flat]; exact id
  have replyIn : ∀ (r : Reply) (a : After L) (w : World L S U), input (Task.reply r a, w) = w.reader := by
    intro r a w
    obtain ⟨cs, _, hr⟩ := reply_cases (S := S) (U := U) r a
    rw [hr]; rfl
  cases pc with
  | read b =>
    obtain ⟨h1, evs, r, h2⟩ := hi
    exact ⟨fin h1, evs, _, h2, .inl ⟨r, rfl⟩⟩
  | handle act hh d =>
    obtain ⟨h1, evs, m, h2⟩ := hi
    exact ⟨fin h1, evs, _, h2, .inr ⟨m, rfl⟩⟩
  | send r left a =>
    exfalso
    apply h
    cases left with
    | nil =>
      simp only [step]
      rcases flush_cases w with ⟨wr, hf, ho⟩ | ⟨wr, hf, ho⟩ <;> simp only [hf]
      · cases a <;> rfl
      · rfl
    | cons t ts =>
      simp only [step]
      cases ReplyLine.build r.1 (if ts.isEmpty then .yes else .no) t with
      | error e => rfl
      | ok l =>
        simp only
        rcases writeLine_cases l w with ⟨wr, hf, ho⟩ | ⟨wr, hf, ho⟩ <;> simp only [hf] <;> rfl
  | newMail f => exact absurd rfl h
  | filterFrom f =>
    exfalso
    apply h
    simp only [step]
    split <;> rw [replyIn] <;> rfl
  | filterTo t m =>
    exfalso
    apply h
    simp only [step]
    split <;> rw [replyIn] <;> rfl
  | filterData m =>
    exfalso
    apply h
    simp only [step]
    split <;> rw [replyIn] <;> rfl
  | over r => exact absurd rfl h

/-! ### A session -/

/-- C101: after one answer of the writer the greeting is on the wire, but not flushed, so not yet complete; after two it is. The
hypotheses of `c101_wire` are met, with something written of a reply that is not complete. -/
example : (∀ r, (after exampleConfig [.pkt exampleInput] ⟨[], []⟩ () () 1).1 ≠ .over r) ∧
    (after exampleConfig [.pkt exampleInput] ⟨[], []⟩ () () 1).2.writer.out = [b!"220 test Service ready\r\n"] ∧
    (after exampleConfig [.pkt exampleInput] ⟨[], []⟩ () () 1).2.trace = [] ∧
    (after exampleConfig [.pkt exampleInput] ⟨[], []⟩ () () 2).2.writer.out = [b!"220 test Service ready\r\n"] ∧
    repliesOf (after exampleConfig [.pkt exampleInput] ⟨[], []⟩ () () 2).2.trace = [(⟨220⟩, b!"test Service ready")] := by
  refine ⟨fun r h => ?_, ?_, ?_, ?_, ?_⟩
  · cases h
  · decide +kernel
  · exact List.eq_nil_of_length_eq_zero (by decide +kernel)
  · decide +kernel
  · decide +kernel

/-- C101: the third answer is the first packet, and the connection is read then. -/
example : input (after exampleConfig [.pkt exampleInput] ⟨[], []⟩ () () 3) ≠
    input (after exampleConfig [.pkt exampleInput] ⟨[], []⟩ () () 2) := by decide +kernel

/-- C101: the whole session is one of the future's, and a message is answered in it. -/
example : ∃ n w, after exampleConfig [.pkt exampleInput] ⟨[], []⟩ () () n = (.over (.ok ()), w) ∧
    w.trace = (beforeFrom ++ .newMail :: .filterFrom (some alice) (some alice) .accept :: sinceFrom) ++
      .handleMail ⟨some alice, [bob]⟩ :: afterHandle ∧
    w.writer.out ≠ (repliesOf (beforeFrom ++ .newMail :: .filterFrom (some alice) (some alice) .accept :: sinceFrom)).flatMap wire := by
  obtain ⟨fuel, w, h, ht⟩ := example_session [.pkt exampleInput] (by simp [evBytes])
  obtain ⟨n, hn⟩ := ((c101_same exampleConfig [.pkt exampleInput] ⟨[], []⟩ () ()).1 (.ok ()) w).2 ⟨by simp, fuel, h⟩
  refine ⟨n, w, hn, by rw [ht]; simp [exampleTrace], ?_⟩
  obtain ⟨new, e1, e2⟩ := c46_output exampleConfig fuel _ _ () () (.ok ()) w h
  rw [e1, e2 rfl, ht]
  decide +kernel

end Verif
