import Verif.Proofs.SinkPoll
import Verif.Props.Await
import Verif.Props.Task
/-
C112: the server uses its sink as the trait `Sink` demands, does on every sink what the other models say, and never waits with
replies that are not flushed.
-/
namespace Verif
open Spec Server SinkPoll Ex
variable {σ : Type} {L : IpLib} {S U : Type}

/-- C112. Whatever the sink answers, and wherever the session is: `start_send` was called only right after `poll_ready` had found
room, and nothing was called after an error. -/
theorem c112_contract (R : RawSink σ) (C : Config L S U) (incoming : List (SrcEv Bytes)) (st : σ) (s : S) (u : U) (n : Nat) :
    SinkContract (Live.after R C incoming st s u n).log := by
  have h := sound_after R C incoming st s u n
  unfold Sound at h
  split at h
  · split at h
    · exact h.1.contract
    · obtain ⟨_, _, h⟩ := h; exact h.1.contract
  · exact h.1
  · exact h.1.contract

/-- C112. At every await what is flushed are the lines of the replies given so far; a reply counts as given only when it is flushed. -/
theorem c112_flushed (R : RawSink σ) (C : Config L S U) (incoming : List (SrcEv Bytes)) (st : σ) (s : S) (u : U) (n : Nat) :
    flushed (Live.after R C incoming st s u n).log = (repliesOf (Live.after R C incoming st s u n).w.trace).flatMap wire := by
  have h := sound_after R C incoming st s u n
  rw [← outputOf_flat]
  unfold Sound at h
  split at h
  · split at h
    · exact h.1.flushed
    · obtain ⟨_, _, h⟩ := h; exact h.1.flushed
  · exact h.2.1
  · exact h.1.flushed

/-- C112. When the session waits for its client, for a callback or for a mail handler, the sink has nothing that is not flushed: no
buffer keeps a reply from the client. -/
theorem c112_nothing_held_back (R : RawSink σ) (C : Config L S U) (incoming : List (SrcEv Bytes)) (st : σ) (s : S) (u : U) (n : Nat)
    (h1 : ∀ r left a, (Live.after R C incoming st s u n).pc ≠ .send r left a) (h2 : ∀ r, (Live.after R C incoming st s u n).pc ≠ .over r) :
    handed (Live.after R C incoming st s u n).log = flushed (Live.after R C incoming st s u n).log ∧
      (Live.after R C incoming st s u n).writer.state = none := by
  have h := sound_after R C incoming st s u n
  generalize Live.after R C incoming st s u n = x at h h1 h2
  obtain ⟨pc, w, b, wr⟩ := x
  have key : ∀ o : List Bytes, Task.Settled [] ({ w with writer := ⟨o, []⟩ } : World L S U) → o = outputOf w.trace := by
    intro o h; simpa [Task.Settled] using h
  cases pc with
  | send r left a => exact absurd rfl (h1 r left a)
  | over r => exact absurd rfl (h2 r)
  | read buf =>
    obtain ⟨h3, h4, h5, h6⟩ := h
    exact ⟨(key _ h6.inv.1).trans h3.flushed.symm, h4⟩
  | newMail f =>
    obtain ⟨h3, h4, h5, h6⟩ := h
    exact ⟨(key _ h6.inv.1).trans h3.flushed.symm, h4⟩
  | filterFrom f =>
    obtain ⟨h3, h4, h5, h6⟩ := h
    exact ⟨(key _ h6.inv.1).trans h3.flushed.symm, h4⟩
  | filterTo f m =>
    obtain ⟨h3, h4, h5, h6⟩ := h
    exact ⟨(key _ h6.inv.1).trans h3.flushed.symm, h4⟩
  | filterData m =>
    obtain ⟨h3, h4, h5, h6⟩ := h
    exact ⟨(key _ h6.inv.1).trans h3.flushed.symm, h4⟩
  | handle act hh d =>
    obtain ⟨h3, h4, h5, h6⟩ := h
    exact ⟨(key _ h6.inv.1).trans h3.flushed.symm, h4⟩

/-- C112. On every sink the session is, at every await, where it is on some writer of the simpler model (in which a write is one
operation): the same has happened, configuration, connection data, mail and reader are the same, it waits for the same or has ended
alike, and the sink was given the same. Only if a reply has a text that cannot be sent, so that the server panics, the line before
that text may have been kept from the sink. -/
theorem c112_same (R : RawSink σ) (C : Config L S U) (incoming : List (SrcEv Bytes)) (st : σ) (s : S) (u : U) (n : Nat) :
    ∃ plan k more, (∃ left, (Task.after C incoming ⟨[], plan⟩ s u k).1 =
        match (Live.after R C incoming st s u n).pc with | .send r _ a => .send r left a | pc => pc) ∧
      (Task.after C incoming ⟨[], plan⟩ s u k).2 =
        { (Live.after R C incoming st s u n).w with writer := ⟨handed (Live.after R C incoming st s u n).log ++ more, []⟩ } ∧
      (more ≠ [] → more.length = 1 ∧ (Live.after R C incoming st s u n).pc = .over (.panic .buildUnwrap)) := by
  have h := sound_after R C incoming st s u n
  generalize Live.after R C incoming st s u n = x at h
  obtain ⟨pc, w, b, wr⟩ := x
  have key : ∀ {g : Bool} {pc' : Task.PC L S U} {o}, Covers C incoming s u 0 g pc' w o → ∃ plan k,
      Task.after C incoming ⟨[], plan⟩ s u k = (pc', { w with writer := ⟨o, []⟩ }) := by
    rintro g pc' o ⟨k, q, _, _, h⟩
    refine ⟨q, k, ?_⟩
    have := h []
    rw [List.append_nil] at this
    exact this
  have other : ∀ {g : Bool} {o}, Covers C incoming s u 0 g pc w o → (∀ r left a, pc ≠ .send r left a) → ∃ plan k,
      (∃ left, (Task.after C incoming ⟨[], plan⟩ s u k).1 = match pc with | .send r _ a => .send r left a | pc => pc) ∧
      (Task.after C incoming ⟨[], plan⟩ s u k).2 = { w with writer := ⟨o, []⟩ } := by
    intro g o h hp
    obtain ⟨q, k, e⟩ := key h
    refine ⟨q, k, ⟨[], ?_⟩, by rw [e]⟩
    rw [e]
    cases pc <;> first | rfl | exact absurd rfl (hp _ _ _)
  cases pc with
  | send r left a =>
    cases b with
    | none =>
      obtain ⟨q, k, e⟩ := key h.2.2
      exact ⟨q, k, [], ⟨left, by rw [e]⟩, by rw [e, List.append_nil]; rfl, by simp⟩
    | some l =>
      obtain ⟨t, _, h⟩ := h
      obtain ⟨q, k, e⟩ := key h.2.2
      exact ⟨q, k, [], ⟨t :: left, by rw [e]⟩, by rw [e, List.append_nil]; rfl, by simp⟩
  | over r =>
    obtain ⟨_, _, more, g, h1, h2, _, h3⟩ := h
    obtain ⟨q, k, e1, e2⟩ := other h3 (by simp)
    refine ⟨q, k, more, e1, e2, fun hm => ⟨?_, by rw [h2 hm]⟩⟩
    cases more with
    | nil => exact absurd rfl hm
    | cons a l => simp at h1 ⊢; exact h1
  | _ =>
    obtain ⟨q, k, e1, e2⟩ := other h.2.2.2 (by simp)
    exact ⟨q, k, [], e1, by rw [e2, List.append_nil], by simp⟩

/-- C112. In particular the session ends as a session of the main model does. -/
theorem c112_ends_alike (R : RawSink σ) (C : Config L S U) (incoming : List (SrcEv Bytes)) (st : σ) (s : S) (u : U) (n : Nat)
    (res : Res Unit) (h : (Live.after R C incoming st s u n).pc = .over res) :
    ∃ plan fuel more, interact C fuel incoming ⟨[], plan⟩ s u = (res,
        { (Live.after R C incoming st s u n).w with writer := ⟨handed (Live.after R C incoming st s u n).log ++ more, []⟩ }) ∧
      (more ≠ [] → more.length = 1 ∧ res = .panic .buildUnwrap) := by
  obtain ⟨plan, k, more, ⟨left, h1⟩, h2, h3⟩ := c112_same R C incoming st s u n
  rw [h] at h1 h3
  obtain ⟨_, fuel, h4⟩ := ((c101_same C incoming ⟨[], plan⟩ s u).1 res _).1 ⟨k, Prod.ext h1 h2⟩
  refine ⟨plan, fuel, more, h4, fun hm => ⟨(h3 hm).1, ?_⟩⟩
  have := (h3 hm).2
  cases this
  rfl

/-- C112. On a sink that does not fail and does not answer `Pending` for ever the session ends as the main model's does on a writer
that never fails, with the same events, and everything flushed. -/
theorem c112_live (R : RawSink σ) (wait : σ → Nat) (hw : Willing R wait) (C : Config L S U) (incoming : List (SrcEv Bytes)) (st : σ)
    (s : S) (u : U) (fuel : Nat) (res : Res Unit) (w : World L S U) (h : interact C fuel incoming ⟨[], []⟩ s u = (res, w))
    (hr : res ≠ .running) :
    ∃ n more, (Live.after R C incoming st s u n).pc = .over res ∧
      w = { (Live.after R C incoming st s u n).w with writer := ⟨handed (Live.after R C incoming st s u n).log ++ more, []⟩ } ∧
      (more ≠ [] → more.length = 1 ∧ res = .panic .buildUnwrap) := by
  obtain ⟨N, hN⟩ := ((c101_same C incoming ⟨[], []⟩ s u).1 res w).2 ⟨hr, fuel, h⟩
  -- a run that was covered for that long has ended
  have fin : ∀ m N' (hm : Sound C incoming s u N' (Live.after R C incoming st s u m)),
      (N ≤ N' ∨ ∃ r, (Live.after R C incoming st s u m).pc = .over r) →
      ∃ n more, (Live.after R C incoming st s u n).pc = .over res ∧
      w = { (Live.after R C incoming st s u n).w with writer := ⟨handed (Live.after R C incoming st s u n).log ++ more, []⟩ } ∧
      (more ≠ [] → more.length = 1 ∧ res = .panic .buildUnwrap) := by
    intro m N' hm hor
    have hnf := live_nofail (C := C) (incoming := incoming) (s := s) (u := u) hw st m
    refine ⟨m, ?_⟩
    generalize Live.after R C incoming st s u m = x at hm hnf hor
    obtain ⟨pc, w', b, wr⟩ := x
    simp only at hor
    -- what is covered with the writer's answers all `ok` is covered with none of them
    have red : ∀ {pc' : Task.PC L S U} {o}, Covers C incoming s u N' true pc' w' o → ∃ k, N' ≤ k ∧
        Task.steps C k (Task.init C incoming ⟨[], []⟩ s u) = (pc', { w' with writer := ⟨o, []⟩ }) := by
      rintro pc' o ⟨k, q, hk, hq, e⟩
      have e := e []
      rw [List.append_nil] at e
      have := ok_steps (C := C) k (Task.init C incoming ⟨[], q⟩ s u) (hq rfl)
      rw [e] at this
      exact ⟨k, hk, this⟩
    have stay : ∀ k, N ≤ k → Task.steps C k (Task.init C incoming ⟨[], []⟩ s u) = (.over res, w) := by
      intro k hk
      obtain ⟨j, rfl⟩ := Nat.exists_eq_add_of_le hk
      rw [Task.steps_add, show Task.steps C N _ = _ from hN, Task.steps_over]
    have no : ∀ {pc' : Task.PC L S U} {o}, Covers C incoming s u N' true pc' w' o → (∀ r, pc' ≠ .over r) → (∀ r, pc ≠ .over r) →
        False := by
      intro pc' o hc hp hp'
      rcases hor with hor | ⟨r, hor⟩
      · obtain ⟨k, hk, e⟩ := red hc
        rw [stay k (Nat.le_trans hor hk)] at e
        cases e
        exact hp res rfl
      · exact hp' r hor
    cases pc with
    | over r =>
      obtain ⟨_, _, more, g, h1, h2, h3, h4⟩ := hm
      have hg := h3 hnf
      subst hg
      obtain ⟨k, hk, e⟩ := red h4
      have e' : ((Task.PC.over res, w) : Task.State L S U) =
          (Task.PC.over r, { w' with writer := ⟨handed wr.sink.log ++ more, []⟩ }) := by
        rcases Nat.le_total N k with hle | hle
        · rw [← stay k hle]; exact e
        · obtain ⟨j, rfl⟩ := Nat.exists_eq_add_of_le hle
          have hN' : Task.steps C (k + j) (Task.init C incoming ⟨[], []⟩ s u) = _ := hN
          rw [Task.steps_add, e, Task.steps_over] at hN'
          exact hN'.symm
      cases e'
      refine ⟨more, rfl, rfl, fun hmn => ⟨?_, h2 hmn⟩⟩
      cases more with
      | nil => exact absurd rfl hmn
      | cons a l => simp at h1 ⊢; exact h1
    | send r left a =>
      cases b with
      | none => exact (no hm.2.2 (by simp) (by simp)).elim
      | some l => obtain ⟨t, _, hm⟩ := hm; exact (no hm.2.2 (by simp) (by simp)).elim
    | _ => exact (no hm.2.2.2 (by simp) (by simp)).elim
  obtain ⟨m, hm⟩ := gets_far (C := C) (incoming := incoming) (s := s) (u := u) hw st N
  rcases hm with hm | hm
  · exact fin m N hm (.inl (Nat.le_refl N))
  · exact fin m 0 (sound_after R C incoming st s u m) (.inr hm)

private theorem with_ready_pending {R : RawSink σ} {x y : With σ} (h : x.pollReady R = (.pending, y)) :
    y.sink.log.getLast? = some (.ready .pending) := by
  have hnp : ∀ y, x.poll R ≠ (.pending, y) := by
    intro y h
    unfold With.poll at h
    split at h
    · simp at h
    · split at h
      · simp at h
      · split at h <;> simp at h
  unfold With.pollReady at h
  split at h
  · rename_i z _
    have h1 := congrArg Prod.fst h
    have h2 := congrArg (·.2.sink.log) h
    simp only at h1 h2
    rw [← h2]
    simp only [Raw.pollReady] at h1 ⊢
    have : (R.pollReady z.sink.st).1 = .pending := by
      revert h1; cases (R.pollReady z.sink.st).1 <;> simp [Ans.res]
    simp [this]
  · rename_i z _ e
    cases h
    exact absurd e (hnp _)

private theorem with_flush_pending {R : RawSink σ} {x y : With σ} (h : x.pollFlush R = (.pending, y)) :
    y.sink.log.getLast? = some (.flush .pending) := by
  have hnp : ∀ y, x.poll R ≠ (.pending, y) := by
    intro y h
    unfold With.poll at h
    split at h
    · simp at h
    · split at h
      · simp at h
      · split at h <;> simp at h
  unfold With.pollFlush at h
  split at h
  · rename_i z _
    have h1 := congrArg Prod.fst h
    have h2 := congrArg (·.2.sink.log) h
    simp only at h1 h2
    rw [← h2]
    simp only [Raw.pollFlush] at h1 ⊢
    have : (R.pollFlush z.sink.st).1 = .pending := by
      revert h1; cases (R.pollFlush z.sink.st).1 <;> simp [Ans.res]
    simp [this]
  · rename_i z _ e
    cases h
    exact absurd e (hnp _)

private theorem trySend_pending {R : RawSink σ} {l : ReplyLine} {left : List Bytes} {x : With σ} {y : SendAll σ}
    (h : trySend R l left x = (.pending, y)) : y.writer.sink.log.getLast? = some (.ready .pending) := by
  unfold trySend at h
  split at h
  · exfalso
    have := congrArg Prod.fst h
    simp only [With.startSend] at this
    split at this <;> simp at this
  · rename_i z e
    cases h
    exact with_ready_pending e
  · rename_i a z h1 h2 e
    cases h
    exact (h2 rfl).elim

private theorem loop_pending {R : RawSink σ} {code : ReplyCode} {left : List Bytes} {x : With σ} {y : SendAll σ}
    (h : sendAllLoop R code left x = (.pending, y)) :
    y.writer.sink.log.getLast? = some (.ready .pending) ∨ y.writer.sink.log.getLast? = some (.flush .pending) := by
  induction left generalizing x with
  | nil =>
    rw [sendAllLoop] at h
    have h1 := congrArg Prod.fst h
    have h2 := congrArg (·.2.writer) h
    simp only at h1 h2
    right
    rw [← h2]
    exact with_flush_pending (Prod.ext h1 rfl)
  | cons t ts ih =>
    rw [sendAllLoop] at h
    split at h
    · simp at h
    · split at h
      · exact ih h
      · rename_i a z _ e
        cases h
        exact .inl (trySend_pending e)

/-- C112. No wake-up is missed: when a poll leaves a reply unfinished, the last call it made to the sink was answered `Pending`, so the
sink knows whom to wake. -/
theorem c112_woken (R : RawSink σ) (C : Config L S U) (incoming : List (SrcEv Bytes)) (st : σ) (s : S) (u : U) (n : Nat)
    (h : (∃ r left a, (Live.after R C incoming st s u n).pc = .send r left a) ∧ (∃ r left a, (Live.after R C incoming st s u (n + 1)).pc = .send r left a))
    (ht : (Live.after R C incoming st s u (n + 1)).w.trace = (Live.after R C incoming st s u n).w.trace) :
    (Live.after R C incoming st s u (n + 1)).log.getLast? = some (.ready .pending) ∨
    (Live.after R C incoming st s u (n + 1)).log.getLast? = some (.flush .pending) := by
  obtain ⟨⟨r, left, a, hp⟩, ⟨r', left', a', hp'⟩⟩ := h
  rw [Live.after] at ht hp' ⊢
  generalize Live.after R C incoming st s u n = x at hp hp' ht
  simp only [Live.step, hp] at ht hp' ⊢
  rcases hq : SendAll.poll R r.1 ⟨x.buffered, left, x.writer⟩ with ⟨_ | _ | _ | p, y⟩ <;> simp only [hq] at ht hp' ⊢
  · exfalso
    have hpre : x.w.trace ++ [.reply r] <+: (Task.resume C { x.w with trace := x.w.trace ++ [.reply r] } a).2.trace := by
      cases a <;> simp [Task.resume]
    have hl := hpre.length_le
    rw [ht, List.length_append] at hl
    simp only [List.length_cons, List.length_nil] at hl
    omega
  · unfold SendAll.poll at hq
    simp only at hq
    split at hq
    · exact loop_pending hq
    · split at hq
      · exact loop_pending hq
      · rename_i b z _ e
        cases hq
        exact .inl (trySend_pending e)
  · simp at hp'
  · simp at hp'

/-! ### A sink that makes one wait -/

/-- A sink that answers `Pending` every other time. -/
def lazySink : RawSink Bool where
  pollReady st := (if st then .pending else .ready, !st)
  startSend _ _ := (.ok, true)
  pollFlush st := (if st then .pending else .ready, !st)

/-- It meets the hypothesis of `c112_live`. -/
theorem c112_example_willing : Willing lazySink (fun st => if st then 1 else 0) := by
  refine ⟨fun st => ?_, fun _ _ => rfl, fun st => ?_⟩ <;> cases st <;> simp [lazySink]

/-- C112: after two polls the greeting is given to the sink and not flushed; after three it is. -/
theorem c112_example :
    handed (Live.after lazySink (testConfig exampleIp) [.pkt oneMail] true [] () 2).log = [b!"220 test.example.org Service ready\r\n"] ∧
    flushed (Live.after lazySink (testConfig exampleIp) [.pkt oneMail] true [] () 2).log = [] ∧
    flushed (Live.after lazySink (testConfig exampleIp) [.pkt oneMail] true [] () 3).log = [b!"220 test.example.org Service ready\r\n"] := by
  refine ⟨?_, ?_, ?_⟩ <;> decide +kernel

/-- What a session waits for: 0 a callback or a handler, 1 the sink, 2 nothing any more, 3 the client. -/
def waitsFor : Task.PC L S U → Nat
  | .send .. => 1
  | .over _ => 2
  | .read _ => 3
  | _ => 0

/-- C112: in the session of the example all of these occur: two polls with an unfinished reply between them (`c112_woken`), waiting for
the client and for a callback (`c112_nothing_held_back`), the end (`c112_ends_alike`). -/
theorem c112_example_waits :
    waitsFor (Live.after lazySink (testConfig exampleIp) [.pkt oneMail] true [] () 1).pc = 1 ∧
    waitsFor (Live.after lazySink (testConfig exampleIp) [.pkt oneMail] true [] () 2).pc = 1 ∧
    (Live.after lazySink (testConfig exampleIp) [.pkt oneMail] true [] () 2).w.trace.length = 0 ∧
    waitsFor (Live.after lazySink (testConfig exampleIp) [.pkt oneMail] true [] () 3).pc = 3 ∧
    waitsFor (Live.after lazySink (testConfig exampleIp) [.pkt oneMail] true [] () 4).pc = 0 ∧
    waitsFor (Live.after lazySink (testConfig exampleIp) [.pkt oneMail] true [] () 27).pc = 2 := by
  refine ⟨?_, ?_, ?_, ?_, ?_, ?_⟩ <;> decide +kernel

end Verif
