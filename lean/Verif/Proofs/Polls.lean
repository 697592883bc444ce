import Verif.Spec.Polls
import Verif.Proofs.SinkPoll
import Verif.Proofs.DataPoll
/-
Every `Pending` of a session is one of its connection or of its sink.
-/
namespace Verif
open Spec Server
namespace Polls
variable {σ : Type} {R : RawSink σ} {L : IpLib} {S U : Type} {C : Config L S U}

/-! ### The connection -/

theorem prep_pending {p q : Prep Bytes} (h : p.pollNext = (.pending, q)) : pendingsIn p.src = pendingsIn q.src + 1 := by
  obtain ⟨src, pre, e⟩ := p
  cases pre with
  | some i => simp [Prep.pollNext] at h
  | none =>
    match src with
    | [] => simp [Prep.pollNext] at h
    | .pkt a :: r => simp [Prep.pollNext] at h
    | .pending :: r =>
      simp only [Prep.pollNext] at h
      cases h
      simp [pendingsIn]

theorem prep_ready {p q : Prep Bytes} {o} (h : p.pollNext = (.ready o, q)) : pendingsIn p.src = pendingsIn q.src := by
  obtain ⟨src, pre, e⟩ := p
  cases pre with
  | some i => simp only [Prep.pollNext] at h; cases h; rfl
  | none =>
    match src with
    | [] => simp only [Prep.pollNext] at h; cases h; rfl
    | .pkt a :: r => simp only [Prep.pollNext] at h; cases h; simp [pendingsIn]
    | .pending :: r => simp [Prep.pollNext] at h

theorem prepend_src {p q : Prep Bytes} {b : Bytes} (h : p.prepend b = some q) : q.src = p.src := by
  unfold Prep.prepend at h
  split at h <;> simp at h
  rw [← h]

theorem loop_count (d : DStream) :
    pendingsIn d.source.src = pendingsIn d.pollLoop.2.source.src + (if d.pollLoop.1 = .pending then 1 else 0) := by
  fun_induction DStream.pollLoop d with
  | case1 => simp
  | case2 d st hs hlen s hp => simpa using prep_pending hp
  | case3 d st hs hlen s hp => simpa using prep_ready hp
  | case4 d st hs hlen b s hp ih => rw [prep_ready hp]; exact ih
  | case5 => simp only [reduceCtorEq, if_false]; rfl
  | case6 => simp only [reduceCtorEq, if_false]; rfl
  | case7 => simp
  | case8 d st x hs hlen ih => exact ih
  | case9 => simp
  | case10 d st x hs hx s hp => simpa using prep_pending hp
  | case11 d st x hs hx s hp => simpa using prep_ready hp
  | case12 d st x hs hx b s hp ih => rw [prep_ready hp]; exact ih

theorem data_count (d : DStream) :
    pendingsIn d.source.src = pendingsIn d.pollNext.2.source.src + (if d.pollNext.1 = .pending then 1 else 0) := by
  unfold DStream.pollNext
  split
  · simp
  · exact loop_count d

theorem complete_src {d d' : DStream} {ok : Bool} (h : d.complete = .ok (ok, d')) : d'.source.src = d.source.src := by
  unfold DStream.complete at h
  split at h
  · cases h; rfl
  · split at h
    · cases h
    · split at h
      · split at h
        · rename_i hp; cases h; exact prepend_src hp
        · cases h
      · cases h; rfl

/-! ### The sink -/

theorem out_snoc (log : List Call) (c : Call) :
    pendingsOut (log ++ [c]) = pendingsOut log + (if c = .ready .pending ∨ c = .flush .pending then 1 else 0) := by
  simp [pendingsOut, List.countP_append, List.countP_cons]

theorem with_poll_out (x : With σ) : pendingsOut (x.poll R).2.sink.log = pendingsOut x.sink.log ∧ (x.poll R).1 ≠ .pending := by
  unfold With.poll
  split
  · exact ⟨rfl, by simp⟩
  · split
    · exact ⟨rfl, by simp⟩
    · rename_i l _ _
      have : pendingsOut (x.sink.startSend R l.sendTo).2.log = pendingsOut x.sink.log := by
        simp [Raw.startSend, out_snoc]
      split <;> rename_i e <;> rw [e] at this <;> exact ⟨this, by simp⟩

theorem res_pending (a : Ans) : a.res = .pending ↔ a = .pending := by cases a <;> simp [Ans.res]

/-- One for `Pending`. -/
def one : PollRes → Nat
  | .pending => 1
  | _ => 0

theorem one_of_ne {a : PollRes} (h : a ≠ .pending) : one a = 0 := by cases a <;> first | rfl | exact absurd rfl h

theorem with_ready_out (x : With σ) :
    pendingsOut (x.pollReady R).2.sink.log = pendingsOut x.sink.log + one (x.pollReady R).1 := by
  have h := with_poll_out (R := R) x
  unfold With.pollReady
  split
  · rename_i y e
    rw [e] at h
    simp only [Raw.pollReady, out_snoc, h.1]
    cases (R.pollReady y.sink.st).1 <;> simp [Ans.res, one]
  · rename_i a y hn e
    rw [e] at h
    rw [one_of_ne h.2]
    exact h.1

theorem with_flush_out (x : With σ) :
    pendingsOut (x.pollFlush R).2.sink.log = pendingsOut x.sink.log + one (x.pollFlush R).1 := by
  have h := with_poll_out (R := R) x
  unfold With.pollFlush
  split
  · rename_i y e
    rw [e] at h
    simp only [Raw.pollFlush, out_snoc, h.1]
    cases (R.pollFlush y.sink.st).1 <;> simp [Ans.res, one]
  · rename_i a y hn e
    rw [e] at h
    rw [one_of_ne h.2]
    exact h.1

theorem try_out (l : ReplyLine) (left : List Bytes) (x : With σ) :
    pendingsOut (trySend R l left x).2.writer.sink.log = pendingsOut x.sink.log + one (trySend R l left x).1 := by
  have h := with_ready_out (R := R) x
  unfold trySend
  split <;> rename_i e <;> rw [e] at h
  · simp only [With.startSend] at h ⊢
    split <;> simpa [one] using h
  · simpa using h
  · exact h

theorem loop_out (code : ReplyCode) (left : List Bytes) (x : With σ) :
    pendingsOut (sendAllLoop R code left x).2.writer.sink.log =
      pendingsOut x.sink.log + one (sendAllLoop R code left x).1 := by
  induction left generalizing x with
  | nil => exact with_flush_out x
  | cons t ts ih =>
    unfold sendAllLoop
    split
    · simp [one]
    · rename_i l _
      have h := try_out (R := R) l ts x
      rcases e : trySend R l ts x with ⟨_ | _ | _ | p, y⟩ <;> rw [e] at h <;> simp only at h ⊢
      · rw [ih, h]; simp [one]
      · exact h
      · exact h
      · exact h

theorem poll_out (code : ReplyCode) (x : SendAll σ) :
    pendingsOut (SendAll.poll R code x).2.writer.sink.log =
      pendingsOut x.writer.sink.log + one (SendAll.poll R code x).1 := by
  unfold SendAll.poll
  split
  · exact loop_out _ _ _
  · rename_i l _
    have h := try_out (R := R) l x.left x.writer
    rcases e : trySend R l x.left x.writer with ⟨_ | _ | _ | p, y⟩ <;> rw [e] at h <;> simp only at h ⊢
    · rw [loop_out, h]; simp [one]
    · exact h
    · exact h
    · exact h

/-! ### The session -/

private theorem reply_pc (r : Reply) (a : Task.After L) : (∃ l, (Task.reply r a : Task.PC L S U) = .send r l a) ∨ (Task.reply r a : Task.PC L S U) = .over (.panic .divZero) := by
  unfold Task.reply
  split
  · exact .inr rfl
  · exact .inl ⟨_, rfl⟩

/-- Not while a mail is handled. -/
private theorem conn_other {pc : Task.PC L S U} {w : World L S U} {b : Option ReplyLine} {wr : With σ} (h : ∀ act hh d, pc ≠ .handle act hh d) :
    connectionOf (⟨pc, w, b, wr⟩ : Live L S U σ) = w.reader := by
  cases pc <;> first | rfl | exact absurd rfl (h _ _ _)

private theorem reply_no {r : Reply} {a : Task.After L} (act hh d) : (Task.reply r a : Task.PC L S U) ≠ .handle act hh d := by
  rcases reply_pc (S := S) (U := U) r a with ⟨l, e⟩ | e <;> rw [e] <;> simp

private theorem dispatch_conn (w : World L S U) (l : Bytes) (b : Option ReplyLine) (wr : With σ) :
    connectionOf (⟨(Task.dispatch C w l).1, (Task.dispatch C w l).2, b, wr⟩ : Live L S U σ) = w.reader := by
  unfold Task.dispatch
  repeat' split
  all_goals rw [conn_other (by first | exact reply_no | simp)]

/-- One step. -/
theorem count_step (x : Live L S U σ) (hp : ∀ p, (x.step R C).pc ≠ .over (.panic p)) :
    (Suspends R x → pendingsIn (connectionOf x).src + pendingsOut (x.step R C).log =
      pendingsIn (connectionOf (x.step R C)).src + pendingsOut x.log + 1) ∧
    (¬ Suspends R x → pendingsIn (connectionOf x).src + pendingsOut (x.step R C).log =
      pendingsIn (connectionOf (x.step R C)).src + pendingsOut x.log) := by
  obtain ⟨pc, w, b, wr⟩ := x
  cases pc with
  | read buf =>
    simp only [Live.step, Task.step, Live.log, Suspends] at hp ⊢
    rcases hr : w.reader.pollNext with ⟨_ | _, q⟩
    · rename_i o
      have h1 := prep_ready hr
      simp only [hr, reduceCtorEq, false_implies, not_false_eq_true, true_implies, true_and] at hp ⊢
      cases o with
      | some pkt =>
        simp only at hp ⊢
        cases hf : findCrlf (buf ++ pkt) with
        | none =>
          simp only
          rw [conn_other (by simp), conn_other (by simp)]
          simp [h1]
        | some pos =>
          simp only [hf] at hp ⊢
          cases hq : q.prepend ((buf ++ pkt).drop (pos + 2)) with
          | none => rw [hq] at hp; exact absurd rfl (hp _)
          | some s' =>
            simp only
            rw [dispatch_conn, conn_other (by simp)]
            simp [h1, prepend_src hq]
      | none =>
        simp only at hp ⊢
        cases hq : q.prepend buf with
        | none => rw [hq] at hp; exact absurd rfl (hp _)
        | some s' =>
          simp only
          rw [conn_other (by simp), conn_other (by simp)]
          simp [h1, prepend_src hq]
    · have h1 := prep_pending hr
      simp only [true_implies, not_true_eq_false, false_implies, and_true]
      rw [conn_other (by simp), conn_other (by simp)]
      simp [h1]; omega
  | send r left a =>
    have h := poll_out (R := R) r.1 ⟨b, left, wr⟩
    simp only [Live.step, Live.log, Suspends] at hp ⊢
    rcases hq : SendAll.poll R r.1 ⟨b, left, wr⟩ with ⟨a', y⟩
    rw [hq] at h hp
    simp only at h
    cases a' with
    | ready =>
      simp only [reduceCtorEq, false_implies, not_false_eq_true, true_implies, true_and] at hp ⊢
      rw [h]
      cases a <;> simp [Task.resume, connectionOf, DStream.new, one]
    | pending =>
      simp only [true_implies, not_true_eq_false, false_implies, and_true]
      rw [h, conn_other (by simp), conn_other (by simp)]; simp only [one]; omega
    | error =>
      simp only [reduceCtorEq, false_implies, not_false_eq_true, true_implies, true_and]
      rw [h, conn_other (by simp), conn_other (by simp)]; simp [one]
    | panic p => exact absurd rfl (hp p)
  | newMail f => simp [Live.step, Task.step, Live.log, Suspends, connectionOf]
  | filterFrom f =>
    simp only [Live.step, Task.step, Live.log, Suspends]
    split <;> (rw [conn_other (by simp), conn_other reply_no]; simp)
  | filterTo t m =>
    simp only [Live.step, Task.step, Live.log, Suspends]
    split <;> (rw [conn_other (by simp), conn_other reply_no]; simp)
  | filterData m =>
    simp only [Live.step, Task.step, Live.log, Suspends]
    split <;> (rw [conn_other (by simp), conn_other reply_no]; simp)
  | handle act hh d =>
    simp only [Live.step, Task.step, Live.log, Suspends] at hp ⊢
    cases ha : act hh with
    | poll =>
      have h := data_count d
      simp only [connectionOf, true_and]
      rw [h]
      constructor
      · intro e; rw [if_pos e]; omega
      · intro e; rw [if_neg e]; omega
    | complete =>
      rw [ha] at hp
      simp only [reduceCtorEq, false_and, false_implies, not_false_eq_true, true_implies, true_and] at hp ⊢
      cases hc : d.complete with
      | error p => rw [hc] at hp; exact absurd rfl (hp p)
      | ok res =>
        obtain ⟨ok, d'⟩ := res
        simp [connectionOf, complete_src hc]
    | done dec s' u' =>
      rw [ha] at hp
      simp only [reduceCtorEq, false_and, false_implies, not_false_eq_true, true_implies, true_and] at hp ⊢
      by_cases hw : d.wasCompleted
      · simp only [hw, if_true]
        rw [conn_other reply_no]
        simp [connectionOf]
      · simp only [hw] at hp
        exact absurd rfl (hp _)
  | over r => simp [Live.step, Task.step, Live.log, Suspends, connectionOf]

/-! ### A session does not go on for ever between two suspensions -/

open SinkPoll in
/-- A step that does not suspend brings the session on, or ends it. -/
theorem progress {incoming : List (SrcEv Bytes)} {s : S} {u : U} {N : Nat} {x : Live L S U σ} (h : Sound C incoming s u N x)
    (hs : ¬ Suspends R x) (ho : ∀ r, x.pc ≠ .over r) : Sound C incoming s u (N + 1) (x.step R C) ∨ ∃ r, (x.step R C).pc = .over r := by
  by_cases hp : ∃ r left a, x.pc = .send r left a
  · obtain ⟨r, left, a, hp⟩ := hp
    have hx := sound_send (R := R) h hp
    obtain ⟨pc, w, b, wr⟩ := x
    simp only at hp
    subst hp
    simp only [Suspends] at hs
    simp only [Live.step] at hx ⊢
    rcases hq : SendAll.poll R r.1 ⟨b, left, wr⟩ with ⟨_ | _ | _ | p, y⟩ <;> rw [hq] at hs hx <;> simp only at hx hs ⊢
    · exact .inl (sound_resumed hx)
    · exact absurd trivial hs
    · exact .inr ⟨_, rfl⟩
    · exact .inr ⟨_, rfl⟩
  · exact .inl (sound_other (fun r left a e => hp ⟨r, left, a, e⟩) ho h)

end Polls
end Verif
