import Verif.Spec.SinkPoll
import Verif.Proofs.Task
/-
Every run on a sink that is polled is a run of Model/Task.lean.
-/
namespace Verif
open Spec

theorem handed_append (a b : List Call) : handed (a ++ b) = handed a ++ handed b := by
  fun_induction handed a with
  | case1 => rfl
  | case2 item log ih => simp [handed, ih]
  | case3 item log ih => simp [handed, ih]
  | case4 c log h1 h2 ih =>
    rw [List.cons_append, handed, ih]
    · exact h1
    · exact h2

theorem flushed_ready (log : List Call) : flushed (log ++ [.flush .ready]) = handed log := by
  simp [flushed, handed_append, handed]

theorem flushed_other (log : List Call) {c : Call} (h : c ≠ .flush .ready) : flushed (log ++ [c]) = flushed log := by
  simp [flushed, h]

/-- No call has failed. -/
def NoFail (log : List Call) : Prop := ∀ c ∈ log, ¬ c.Failed

theorem NoFail.snoc {log : List Call} {c : Call} (h : NoFail log) (hc : ¬ c.Failed) : NoFail (log ++ [c]) := by
  intro x hx
  rcases List.mem_append.1 hx with hx | hx
  · exact h x hx
  · simp only [List.mem_singleton] at hx; rw [hx]; exact hc

theorem fails_snoc {log : List Call} {c : Call} (hc : c.Failed) : ¬ NoFail (log ++ [c]) :=
  fun h => h c (by simp) hc

private theorem snoc_split {α : Type} {log before later : List α} {c x : α} (h : log ++ [c] = before ++ x :: later) :
    (later = [] ∧ before = log ∧ x = c) ∨ ∃ later', later = later' ++ [c] ∧ log = before ++ x :: later' := by
  rcases List.eq_nil_or_concat later with rfl | ⟨l', b, rfl⟩
  · left
    have := List.append_inj' h rfl
    exact ⟨rfl, this.1.symm, by simpa using this.2.symm⟩
  · right
    rw [List.concat_eq_append, ← List.cons_append, ← List.append_assoc] at h
    have := List.append_inj' h rfl
    have hb : c = b := by simpa using this.2
    subst hb
    exact ⟨l', by simp, this.1⟩

theorem _root_.Verif.Spec.SinkContract.snoc {log : List Call} {c : Call} (h : SinkContract log) (hn : NoFail log)
    (hr : ∀ item r, c = .start item r → [.ready .ready] <:+ log) : SinkContract (log ++ [c]) := by
  constructor
  · intro before item r later he
    rcases snoc_split he with ⟨_, rfl, hx⟩ | ⟨l', _, he⟩
    · exact hr item r hx.symm
    · exact h.room _ _ _ _ he
  · intro before x later he hf
    rcases snoc_split he with ⟨rfl, _, _⟩ | ⟨l', _, he⟩
    · rfl
    · exact absurd hf (hn x (by rw [he]; simp))

namespace SinkPoll
open Server Task
variable {σ : Type} (R : RawSink σ) {L : IpLib} {S U : Type} (C : Config L S U) (incoming : List (SrcEv Bytes)) (s : S) (u : U)

/-- The model of Model/Task.lean gets to `pc`, with `w` but for the writer, which has taken `out`, by certain answers of the writer,
whatever its other answers will be. It takes at least `N` steps, and if `g`, then the writer did not fail. -/
def Covers (N : Nat) (g : Bool) (pc : PC L S U) (w : World L S U) (out : List Bytes) : Prop :=
  ∃ n q, N ≤ n ∧ (g → ∀ a ∈ q, a = .ok) ∧ ∀ p, steps C n (Task.init C incoming ⟨[], q ++ p⟩ s u) = (pc, { w with writer := ⟨out, p⟩ })

variable {R C incoming s u}

theorem Covers.step {N : Nat} {g g' : Bool} {pc pc' : PC L S U} {w w' : World L S U} {out out'} (h : Covers C incoming s u N g pc w out)
    (a : List SendRes) (hg : g' → g ∧ ∀ x ∈ a, x = .ok)
    (hs : ∀ p, Task.step C (pc, { w with writer := ⟨out, a ++ p⟩ }) = (pc', { w' with writer := ⟨out', p⟩ })) :
    Covers C incoming s u (N + 1) g' pc' w' out' := by
  obtain ⟨n, q, hn, hq, h⟩ := h
  refine ⟨n + 1, q ++ a, by omega, ?_, fun p => ?_⟩
  · intro k x hx
    rcases List.mem_append.1 hx with hx | hx
    · exact hq (hg k).1 x hx
    · exact (hg k).2 x hx
  · rw [steps_succ, List.append_assoc, h, hs]

theorem Covers.mono {N N' : Nat} {g : Bool} {pc : PC L S U} {w : World L S U} {out} (h : Covers C incoming s u N g pc w out)
    (hN : N' ≤ N) : Covers C incoming s u N' g pc w out := by
  obtain ⟨n, q, hn, h⟩ := h
  exact ⟨n, q, by omega, h⟩

theorem fits (l : ReplyLine) : ¬ l.byteLen < l.sendTo.length := by rw [c19_byte_len]; omega

section
variable {r : Reply} {t : Bytes} {ts : List Bytes} {a : After L} {w : World L S U} {out : List Bytes} {l : ReplyLine} {N : Nat}

theorem Covers.wrote (h : Covers C incoming s u N true (.send r (t :: ts) a) w out)
    (hb : ReplyLine.build r.1 (if ts.isEmpty then .yes else .no) t = .ok l) :
    Covers C incoming s u (N + 1) true (.send r ts a) w (out ++ [l.sendTo]) := by
  refine h.step [.ok] (by simp) fun p => ?_
  simp only [Task.step, hb, writeLine, if_neg (fits l), BSink.send, List.cons_append, List.nil_append, if_true]

theorem Covers.dropped (h : Covers C incoming s u N true (.send r (t :: ts) a) w out)
    (hb : ReplyLine.build r.1 (if ts.isEmpty then .yes else .no) t = .ok l) :
    Covers C incoming s u (N + 1) false (.over .err) { w with trace := w.trace ++ [.writeError] } out := by
  refine h.step [.errDropped] (by simp) fun p => ?_
  simp only [Task.step, hb, writeLine, if_neg (fits l), BSink.send, List.cons_append, List.nil_append, Bool.false_eq_true, if_false]

theorem Covers.accepted (h : Covers C incoming s u N true (.send r (t :: ts) a) w out)
    (hb : ReplyLine.build r.1 (if ts.isEmpty then .yes else .no) t = .ok l) :
    Covers C incoming s u (N + 1) false (.over .err) { w with trace := w.trace ++ [.writeError] } (out ++ [l.sendTo]) := by
  refine h.step [.errAccepted] (by simp) fun p => ?_
  simp only [Task.step, hb, writeLine, if_neg (fits l), BSink.send, List.cons_append, List.nil_append, Bool.false_eq_true, if_false]

theorem Covers.unbuildable {e} (h : Covers C incoming s u N true (.send r (t :: ts) a) w out)
    (hb : ReplyLine.build r.1 (if ts.isEmpty then .yes else .no) t = .error e) :
    Covers C incoming s u (N + 1) true (.over (.panic .buildUnwrap)) w out := by
  refine h.step [] (by simp) fun p => ?_
  simp only [Task.step, hb, List.nil_append]

theorem Covers.flushed (h : Covers C incoming s u N true (.send r [] a) w out) :
    Covers C incoming s u (N + 1) true (resume C { w with trace := w.trace ++ [.reply r] } a).1
      (resume C { w with trace := w.trace ++ [.reply r] } a).2 out := by
  refine h.step [.ok] (by simp) fun p => ?_
  cases a <;> simp [Task.step, flush, resume]

theorem Covers.unflushed (h : Covers C incoming s u N true (.send r [] a) w out) :
    Covers C incoming s u (N + 1) false (.over .err) { w with trace := w.trace ++ [.writeError] } out := by
  refine h.step [.errDropped] (by simp) fun p => ?_
  simp [Task.step, flush]

end

private theorem dispatch_writer (w : World L S U) (b : BSink) (l : Bytes) :
    dispatch C { w with writer := b } l = ((dispatch C w l).1, { (dispatch C w l).2 with writer := b }) := by
  unfold dispatch
  split
  · split <;> rfl
  · simp only
    split <;> rfl
  · simp only
    split
    · split <;> rfl
    · rfl
  · rfl
  · rfl

theorem step_writer {pc : PC L S U} (w : World L S U) (b : BSink) (h : ∀ r left a, pc ≠ .send r left a) :
    Task.step C (pc, { w with writer := b }) = ((Task.step C (pc, w)).1, { (Task.step C (pc, w)).2 with writer := b }) := by
  cases pc with
  | send r left a => exact absurd rfl (h r left a)
  | over r => rfl
  | read buf =>
    simp only [Task.step]
    split
    · rfl
    · split
      · split
        · rename_i s' _
          exact dispatch_writer { w with reader := s', trace := w.trace ++ [.line _] } b _
        · rfl
      · rfl
    · split <;> rfl
  | newMail f => rfl
  | filterFrom f => simp only [Task.step]; split <;> rfl
  | filterTo t m => simp only [Task.step]; split <;> rfl
  | filterData m => simp only [Task.step]; split <;> rfl
  | handle act hh d =>
    simp only [Task.step]
    split
    · rfl
    · split <;> rfl
    · split <;> rfl

theorem Covers.other {N : Nat} {g : Bool} {pc : PC L S U} {w : World L S U} {out} (h : Covers C incoming s u N g pc w out)
    (hp : ∀ r left a, pc ≠ .send r left a) :
    Covers C incoming s u (N + 1) g (Task.step C (pc, w)).1 (Task.step C (pc, w)).2 out :=
  h.step [] (by simp) fun p => step_writer w ⟨out, p⟩ hp

/-! ### One poll of `SendAll` -/

/-- What holds of the calls as long as nothing has failed; `F` is what was flushed when the reply was begun. -/
structure Base (F : List Bytes) (log : List Call) : Prop where
  contract : SinkContract log
  nofail : NoFail log
  flushed : Spec.flushed log = F

theorem Base.snoc {F : List Bytes} {log : List Call} {c : Call} (h : Base F log) (hc : ¬ c.Failed) (hf : c ≠ .flush .ready)
    (hr : ∀ item r, c = .start item r → [.ready .ready] <:+ log) : Base F (log ++ [c]) :=
  ⟨h.contract.snoc h.nofail hr, h.nofail.snoc hc, by rw [flushed_other _ hf, h.flushed]⟩

section
variable (C incoming s u) (N : Nat)

/-- In the middle of a poll: `left` is still in the iterator, and `With` may hold the line before. -/
def Mid (F : List Bytes) (r : Reply) (a : After L) (w : World L S U) (left : List Bytes) (x : With σ) : Prop :=
  Base F x.sink.log ∧
    match x.state with
    | none => Covers C incoming s u N true (.send r left a) w (handed x.sink.log)
    | some l => ∃ t, ReplyLine.build r.1 (if left.isEmpty then .yes else .no) t = .ok l ∧ [.ready .ready] <:+ x.sink.log ∧
        Covers C incoming s u N true (.send r (t :: left) a) w (handed x.sink.log)

/-- Nothing is in `With`. -/
def Empty (F : List Bytes) (r : Reply) (a : After L) (w : World L S U) (left : List Bytes) (x : With σ) : Prop :=
  Base F x.sink.log ∧ x.state = none ∧ Covers C incoming s u N true (.send r left a) w (handed x.sink.log)

/-- The writer has failed. -/
def Failed (F : List Bytes) (w : World L S U) (x : With σ) : Prop :=
  SinkContract x.sink.log ∧ flushed x.sink.log = F ∧ ¬ NoFail x.sink.log ∧
    Covers C incoming s u N false (.over .err) { w with trace := w.trace ++ [.writeError] } (handed x.sink.log)

/-- A line cannot be built. The line before it may still be in `With`. -/
def Stuck (F : List Bytes) (w : World L S U) (x : With σ) : Prop :=
  SinkContract x.sink.log ∧ flushed x.sink.log = F ∧
    ∃ more, more.length ≤ 1 ∧ Covers C incoming s u N true (.over (.panic .buildUnwrap)) w (handed x.sink.log ++ more)

/-- How a poll that began with `w` ends. -/
def Polled (F : List Bytes) (r : Reply) (a : After L) (w : World L S U) : PollRes × SendAll σ → Prop
  | (.ready, y) => (∃ log, y.writer.sink.log = log ++ [.flush .ready]) ∧ SinkContract y.writer.sink.log ∧ NoFail y.writer.sink.log ∧
      y.writer.state = none ∧ Covers C incoming s u (N + 1) true (resume C { w with trace := w.trace ++ [.reply r] } a).1
        (resume C { w with trace := w.trace ++ [.reply r] } a).2 (handed y.writer.sink.log)
  | (.pending, y) =>
    match y.buffered with
    | none => Empty C incoming s u N F r a w y.left y.writer
    | some l => ∃ t, ReplyLine.build r.1 (if y.left.isEmpty then .yes else .no) t = .ok l ∧
        Empty C incoming s u N F r a w (t :: y.left) y.writer
  | (.error, y) => Failed C incoming s u N F w y.writer
  | (.panic p, y) => p = .buildUnwrap ∧ Stuck C incoming s u N F w y.writer

end

variable {N : Nat} {F : List Bytes} {r : Reply} {a : After L} {w : World L S U} {left : List Bytes}

theorem with_poll {x : With σ} (h : Mid C incoming s u N F r a w left x) :
    (∃ y, x.poll R = (.ready, y) ∧ Empty C incoming s u N F r a w left y) ∨
      ∃ y, x.poll R = (.error, y) ∧ Failed C incoming s u N F w y := by
  obtain ⟨h1, h2⟩ := h
  obtain ⟨⟨st, log⟩, state⟩ := x
  cases state with
  | none => exact .inl ⟨_, rfl, h1, rfl, h2⟩
  | some l =>
    obtain ⟨t, h2, h3, h4⟩ := h2
    simp only at h1 h3 h4
    simp only [With.poll, if_neg (fits l), Raw.startSend]
    cases hr : (R.startSend st l.sendTo).1 with
    | ok =>
      refine .inl ⟨_, rfl, h1.snoc (by simp [Call.Failed]) (by simp) (fun _ _ _ => h3), rfl, ?_⟩
      simpa [handed_append, handed] using (h4.wrote h2).mono (Nat.le_succ N)
    | errDropped =>
      refine .inr ⟨_, rfl, h1.contract.snoc h1.nofail (fun _ _ _ => h3), by rw [← h1.flushed]; exact flushed_other _ (by simp), fails_snoc (by simp [Call.Failed]), ?_⟩
      simpa [handed_append, handed] using (h4.dropped h2).mono (Nat.le_succ N)
    | errAccepted =>
      refine .inr ⟨_, rfl, h1.contract.snoc h1.nofail (fun _ _ _ => h3), by rw [← h1.flushed]; exact flushed_other _ (by simp), fails_snoc (by simp [Call.Failed]), ?_⟩
      simpa [handed_append, handed] using (h4.accepted h2).mono (Nat.le_succ N)

theorem try_send {x : With σ} {t : Bytes} {l : ReplyLine}
    (hb : ReplyLine.build r.1 (if left.isEmpty then .yes else .no) t = .ok l) (h : Mid C incoming s u N F r a w (t :: left) x) :
    (∃ y, trySend R l left x = (.ready, ⟨none, left, y⟩) ∧ Mid C incoming s u N F r a w left y) ∨
    (∃ y, trySend R l left x = (.pending, ⟨some l, left, y⟩) ∧ Empty C incoming s u N F r a w (t :: left) y) ∨
      ∃ y, trySend R l left x = (.error, ⟨none, left, y⟩) ∧ Failed C incoming s u N F w y := by
  rcases with_poll (R := R) h with ⟨y, h1, h2, h3, h4⟩ | ⟨y, h1, h2⟩
  · obtain ⟨⟨st, log⟩, state⟩ := y
    cases h3
    simp only [trySend, With.pollReady, h1, Raw.pollReady]
    simp only at h2 h4
    cases hr : (R.pollReady st).1 with
    | ready =>
      refine .inl ⟨⟨⟨(R.pollReady st).2, log ++ [.ready .ready]⟩, some l⟩, by simp [Ans.res, With.startSend],
        h2.snoc (c := .ready .ready) (by simp [Call.Failed]) (by simp) (by simp), t, hb, List.suffix_append _ _, ?_⟩
      simpa [handed_append, handed] using h4
    | pending =>
      refine .inr (.inl ⟨⟨⟨(R.pollReady st).2, log ++ [.ready .pending]⟩, none⟩, by simp [Ans.res], h2.snoc (c := .ready .pending) (by simp [Call.Failed]) (by simp) (by simp), rfl, ?_⟩)
      simpa [handed_append, handed] using h4
    | error =>
      refine .inr (.inr ⟨⟨⟨(R.pollReady st).2, log ++ [.ready .error]⟩, none⟩, by simp [Ans.res],
        h2.contract.snoc h2.nofail (by simp), by rw [← h2.flushed]; exact flushed_other _ (by simp), fails_snoc (by simp [Call.Failed]), ?_⟩)
      simpa [handed_append, handed] using (h4.dropped hb).mono (Nat.le_succ N)
  · exact .inr (.inr ⟨y, by simp [trySend, With.pollReady, h1], h2⟩)

theorem send_all_loop {x : With σ} (h : Mid C incoming s u N F r a w left x) :
    Polled C incoming s u N F r a w (sendAllLoop R r.1 left x) := by
  induction left generalizing x with
  | nil =>
    simp only [sendAllLoop]
    rcases with_poll (R := R) h with ⟨y, h1, h2, h3, h4⟩ | ⟨y, h1, h2⟩
    · obtain ⟨⟨st, log⟩, state⟩ := y
      cases h3
      simp only [With.pollFlush, h1, Raw.pollFlush]
      simp only at h2 h4
      cases hr : (R.pollFlush st).1 with
      | ready =>
        refine ⟨⟨_, rfl⟩, h2.contract.snoc h2.nofail (by simp), h2.nofail.snoc (by simp [Call.Failed]), rfl, ?_⟩
        simpa [handed_append, handed] using h4.flushed
      | pending =>
        refine ⟨h2.snoc (c := .flush .pending) (by simp [Call.Failed]) (by simp) (by simp), rfl, ?_⟩
        simpa [handed_append, handed] using h4
      | error =>
        refine ⟨h2.contract.snoc h2.nofail (by simp), by rw [← h2.flushed]; exact flushed_other _ (by simp), fails_snoc (by simp [Call.Failed]), ?_⟩
        simpa [handed_append, handed] using h4.unflushed.mono (Nat.le_succ N)
    · simp only [With.pollFlush, h1]
      exact h2
  | cons t ts ih =>
    unfold sendAllLoop
    cases hb : ReplyLine.build r.1 (if ts.isEmpty then .yes else .no) t with
    | error e =>
      refine ⟨rfl, h.1.contract, h.1.flushed, ?_⟩
      obtain ⟨h1, h2⟩ := h
      obtain ⟨⟨st, log⟩, state⟩ := x
      cases state with
      | none => exact ⟨[], by simp, by simpa using (Covers.unbuildable h2 hb).mono (Nat.le_succ N)⟩
      | some l =>
        obtain ⟨t', h2, _, h4⟩ := h2
        exact ⟨[l.sendTo], by simp, ((h4.wrote h2).unbuildable hb).mono (by omega)⟩
    | ok l =>
      rcases try_send (R := R) hb h with ⟨y, h1, h2⟩ | ⟨y, h1, h2⟩ | ⟨y, h1, h2⟩
      · simp only [h1]; exact ih h2
      · simp only [h1]; exact ⟨t, hb, h2⟩
      · simp only [h1]; exact h2

/-! ### The session -/

/-- What holds after every poll. -/
def Sound (C : Config L S U) (incoming : List (SrcEv Bytes)) (s : S) (u : U) (N : Nat) (x : Live L S U σ) : Prop :=
  match x.pc with
  | .send r left a =>
    match x.buffered with
    | none => Empty C incoming s u N (outputOf x.w.trace) r a x.w left x.writer
    | some l => ∃ t, ReplyLine.build r.1 (if left.isEmpty then .yes else .no) t = .ok l ∧
        Empty C incoming s u N (outputOf x.w.trace) r a x.w (t :: left) x.writer
  | .over res => SinkContract x.log ∧ flushed x.log = outputOf x.w.trace ∧
      ∃ more g, more.length ≤ 1 ∧ (more ≠ [] → res = .panic .buildUnwrap) ∧ (NoFail x.log → g = true) ∧
        Covers C incoming s u N g (.over res) x.w (handed x.log ++ more)
  | pc => Base (outputOf x.w.trace) x.log ∧ x.writer.state = none ∧ x.buffered = none ∧ Covers C incoming s u N true pc x.w (handed x.log)

/-- The cases of `Sound` but for the sending of a reply. -/
theorem sound_of {x : Live L S U σ} (h1 : Base (outputOf x.w.trace) x.log) (h2 : x.writer.state = none) (h3 : x.buffered = none)
    (h4 : Covers C incoming s u N true x.pc x.w (handed x.log)) : Sound C incoming s u N x := by
  obtain ⟨pc, w, b, wr⟩ := x
  simp only at h1 h2 h3 h4
  subst h3
  cases pc with
  | send r left a => exact ⟨h1, h2, h4⟩
  | over r => exact ⟨h1.contract, h1.flushed, [], true, by simp, by simp, by simp, by rw [List.append_nil]; exact h4⟩
  | _ => exact ⟨h1, h2, rfl, h4⟩

theorem Covers.inv {g : Bool} {pc : PC L S U} {w : World L S U} {out} (h : Covers C incoming s u N g pc w out) :
    Inv [] (pc, { w with writer := ⟨out, []⟩ }) := by
  obtain ⟨n, q, _, _, h⟩ := h
  have := inv_after (C := C) incoming ⟨[], q⟩ s u n
  have h := h []
  rw [List.append_nil] at h
  unfold Task.after at this
  rwa [h] at this

private theorem dispatch_trace (w : World L S U) (l : Bytes) : (dispatch C w l).2.trace = w.trace := (grows_dispatch w l).1

/-- Only sending adds a reply to what has happened. -/
theorem step_outputOf {pc : PC L S U} (w : World L S U) (h : ∀ r left a, pc ≠ .send r left a) :
    outputOf (Task.step C (pc, w)).2.trace = outputOf w.trace := by
  cases pc with
  | send r left a => exact absurd rfl (h r left a)
  | over r => rfl
  | read buf =>
    simp only [Task.step]
    split
    · rfl
    · split
      · split
        · rw [dispatch_trace]; simp [outputOf]
        · rfl
      · rfl
    · split <;> rfl
  | newMail f => simp [Task.step, outputOf]
  | filterFrom f => simp only [Task.step]; split <;> simp [outputOf]
  | filterTo t m => simp only [Task.step]; split <;> simp [outputOf]
  | filterData m => simp only [Task.step]; split <;> simp [outputOf]
  | handle act hh d =>
    simp only [Task.step]
    split
    · rfl
    · split <;> rfl
    · split
      · simp [outputOf]
      · rfl

theorem sound_other {x : Live L S U σ} (hp : ∀ r left a, x.pc ≠ .send r left a) (ho : ∀ r, x.pc ≠ .over r)
    (h : Sound C incoming s u N x) : Sound C incoming s u (N + 1) (x.step R C) := by
  obtain ⟨pc, w, b, wr⟩ := x
  have key : Base (outputOf w.trace) wr.sink.log → wr.state = none → b = none → Covers C incoming s u N true pc w (handed wr.sink.log) →
      Sound C incoming s u (N + 1) (⟨(Task.step C (pc, w)).1, (Task.step C (pc, w)).2, b, wr⟩ : Live L S U σ) := by
    intro h1 h2 h3 h4
    refine sound_of ?_ h2 h3 (h4.other hp)
    rw [step_outputOf w hp]
    exact h1
  cases pc with
  | send r left a => exact absurd rfl (hp r left a)
  | over r => exact absurd rfl (ho r)
  | _ => obtain ⟨h1, h2, h3, h4⟩ := h; exact key h1 h2 h3 h4

/-- The session goes on after a reply. -/
theorem sound_resumed {r : Reply} {a : After L} {w : World L S U} {F : List Bytes} {y : SendAll σ} (h : Polled C incoming s u N F r a w (.ready, y)) :
    Sound C incoming s u (N + 1) (⟨(resume C { w with trace := w.trace ++ [.reply r] } a).1,
      (resume C { w with trace := w.trace ++ [.reply r] } a).2, none, y.writer⟩ : Live L S U σ) := by
  obtain ⟨⟨log, h1⟩, h2, h3, h4, h5⟩ := h
  refine sound_of ⟨h2, h3, ?_⟩ h4 rfl h5
  show flushed y.writer.sink.log = outputOf (resume C _ a).2.trace
  have hi := h5.inv
  rw [h1] at hi ⊢
  rw [flushed_ready]
  simp only [handed_append, handed, List.append_nil] at hi
  cases a with
  | next => simpa [Task.Inv, Settled, resume] using hi.1
  | setMail m => simpa [Task.Inv, Settled, resume] using hi.1
  | handle m => simpa [Task.Inv, Settled, resume] using hi.1

theorem Sound.mono {N' : Nat} {x : Live L S U σ} (h : Sound C incoming s u N x) (hN : N' ≤ N) : Sound C incoming s u N' x := by
  obtain ⟨pc, w, b, wr⟩ := x
  cases pc with
  | send r left a =>
    cases b with
    | none => exact ⟨h.1, h.2.1, h.2.2.mono hN⟩
    | some l => obtain ⟨t, hb, h⟩ := h; exact ⟨t, hb, h.1, h.2.1, h.2.2.mono hN⟩
  | over r => obtain ⟨h1, h2, more, g, h3, h4, h5, h6⟩ := h; exact ⟨h1, h2, more, g, h3, h4, h5, h6.mono hN⟩
  | _ => exact ⟨h.1, h.2.1, h.2.2.1, h.2.2.2.mono hN⟩

theorem sound_polled {r : Reply} {a : After L} {w : World L S U} {left : List Bytes} {b : Option ReplyLine} {wr : With σ}
    (h : Polled C incoming s u N (outputOf w.trace) r a w (SendAll.poll R r.1 ⟨b, left, wr⟩)) :
    Sound C incoming s u N ((⟨.send r left a, w, b, wr⟩ : Live L S U σ).step R C) := by
  simp only [Live.step]
  generalize SendAll.poll R r.1 ⟨b, left, wr⟩ = res at h ⊢
  obtain ⟨res, y⟩ := res
  cases res with
  | ready =>
    exact (sound_resumed h).mono (Nat.le_succ N)
  | pending => exact h
  | error =>
    obtain ⟨h1, h2, h0, h3⟩ := h
    exact ⟨h1, by rw [outputOf_append]; simpa [outputOf, Live.log] using h2, [], false, by simp, by simp, fun h => absurd h h0,
      by rw [List.append_nil]; exact h3⟩
  | panic p =>
    obtain ⟨rfl, h1, h2, more, h3, h4⟩ := h
    exact ⟨h1, h2, more, true, h3, fun _ => rfl, fun _ => rfl, h4⟩

theorem sound_send {x : Live L S U σ} {r : Reply} {left : List Bytes} {a : After L} (h : Sound C incoming s u N x) (hp : x.pc = .send r left a) :
    Polled C incoming s u N (outputOf x.w.trace) r a x.w (SendAll.poll R r.1 ⟨x.buffered, left, x.writer⟩) := by
  obtain ⟨pc, w, b, wr⟩ := x
  subst hp
  cases b with
  | none =>
    obtain ⟨h1, h2, h3⟩ := h
    refine send_all_loop ⟨h1, ?_⟩
    simp only at h2 h3 ⊢
    rw [h2]
    exact h3
  | some l =>
    obtain ⟨t, hb, h1, h2, h3⟩ := h
    simp only at h1 h2 h3 hb
    have hm : Mid C incoming s u N (outputOf w.trace) r a w (t :: left) wr := by
      refine ⟨h1, ?_⟩
      rw [h2]
      exact h3
    rcases try_send (R := R) hb hm with ⟨y, k1, k2⟩ | ⟨y, k1, k2⟩ | ⟨y, k1, k2⟩
    · simp only [SendAll.poll, k1]; exact send_all_loop k2
    · simp only [SendAll.poll, k1]; exact ⟨t, hb, k2⟩
    · simp only [SendAll.poll, k1]; exact k2

theorem sound_step {x : Live L S U σ} (h : Sound C incoming s u N x) : Sound C incoming s u N (x.step R C) := by
  by_cases hp : ∃ r left a, x.pc = .send r left a
  · obtain ⟨r, left, a, hp⟩ := hp
    have hx := sound_send (R := R) h hp
    obtain ⟨pc, w, b, wr⟩ := x
    subst hp
    exact sound_polled hx
  · by_cases ho : ∃ r, x.pc = .over r
    · obtain ⟨r, ho⟩ := ho
      obtain ⟨pc, w, b, wr⟩ := x
      subst ho
      exact h
    · exact (sound_other (fun r left a h => hp ⟨r, left, a, h⟩) (fun r h => ho ⟨r, h⟩) h).mono (Nat.le_succ N)

theorem sound_after (R : RawSink σ) (C : Config L S U) (incoming : List (SrcEv Bytes)) (st : σ) (s : S) (u : U) (n : Nat) :
    Sound C incoming s u 0 (Live.after R C incoming st s u n) := by
  induction n with
  | zero =>
    refine sound_of ⟨⟨by simp [Live.after, Live.init, Live.log], by simp [Live.after, Live.init, Live.log]⟩, by simp [NoFail, Live.after, Live.init, Live.log], rfl⟩ rfl rfl ?_
    exact ⟨0, [], Nat.le_refl 0, by simp, fun p => rfl⟩
  | succ n ih => exact sound_step ih

/-! ### A sink that does not make the server wait for ever -/

/-- How many lines are still to be given to `With`. -/
def items (x : SendAll σ) : Nat := x.left.length + x.buffered.toList.length

theorem with_poll_willing {wait : σ → Nat} (hw : Willing R wait) (x : With σ) (hn : NoFail x.sink.log) :
    ∃ y, x.poll R = (.ready, y) ∧ NoFail y.sink.log ∧ (x.state = none → y = x) := by
  obtain ⟨⟨st, log⟩, state⟩ := x
  cases state with
  | none => exact ⟨_, rfl, hn, fun _ => rfl⟩
  | some l =>
    simp only [With.poll, if_neg (fits l), Raw.startSend, hw.start st]
    exact ⟨_, rfl, hn.snoc (by simp [Call.Failed]), by simp⟩

theorem try_send_willing {wait : σ → Nat} (hw : Willing R wait) (l : ReplyLine) (left : List Bytes) (x : With σ)
    (hn : NoFail x.sink.log) :
    ((∃ y, trySend R l left x = (.ready, ⟨none, left, y⟩) ∧ NoFail y.sink.log) ∨
      ∃ y, trySend R l left x = (.pending, ⟨some l, left, y⟩) ∧ NoFail y.sink.log ∧ (x.state = none → wait y.sink.st < wait x.sink.st)) ∨
      ∃ y p, trySend R l left x = (.panic p, ⟨none, left, y⟩) ∧ NoFail y.sink.log := by
  obtain ⟨y, h1, h2, h3⟩ := with_poll_willing hw x hn
  obtain ⟨⟨st, log⟩, state⟩ := y
  simp only [trySend, With.pollReady, h1, Raw.pollReady]
  obtain ⟨k1, k2⟩ := hw.ready st
  cases hr : (R.pollReady st).1 with
  | ready =>
    have h2 := h2.snoc (c := .ready .ready) (by simp [Call.Failed])
    simp only [Ans.res, With.startSend]
    cases hs : state with
    | none => exact .inl (.inl ⟨_, rfl, h2⟩)
    | some l' => exact .inr ⟨_, _, rfl, h2⟩
  | pending =>
    refine .inl (.inr ⟨_, rfl, h2.snoc (c := .ready .pending) (by simp [Call.Failed]), fun hx => ?_⟩)
    have := h3 hx
    rw [← this]
    exact k2 hr
  | error => exact absurd hr k1

theorem loop_willing {wait : σ → Nat} (hw : Willing R wait) (code : ReplyCode) (left : List Bytes) (x : With σ) (hn : NoFail x.sink.log) :
    (sendAllLoop R code left x).1 ≠ .error ∧ NoFail (sendAllLoop R code left x).2.writer.sink.log ∧
      ((sendAllLoop R code left x).1 = .pending → items (sendAllLoop R code left x).2 ≤ left.length ∧
        (x.state = none → items (sendAllLoop R code left x).2 = left.length →
          wait (sendAllLoop R code left x).2.writer.sink.st < wait x.sink.st)) := by
  induction left generalizing x with
  | nil =>
    obtain ⟨y, h1, h2, h3⟩ := with_poll_willing hw x hn
    obtain ⟨⟨st, log⟩, state⟩ := y
    simp only [sendAllLoop, With.pollFlush, h1, Raw.pollFlush]
    obtain ⟨k1, k2⟩ := hw.flush st
    cases hr : (R.pollFlush st).1 with
    | ready => exact ⟨by simp [Ans.res], h2.snoc (by simp [Call.Failed]), by simp [Ans.res]⟩
    | pending =>
      refine ⟨by simp [Ans.res], h2.snoc (by simp [Call.Failed]), fun _ => ⟨by simp [items], fun hx _ => ?_⟩⟩
      have := h3 hx
      rw [← this]
      exact k2 hr
    | error => exact absurd hr k1
  | cons t ts ih =>
    unfold sendAllLoop
    cases hb : ReplyLine.build code (if ts.isEmpty then .yes else .no) t with
    | error e => exact ⟨by simp, hn, by simp⟩
    | ok l =>
      simp only
      rcases try_send_willing hw l ts x hn with (⟨y, h1, h2⟩ | ⟨y, h1, h2, h3⟩) | ⟨y, p, h1, h2⟩
      · simp only [h1]
        obtain ⟨i1, i2, i3⟩ := ih y h2
        refine ⟨i1, i2, fun hp => ?_⟩
        have := (i3 hp).1
        simp only [List.length_cons]
        exact ⟨by omega, fun _ _ => by omega⟩
      · simp only [h1]
        refine ⟨by simp, h2, fun _ => ⟨by simp [items], fun hx _ => h3 hx⟩⟩
      · simp only [h1]
        exact ⟨by simp, h2, by simp⟩

theorem poll_willing {wait : σ → Nat} (hw : Willing R wait) (code : ReplyCode) (x : SendAll σ) (hn : NoFail x.writer.sink.log) :
    (SendAll.poll R code x).1 ≠ .error ∧ NoFail (SendAll.poll R code x).2.writer.sink.log ∧
      (x.writer.state = none → (SendAll.poll R code x).1 = .pending → items (SendAll.poll R code x).2 < items x ∨
        (items (SendAll.poll R code x).2 = items x ∧ wait (SendAll.poll R code x).2.writer.sink.st < wait x.writer.sink.st)) := by
  obtain ⟨b, left, wr⟩ := x
  cases b with
  | none =>
    obtain ⟨i1, i2, i3⟩ := loop_willing hw code left wr hn
    refine ⟨i1, i2, fun hs hp => ?_⟩
    obtain ⟨i4, i5⟩ := i3 hp
    simp only [SendAll.poll]
    have e : items (⟨none, left, wr⟩ : SendAll σ) = left.length := by simp [items]
    rw [e]
    rcases Nat.lt_or_eq_of_le i4 with h | h
    · exact .inl h
    · exact .inr ⟨h, i5 hs h⟩
  | some l =>
    have e : items (⟨some l, left, wr⟩ : SendAll σ) = left.length + 1 := by simp [items]
    rw [e]
    simp only [SendAll.poll]
    rcases try_send_willing hw l left wr hn with (⟨y, h1, h2⟩ | ⟨y, h1, h2, h3⟩) | ⟨y, p, h1, h2⟩
    · simp only [h1]
      obtain ⟨i1, i2, i3⟩ := loop_willing hw code left y h2
      exact ⟨i1, i2, fun _ hp => .inl (by have := (i3 hp).1; omega)⟩
    · simp only [h1]
      exact ⟨by simp, h2, fun hs _ => .inr ⟨by simp [items], h3 hs⟩⟩
    · simp only [h1]
      exact ⟨by simp, h2, by simp⟩

theorem live_nofail {wait : σ → Nat} (hw : Willing R wait) (st : σ) (n : Nat) : NoFail (Live.after R C incoming st s u n).log := by
  induction n with
  | zero => simp [NoFail, Live.after, Live.init, Live.log]
  | succ n ih =>
    show NoFail ((Live.after R C incoming st s u n).step R C).log
    generalize Live.after R C incoming st s u n = x at ih
    obtain ⟨pc, w, b, wr⟩ := x
    cases pc with
    | send r left a =>
      have := (poll_willing hw r.1 ⟨b, left, wr⟩ ih).2.1
      simp only [Live.step]
      split <;> (rename_i y hy; rw [hy] at this; exact this)
    | _ => exact ih

/-- A reply is sent in the end, or cannot be. -/
theorem leaves_send {wait : σ → Nat} (hw : Willing R wait) (st : σ) (N n : Nat)
    (h : Sound C incoming s u N (Live.after R C incoming st s u n)) :
    ∃ m, Sound C incoming s u N (Live.after R C incoming st s u m) ∧ ∀ r left a, (Live.after R C incoming st s u m).pc ≠ .send r left a := by
  have key : ∀ (i j n : Nat), Sound C incoming s u N (Live.after R C incoming st s u n) →
      (∀ r left a, (Live.after R C incoming st s u n).pc = .send r left a →
        items ⟨(Live.after R C incoming st s u n).buffered, left, (Live.after R C incoming st s u n).writer⟩ = i) →
      wait (Live.after R C incoming st s u n).writer.sink.st = j →
      ∃ m, Sound C incoming s u N (Live.after R C incoming st s u m) ∧
        ∀ r left a, (Live.after R C incoming st s u m).pc ≠ .send r left a := by
    intro i
    induction i using Nat.strongRecOn with
    | ind i ihi =>
      intro j
      induction j using Nat.strongRecOn with
      | ind j ihj =>
        intro n hS hi hj
        by_cases hp : ∃ r left a, (Live.after R C incoming st s u n).pc = .send r left a
        · obtain ⟨r, left, a, hp⟩ := hp
          have hi := hi r left a hp
          have hS' := sound_step (R := R) hS
          have hn := live_nofail (C := C) (incoming := incoming) (s := s) (u := u) hw st n
          have hst : (Live.after R C incoming st s u n).writer.state = none := by
            unfold Sound at hS
            rw [hp] at hS
            simp only at hS
            split at hS
            · exact hS.2.1
            · obtain ⟨t, _, hS⟩ := hS; exact hS.2.1
          have hpw := poll_willing hw r.1 ⟨(Live.after R C incoming st s u n).buffered, left, (Live.after R C incoming st s u n).writer⟩ hn
          have hx : (Live.after R C incoming st s u (n + 1)) = (Live.after R C incoming st s u n).step R C := rfl
          rw [← hx] at hS'
          by_cases hq : ∃ r left a, (Live.after R C incoming st s u (n + 1)).pc = .send r left a
          · obtain ⟨r', left', a', hq⟩ := hq
            rcases hpoll : SendAll.poll R r.1 ⟨(Live.after R C incoming st s u n).buffered, left,
              (Live.after R C incoming st s u n).writer⟩ with ⟨res, y⟩
            rw [hpoll] at hpw
            cases res with
            | pending =>
              have e : Live.after R C incoming st s u (n + 1) =
                  { pc := .send r y.left a, w := (Live.after R C incoming st s u n).w, buffered := y.buffered, writer := y.writer } := by
                rw [hx]; simp only [Live.step, hp, hpoll]
              have ei : ∀ r left a, (Live.after R C incoming st s u (n + 1)).pc = .send r left a →
                  items ⟨(Live.after R C incoming st s u (n + 1)).buffered, left, (Live.after R C incoming st s u (n + 1)).writer⟩ =
                    items y := by
                intro r2 left2 a2 h2
                rw [e] at h2 ⊢
                cases h2
                rfl
              rcases hpw.2.2 hst rfl with hlt | ⟨heq, hlt⟩
              · exact ihi (items y) (by rw [← hi]; exact hlt) _ (n + 1) hS' ei rfl
              · refine ihj (wait y.writer.sink.st) (by rw [← hj]; exact hlt) (n + 1) hS' ?_ (by rw [e])
                intro r2 left2 a2 h2
                rw [ei r2 left2 a2 h2, ← hi]
                exact heq
            | ready =>
              have : (Live.after R C incoming st s u (n + 1)).pc = (resume C { (Live.after R C incoming st s u n).w with
                  trace := (Live.after R C incoming st s u n).w.trace ++ [.reply r] } a).1 := by
                rw [hx]; simp only [Live.step, hp, hpoll]
              rw [hq] at this
              cases a <;> cases this
            | error => exact absurd rfl hpw.1
            | panic p =>
              have : (Live.after R C incoming st s u (n + 1)).pc = .over (.panic p) := by
                rw [hx]; simp only [Live.step, hp, hpoll]
              rw [hq] at this
              cases this
          · exact ⟨n + 1, hS', fun r left a h => hq ⟨r, left, a, h⟩⟩
        · exact ⟨n, hS, fun r left a h => hp ⟨r, left, a, h⟩⟩
  by_cases hp : ∃ r left a, (Live.after R C incoming st s u n).pc = .send r left a
  · obtain ⟨r, left, a, hp⟩ := hp
    refine key (items ⟨(Live.after R C incoming st s u n).buffered, left, (Live.after R C incoming st s u n).writer⟩) _ n h
      (fun r' left' a' h' => ?_) rfl
    rw [hp] at h'
    cases h'
    rfl
  · exact ⟨n, h, fun r left a h => hp ⟨r, left, a, h⟩⟩

/-- The session gets as far as one likes, or ends. -/
theorem gets_far {wait : σ → Nat} (hw : Willing R wait) (st : σ) (N : Nat) :
    ∃ m, (Sound C incoming s u N (Live.after R C incoming st s u m)) ∨ ∃ r, (Live.after R C incoming st s u m).pc = .over r := by
  induction N with
  | zero => exact ⟨0, .inl (sound_after R C incoming st s u 0)⟩
  | succ N ih =>
    obtain ⟨m, h | h⟩ := ih
    · obtain ⟨m, h1, h2⟩ := leaves_send hw st N m h
      by_cases ho : ∃ r, (Live.after R C incoming st s u m).pc = .over r
      · exact ⟨m, .inr ho⟩
      · exact ⟨m + 1, .inl (sound_other h2 (fun r h => ho ⟨r, h⟩) h1)⟩
    · exact ⟨m, .inr h⟩

/-- A writer that does not fail. -/
theorem ok_step (x : State L S U) (h : ∀ a ∈ x.2.writer.plan, a = .ok) :
    (∀ a ∈ (Task.step C x).2.writer.plan, a = .ok) ∧ Task.step C (withPlan x []) = withPlan (Task.step C x) [] := by
  obtain ⟨pc, w⟩ := x
  by_cases hp : ∃ r left a, pc = .send r left a
  · obtain ⟨r, left, a, rfl⟩ := hp
    obtain ⟨rd, ⟨out, plan⟩, s, u, m, tr⟩ := w
    simp only at h
    cases left with
    | nil =>
      match plan with
      | [] =>
        refine ⟨by cases a <;> simp [Task.step, flush, resume], ?_⟩
        exact resume_withPlan (C := C) ⟨rd, ⟨out, []⟩, s, u, m, tr ++ [.reply r]⟩ [] a
      | .ok :: p =>
        refine ⟨?_, by exact resume_withPlan (C := C) ⟨rd, ⟨out, p⟩, s, u, m, tr ++ [.reply r]⟩ [] a⟩
        have h' : ∀ a ∈ p, a = .ok := fun a ha => h a (by simp [ha])
        cases a <;> simpa [Task.step, flush, resume] using h'
      | .errDropped :: p => simp at h
      | .errAccepted :: p => simp at h
    | cons t ts =>
      cases hb : ReplyLine.build r.1 (if ts.isEmpty then .yes else .no) t with
      | error e => simp only [Task.step, withPlan, hb]; exact ⟨h, trivial⟩
      | ok l =>
        match plan with
        | [] => simp only [Task.step, hb, writeLine, if_neg (fits l), BSink.send, withPlan, if_true]; exact ⟨h, trivial⟩
        | .ok :: p =>
          simp only [Task.step, hb, writeLine, if_neg (fits l), BSink.send, withPlan, if_true]
          exact ⟨fun a ha => h a (by simp [ha]), trivial⟩
        | .errDropped :: p => simp at h
        | .errAccepted :: p => simp at h
  · have hp : ∀ r left a, pc ≠ .send r left a := fun r left a h => hp ⟨r, left, a, h⟩
    have e1 := step_writer (C := C) w w.writer hp
    have e2 := step_writer (C := C) w ⟨w.writer.out, []⟩ hp
    have e3 : (Task.step C (pc, w)).2.writer = w.writer := by
      have : ({ w with writer := w.writer } : World L S U) = w := rfl
      rw [this] at e1
      rw [e1]
    exact ⟨by rw [e3]; exact h, by rw [withPlan, e2, withPlan, e3]⟩

theorem ok_steps (n : Nat) (x : State L S U) (h : ∀ a ∈ x.2.writer.plan, a = .ok) :
    steps C n (withPlan x []) = withPlan (steps C n x) [] := by
  have key : (∀ a ∈ (steps C n x).2.writer.plan, a = .ok) ∧ steps C n (withPlan x []) = withPlan (steps C n x) [] := by
    induction n with
    | zero => exact ⟨h, rfl⟩
    | succ n ih =>
      rw [steps_succ, steps_succ, ih.2]
      exact ok_step _ ih.1
  exact key.2

end SinkPoll
end Verif
