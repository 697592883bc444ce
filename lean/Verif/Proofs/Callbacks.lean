import Verif.Spec.Callbacks
import Verif.Proofs.Task
/-
Simulation: a session with callbacks that take their time is one with callbacks that do everything in one go, with pauses.
-/
namespace Verif.Callbacks
open Spec
variable {L : IpLib} {S U : Type} {D : Slow L S U} {C : Config L S U} {P : S × U → S × U → Prop}

/-- Equal but for what a callback may change. -/
def Near (w w' : World L S U) : Prop := w.reader = w'.reader ∧ w.writer = w'.writer ∧ w.trace = w'.trace

/-- The states that correspond to each other. -/
inductive Rel (D : Slow L S U) (C : Config L S U) (P : S × U → S × U → Prop) : State L S U → Task.State L S U → Prop
  | read {buf w} : Rel D C P (.read buf, w) (.read buf, w)
  | send {r l a w} : Rel D C P (.send r l a, w) (.send r l a, w)
  | over {r w} : Rel D C P (.over r, w) (.over r, w)
  | newMail {f s0 n w} : (∀ k, k < n → (D.newMail s0 k).2 = .pending) → P (s0, w.conn) (w.cfg, w.conn) →
      Rel D C P (.newMail f s0 n, w) (.newMail f, { w with cfg := s0 })
  | filterFrom {f s0 u0 n w} : (∀ k, k < n → (D.filterFrom s0 u0 f k).2 = .pending) → P (s0, u0) (w.cfg, w.conn) →
      Rel D C P (.filterFrom f s0 u0 n, w) (.filterFrom f, { w with cfg := s0, conn := u0 })
  | filterTo {t m s0 u0 n w} : (∀ k, k < n → (D.filterTo s0 u0 t m k).2 = .pending) → w.mail.isSome → P (s0, u0) (w.cfg, w.conn) →
      Rel D C P (.filterTo t m s0 u0 n, w) (.filterTo t m, { w with cfg := s0, conn := u0, mail := some m })
  | filterData {m s0 u0 n w} : (∀ k, k < n → (D.filterData s0 u0 m k).2 = .pending) → P (s0, u0) (w.cfg, w.conn) →
      Rel D C P (.filterData m s0 u0 n, w) (.filterData m, { w with cfg := s0, conn := u0 })
  | handle {m s0 u0 h n d w} : (∀ k, k < n → (D.handleMail s0 u0 m h k).2 = .pending) → P (s0, u0) (w.cfg, w.conn) →
      Rel D C P (.handle m s0 u0 h n d, w) (.handle (C.handleMail s0 u0 m) h d, { w with cfg := s0, conn := u0 })
  | failed {p w w'} : Near w w' → P (w'.cfg, w'.conn) (w.cfg, w.conn) → Rel D C P (.over (.panic p), w) (.over (.panic p), w')
  | unwound {p w w'} : SamePlace (.unwound : PC L S U) p → Near w w' → P (w'.cfg, w'.conn) (w.cfg, w.conn) → Rel D C P (.unwound, w) (p, w')

theorem rel_reply (r : Reply) (a : Task.After L) (w : World L S U) : Rel D C P (reply r a, w) (Task.reply r a, w) := by
  unfold reply Task.reply
  cases byteChunks r.2 ReplyLine.maxLen with
  | none => exact .over
  | some cs => exact .send

theorem rel_resume (hP : Effects D P) (w : World L S U) (a : Task.After L) : Rel D C P (resume w a) (Task.resume C w a) := by
  cases a with
  | next => exact .read
  | setMail m => exact .read
  | handle m => exact .handle (w := { w with trace := w.trace ++ [.handleMail m] }) (by simp) (hP.same _)

theorem rel_dispatch (h : AmountsTo D C) (hP : Effects D P) (w : World L S U) (l : Bytes) : Rel D C P (dispatch D w l) (Task.dispatch C w l) := by
  obtain ⟨_, _, _, _, _, r6, r7, r8, r9, r10, r11⟩ := h.replies w.cfg
  unfold dispatch Task.dispatch
  rw [r6, r7, r8, r9, r10, r11]
  obtain ⟨rd, wr, s, u, mail, tr⟩ := w
  cases (Command.parse l : Except ParseErr (Command L)) with
  | error e => exact rel_reply _ _ _
  | ok c =>
    cases c with
    | mail f ps =>
      cases mail with
      | none => exact .newMail (w := ⟨rd, wr, s, u, none, tr⟩) (fun k hk => by omega) (hP.same _)
      | some m => exact rel_reply _ _ _
    | rcpt t ps =>
      cases mail with
      | none => exact rel_reply _ _ _
      | some m => exact .filterTo (w := ⟨rd, wr, s, u, some m, tr⟩) (fun k hk => by omega) rfl (hP.same _)
    | data =>
      cases mail with
      | none => exact rel_reply _ _ _
      | some m =>
        dsimp only
        split
        · exact rel_reply _ _ _
        · exact .filterData (w := ⟨rd, wr, s, u, none, tr⟩) (fun k hk => by omega) (hP.same _)
    | _ => exact rel_reply _ _ _

theorem later {σ α : Type} {f : Nat → σ × Ans α} {n : Nat} (h : ∀ k, k < n → (f k).2 = .pending) (hn : (f n).2 = .pending) :
    ∀ k, k < n + 1 → (f k).2 = .pending := by
  intro k hk
  rcases Nat.lt_succ_iff_lt_or_eq.1 hk with h1 | rfl
  · exact h k h1
  · exact hn

/-- Inside a callback that does not answer when it is polled next, or that has panicked. -/
def Waits (D : Slow L S U) : PC L S U → Prop
  | .newMail _ s n => ∀ a, (D.newMail s n).2 ≠ .ready a
  | .filterFrom f s u n => ∀ a, (D.filterFrom s u f n).2 ≠ .ready a
  | .filterTo t m s u n => ∀ a, (D.filterTo s u t m n).2 ≠ .ready a
  | .filterData m s u n => ∀ a, (D.filterData s u m n).2 ≠ .ready a
  | .handle m s u h n _ => ∀ a, (D.handleMail s u m h n).2 ≠ .ready a
  | .unwound => True
  | _ => False

/-- One step: the callback pauses (or dies), or both go on. -/
theorem rel_step (h : AmountsTo D C) (hP : Effects D P) {x : State L S U} {y : Task.State L S U} (hr : Rel D C P x y) :
    (Rel D C P (step D x) y ∧ Waits D x.1) ∨ Rel D C P (step D x) (Task.step C y) := by
  cases hr with
  | @read buf w =>
    right
    simp only [step, Task.step]
    rcases w.reader.pollNext with ⟨(_ | pkt) | _, s⟩
    · dsimp only
      cases s.prepend buf with
      | none => exact .over
      | some s' => exact .over
    · dsimp only
      cases findCrlf (buf ++ pkt) with
      | none => exact .read
      | some pos =>
        dsimp only
        cases s.prepend ((buf ++ pkt).drop (pos + 2)) with
        | none => exact .over
        | some s' => exact rel_dispatch h hP _ _
    · exact .read
  | @send r l a w =>
    right
    cases l with
    | nil =>
      simp only [step, Task.step]
      rcases Server.flush w with ⟨_ | _ | _ | _, w'⟩
      · exact rel_resume hP _ _
      · exact .over
      · exact .over
      · exact .over
    | cons t ts =>
      simp only [step, Task.step]
      cases ReplyLine.build r.1 (if ts.isEmpty then .yes else .no) t with
      | error e => exact .over
      | ok l =>
        dsimp only
        rcases Server.writeLine l w with ⟨_ | _ | _ | _, w'⟩
        · exact .send
        · exact .over
        · exact .over
        · exact .over
  | over => right; exact .over
  | @newMail f s0 n w hp _ =>
    have hk := hP.newMail s0 w.conn n
    simp only [step]
    split
    · rename_i s e
      rw [e] at hk
      exact .inl ⟨.newMail (w := { w with cfg := s }) (later hp (by rw [e])) hk, by simp [Waits, e]⟩
    · rename_i s e
      rw [e] at hk
      exact .inl ⟨.unwound trivial ⟨rfl, rfl, rfl⟩ hk, by simp [Waits, e]⟩
    · rename_i s a e
      have := h.newMail s0 n s a ⟨e, hp⟩
      right
      simp only [Task.step, this]
      exact .filterFrom (w := { w with cfg := s, trace := w.trace ++ [.newMail] }) (by simp) (hP.same _)
  | @filterFrom f s0 u0 n w hp _ =>
    have hk := hP.filterFrom s0 u0 f n
    simp only [step]
    split
    · rename_i s u e
      rw [e] at hk
      exact .inl ⟨.filterFrom (w := { w with cfg := s, conn := u }) (later hp (by rw [e])) hk, by simp [Waits, e]⟩
    · rename_i s u e
      rw [e] at hk
      exact .inl ⟨.unwound trivial ⟨rfl, rfl, rfl⟩ hk, by simp [Waits, e]⟩
    · rename_i s u f' e
      have := h.filterFrom s0 u0 f n s u _ f' ⟨e, hp⟩
      right
      simp only [Task.step, this, (h.replies s).2.1]
      exact rel_reply _ _ _
    · rename_i s u r f' e
      have := h.filterFrom s0 u0 f n s u _ f' ⟨e, hp⟩
      right
      simp only [Task.step, this]
      exact rel_reply _ _ _
  | @filterTo t m s0 u0 n w hp hm _ =>
    have hk := hP.filterTo s0 u0 t m n
    simp only [step]
    split
    · rename_i s u m' e
      rw [e] at hk
      exact .inl ⟨.filterTo (w := { w with cfg := s, conn := u, mail := some m' }) (later hp (by rw [e])) rfl hk, by simp [Waits, e]⟩
    · rename_i s u m' e
      rw [e] at hk
      exact .inl ⟨.unwound trivial ⟨rfl, rfl, rfl⟩ hk, by simp [Waits, e]⟩
    · rename_i s u m' t' e
      have := h.filterTo s0 u0 t m n s u m' _ t' ⟨e, hp⟩
      right
      simp only [Task.step, this, (h.replies s).2.2.1]
      exact rel_reply _ _ _
    · rename_i s u m' r t' e
      have := h.filterTo s0 u0 t m n s u m' _ t' ⟨e, hp⟩
      right
      simp only [Task.step, this]
      exact rel_reply _ _ _
  | @filterData m s0 u0 n w hp _ =>
    have hk := hP.filterData s0 u0 m n
    simp only [step]
    split
    · rename_i s u e
      rw [e] at hk
      exact .inl ⟨.filterData (w := { w with cfg := s, conn := u }) (later hp (by rw [e])) hk, by simp [Waits, e]⟩
    · rename_i s u e
      rw [e] at hk
      exact .inl ⟨.unwound trivial ⟨rfl, rfl, rfl⟩ hk, by simp [Waits, e]⟩
    · rename_i s u m' e
      have := h.filterData s0 u0 m n s u _ m' ⟨e, hp⟩
      right
      simp only [Task.step, this, (h.replies s).2.2.2.1]
      exact rel_reply _ _ _
    · rename_i s u r m' e
      have := h.filterData s0 u0 m n s u _ m' ⟨e, hp⟩
      right
      simp only [Task.step, this]
      exact rel_reply _ _ _
  | @handle m s0 u0 hist n d w hp _ =>
    have hk := hP.handleMail s0 u0 m hist n
    simp only [step]
    split
    · rename_i s u e
      rw [e] at hk
      exact .inl ⟨.handle (w := { w with cfg := s, conn := u }) (later hp (by rw [e])) hk, by simp [Waits, e]⟩
    · rename_i s u e
      rw [e] at hk
      exact .inl ⟨.unwound trivial ⟨rfl, rfl, rfl⟩ hk, by simp [Waits, e]⟩
    · rename_i s u e
      rw [e] at hk
      have := h.polls s0 u0 m hist n _ ⟨e, hp⟩
      right
      simp only [Task.step, this]
      exact .handle (w := { w with cfg := s, conn := u }) (by simp) hk
    · rename_i s u e
      rw [e] at hk
      have := h.completes s0 u0 m hist n _ ⟨e, hp⟩
      right
      simp only [Task.step, this]
      rcases d.complete with p | ⟨ok, d'⟩
      · exact .failed ⟨rfl, rfl, rfl⟩ hk
      · exact .handle (w := { w with cfg := s, conn := u }) (fun k hk => by omega) hk
    · rename_i s u dec e
      rw [e] at hk
      have := h.done s0 u0 m hist n s u dec ⟨e, hp⟩
      right
      simp only [Task.step, this, (h.replies s).2.2.2.2.1]
      split
      · exact rel_reply _ _ _
      · exact .failed ⟨rfl, rfl, rfl⟩ hk
  | failed hn hk => right; exact .failed hn hk
  | unwound hp hn hk => left; exact ⟨.unwound hp hn hk, trivial⟩

theorem steps_succ (D : Slow L S U) (n : Nat) (x : State L S U) : steps D (n + 1) x = step D (steps D n x) := by
  induction n generalizing x with
  | zero => rfl
  | succ n ih => exact ih (step D x)

theorem steps_add (D : Slow L S U) (m n : Nat) (x : State L S U) : steps D (m + n) x = steps D n (steps D m x) := by
  induction m generalizing x with
  | zero => rw [Nat.zero_add]; rfl
  | succ m ih => rw [Nat.succ_add]; exact ih _

theorem rel_init (h : AmountsTo D C) (incoming : List (SrcEv Bytes)) (outgoing : BSink) (s : S) (u : U) :
    Rel D C P (init D incoming outgoing s u) (Task.init C incoming outgoing s u) := by
  unfold init Task.init
  rw [(h.replies s).1]
  exact rel_reply _ _ _

theorem rel_after (h : AmountsTo D C) (hP : Effects D P) (incoming : List (SrcEv Bytes)) (outgoing : BSink) (s : S) (u : U) (n : Nat) :
    ∃ m, m ≤ n ∧ Rel D C P (after D incoming outgoing s u n) (Task.after C incoming outgoing s u m) := by
  induction n with
  | zero => exact ⟨0, Nat.le_refl _, rel_init h _ _ _ _⟩
  | succ n ih =>
    obtain ⟨m, hm, ih⟩ := ih
    rw [after, steps_succ]
    rcases rel_step h hP ih with h1 | h1
    · exact ⟨m, by omega, h1.1⟩
    · exact ⟨m + 1, by omega, by rw [Task.after, Task.steps_succ]; exact h1⟩

/-! ### Callbacks that all answer -/

/-- The callback the session is in answers after `k` more polls. -/
def Left (D : Slow L S U) : PC L S U → Nat → Prop
  | .newMail _ s n, k => ∃ x a, AnswersAt (D.newMail s) (n + k) x a
  | .filterFrom f s u n, k => ∃ x a, AnswersAt (D.filterFrom s u f) (n + k) x a
  | .filterTo t m s u n, k => ∃ x a, AnswersAt (D.filterTo s u t m) (n + k) x a
  | .filterData m s u n, k => ∃ x a, AnswersAt (D.filterData s u m) (n + k) x a
  | .handle m s u h n _, k => ∃ x a, AnswersAt (D.handleMail s u m h) (n + k) x a
  | .unwound, _ => False
  | _, _ => True

theorem left_of {σ α : Type} {f : Nat → σ × Ans α} {n : Nat} (hp : ∀ k, k < n → (f k).2 = .pending)
    (h : ∃ n x a, AnswersAt f n x a) : ∃ k x a, AnswersAt f (n + k) x a := by
  obtain ⟨N, x, a, h⟩ := h
  rcases Nat.lt_or_ge N n with h1 | h1
  · have := hp N h1; rw [h.1] at this; cases this
  · obtain ⟨j, rfl⟩ := Nat.exists_eq_add_of_le h1
    exact ⟨j, x, a, h⟩

theorem rel_left (hA : AllAnswer D) {x : State L S U} {y : Task.State L S U} (hr : Rel D C P x y) (hx : x.1 ≠ .unwound) :
    ∃ k, Left D x.1 k := by
  cases hr with
  | newMail hp _ => exact left_of hp (hA.newMail _)
  | filterFrom hp _ => exact left_of hp (hA.filterFrom _ _ _)
  | filterTo hp _ _ => exact left_of hp (hA.filterTo _ _ _ _)
  | filterData hp _ => exact left_of hp (hA.filterData _ _ _)
  | handle hp _ => exact left_of hp (hA.handleMail _ _ _ _)
  | unwound => exact absurd rfl hx
  | _ => exact ⟨0, trivial⟩

theorem now {σ α : Type} {f : Nat → σ × Ans α} {n k : Nat} {x : σ} {a : α} (h : AnswersAt f (n + k) x a) (hw : ∀ a, (f n).2 ≠ .ready a) :
    ∃ j y, k = j + 1 ∧ f n = (y, .pending) ∧ AnswersAt f (n + 1 + j) x a := by
  cases k with
  | zero => exact absurd (by rw [show f n = _ from h.1]) (hw a)
  | succ j => exact ⟨j, (f n).1, rfl, Prod.ext rfl (h.2 n (by omega)), by rw [show n + 1 + j = n + (j + 1) by omega]; exact h⟩

theorem left_step {x : State L S U} {k : Nat} (h : Left D x.1 k) (hw : Waits D x.1) :
    ∃ j, k = j + 1 ∧ Left D (step D x).1 j := by
  obtain ⟨pc, w⟩ := x
  cases pc with
  | newMail f s n => obtain ⟨y, a, h⟩ := h; obtain ⟨j, z, h1, h2, h3⟩ := now h hw; exact ⟨j, h1, by simp only [step, h2]; exact ⟨_, _, h3⟩⟩
  | filterFrom f s u n => obtain ⟨y, a, h⟩ := h; obtain ⟨j, z, h1, h2, h3⟩ := now h hw; exact ⟨j, h1, by simp only [step, h2]; exact ⟨_, _, h3⟩⟩
  | filterTo t m s u n => obtain ⟨y, a, h⟩ := h; obtain ⟨j, z, h1, h2, h3⟩ := now h hw; exact ⟨j, h1, by simp only [step, h2]; exact ⟨_, _, h3⟩⟩
  | filterData m s u n => obtain ⟨y, a, h⟩ := h; obtain ⟨j, z, h1, h2, h3⟩ := now h hw; exact ⟨j, h1, by simp only [step, h2]; exact ⟨_, _, h3⟩⟩
  | handle m s u hi n d => obtain ⟨y, a, h⟩ := h; obtain ⟨j, z, h1, h2, h3⟩ := now h hw; exact ⟨j, h1, by simp only [step, h2]; exact ⟨_, _, h3⟩⟩
  | unwound => exact h.elim
  | _ => exact hw.elim

theorem reply_not (r : Reply) (a : Task.After L) : (reply r a : PC L S U) ≠ .unwound := by
  unfold reply
  split <;> simp

theorem dispatch_not (w : World L S U) (l : Bytes) : (dispatch D w l).1 ≠ .unwound := by
  unfold dispatch
  repeat' split
  all_goals first | exact reply_not _ _ | simp

theorem resume_not (w : World L S U) (a : Task.After L) : (resume w a).1 ≠ .unwound := by
  cases a <;> simp [resume]

/-- Only a callback that does not answer panics. -/
theorem step_unwound {x : State L S U} (h : (step D x).1 = .unwound) : Waits D x.1 := by
  obtain ⟨pc, w⟩ := x
  revert h
  cases pc with
  | unwound => intro _; trivial
  | read buf =>
    simp only [step]
    repeat' split
    all_goals first | exact fun h => absurd h (dispatch_not _ _) | simp
  | send r l a =>
    cases l <;> simp only [step] <;> repeat' split
    all_goals first | exact fun h => absurd h (resume_not _ _) | simp
  | over r => simp [step]
  | newMail f s n =>
    simp only [step]
    split <;> simp_all [Waits]
  | filterFrom f s u n =>
    simp only [step]
    split
    all_goals first | exact fun h => absurd h (reply_not _ _) | simp_all [Waits]
  | filterTo t m s u n =>
    simp only [step]
    split
    all_goals first | exact fun h => absurd h (reply_not _ _) | simp_all [Waits]
  | filterData m s u n =>
    simp only [step]
    split
    all_goals first | exact fun h => absurd h (reply_not _ _) | simp_all [Waits]
  | handle m s u hi n d =>
    simp only [step]
    split
    · simp_all [Waits]
    · simp_all [Waits]
    · simp
    · split <;> simp
    · split
      · exact fun h => absurd h (reply_not _ _)
      · simp

/-- If all callbacks answer, the session gets to the next state. -/
theorem rel_catch (h : AmountsTo D C) (hP : Effects D P) (hA : AllAnswer D) {x : State L S U} {y : Task.State L S U}
    (hr : Rel D C P x y) (hx : x.1 ≠ .unwound) :
    ∃ k, Rel D C P (steps D k x) (Task.step C y) ∧ (steps D k x).1 ≠ .unwound := by
  obtain ⟨k, hk⟩ := rel_left hA hr hx
  induction k generalizing x with
  | zero =>
    rcases rel_step h hP hr with ⟨_, h2⟩ | h1
    · obtain ⟨j, hj, _⟩ := left_step hk h2; omega
    · refine ⟨1, h1, fun he => ?_⟩
      obtain ⟨j, hj, _⟩ := left_step hk (step_unwound he); omega
  | succ k ih =>
    rcases rel_step h hP hr with ⟨h1, h2⟩ | h1
    · obtain ⟨j, hj, h3⟩ := left_step hk h2
      cases Nat.succ.inj hj
      obtain ⟨i, hi⟩ := ih h1 (fun he => by rw [he] at h3; exact h3) h3
      exact ⟨i + 1, hi⟩
    · refine ⟨1, h1, fun he => ?_⟩
      obtain ⟨j, hj, h3⟩ := left_step hk (step_unwound he)
      have he' : (step D x).1 = .unwound := he
      rw [he'] at h3
      exact h3

theorem rel_all (h : AmountsTo D C) (hP : Effects D P) (hA : AllAnswer D) (incoming : List (SrcEv Bytes)) (outgoing : BSink)
    (s : S) (u : U) (m : Nat) :
    ∃ n, Rel D C P (after D incoming outgoing s u n) (Task.after C incoming outgoing s u m) ∧
      (after D incoming outgoing s u n).1 ≠ .unwound := by
  induction m with
  | zero => exact ⟨0, rel_init h _ _ _ _, reply_not _ _⟩
  | succ m ih =>
    obtain ⟨n, h1, h2⟩ := ih
    obtain ⟨k, h3, h4⟩ := rel_catch h hP hA h1 h2
    refine ⟨n + k, ?_, ?_⟩
    · rw [after, steps_add, Task.after, Task.steps_succ]; exact h3
    · rw [after, steps_add]; exact h4

end Verif.Callbacks
