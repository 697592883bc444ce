import Verif.Proofs.QueueLive
import Verif.Props.Queue
/-
C77, C78: eventual delivery.
-/
namespace Verif.Queue

theorem Step.list_care {s s' : St} {r : Nat} {m : MailId} (h : Step s (.list r m) s') (h2 : s.store m = .queued) :
    Care m s' := by
  cases h with
  | list h3 h4 => exact .inr ⟨s.tids, ⟨r, .sendStart m, none⟩, by simp only [St.spawn, St.note, upd_same],
      by simp only [St.spawn, St.note]; rw [h2]; exact .start⟩

theorem Step.find_care {s s' : St} {r g : Nat} {m : MailId} (h : Step s (.find r ⟨m, g⟩) s')
    (h2 : s.store m = .inflight g) : Care m s' := by
  cases h with
  | find h3 h4 => exact .inr ⟨s.tids, ⟨r, .delay ((s.runs r).startup + recoveryDelay) ⟨m, g⟩, none⟩,
      by simp only [St.spawn, St.note, upd_same], by simp only [St.spawn, St.note]; rw [h2]; exact .wait⟩

theorem Step.list_calls {s s' : St} {r : Nat} {m : MailId} (h : Step s (.list r m) s') :
    Has s'.log (.call r s.tids (.sendStart m)) := by
  cases h with
  | list h3 h4 => exact ⟨⟨s.now, .call r s.tids (.sendStart m)⟩, by simp [St.spawn, St.note], rfl⟩

theorem Execution.has_mono (E : Execution) {n k : Nat} (h : n ≤ k) {ev : Ev} (hh : Has (E.st n).log ev) :
    Has (E.st k).log ev := by
  induction h with
  | refl => exact hh
  | @step k hk ih =>
    obtain ⟨new, hnew⟩ := (E.steps k).log
    rw [hnew]
    exact ih.append

/-- Only `send_start` takes a mail out of the queue. -/
theorem Step.leaves {s s' : St} {act : Act} {m : MailId} (h : Step s act s') (hq : s.store m = .queued)
    (hn : s'.store m ≠ .queued) : ∃ i r, s.task i = some ⟨r, .sendStart m, none⟩ := by
  cases h with
  | @answer tid r o a eff s1 h1 he =>
    cases he with
    | @take m' _ _ h2 h3 =>
      by_cases hm : m = m'
      · subst hm; exact ⟨_, _, h1⟩
      · exact absurd hq (by simpa [St.note, St.take, upd, hm] using hn)
    | @done c _ _ h2 h3 =>
      by_cases hm : m = c.mail
      · rw [← hm, hq] at h2; cases h2
      · exact absurd hq (by simpa [St.note, upd, hm] using hn)
    | @cancelled c _ _ h2 h3 =>
      by_cases hm : m = c.mail
      · rw [← hm, hq] at h2; cases h2
      · exact absurd hq (by simpa [St.note, upd, hm] using hn)
    | @recovered c _ _ h2 h3 =>
      by_cases hm : m = c.mail
      · rw [← hm, hq] at h2; cases h2
      · exact absurd hq (by simpa [St.note, upd, hm] using hn)
    | _ => exact absurd hq hn
  | enqueue => exact absurd hq (by have := hn; simp [St.note, upd] at this; exact this.2)
  | _ => exact absurd hq (by simpa [St.note, St.spawn] using hn)

end Verif.Queue

namespace Verif
open Queue

/-! ### C61 Every mail queued at startup gets an attempt -/

/-- C61. Whatever fails and crashes: if `list_queue`, called by `run`, yields the mails that are in the queue from the call to
the end of the listing, then for each mail in the queue when `run` is called, an attempt has been started by the time the
listing has ended (by this run, unless another task took the mail out of the queue meanwhile). -/
theorem c61_startup (E : Execution) (n e r : Nat) (m : MailId) (_hstart : E.act n = .start r) (_hne : n ≤ e)
    (_hend : E.act e = .listEnd r)
    (hlist : (∀ k, n ≤ k → k ≤ e → (E.st k).store m = .queued) → ∃ k, n ≤ k ∧ k ≤ e ∧ E.act k = .list r m)
    (hq : (E.st n).store m = .queued) :
    (∃ j, Has (E.st (e + 1)).log (.call r j (.sendStart m))) ∨
      ∃ k r' i, n ≤ k ∧ k ≤ e ∧ (E.st k).task i = some ⟨r', .sendStart m, none⟩ ∧ (E.st (k + 1)).store m ≠ .queued ∧
        Has (E.st (e + 1)).log (.call r' i (.sendStart m)) := by
  by_cases h : ∀ k, n ≤ k → k ≤ e → (E.st k).store m = .queued
  · left
    obtain ⟨k, h1, h2, h3⟩ := hlist h
    have hs := E.steps k
    rw [h3] at hs
    exact ⟨_, E.has_mono (show k + 1 ≤ e + 1 by omega) hs.list_calls⟩
  · right
    have : ∃ k, n ≤ k ∧ k ≤ e ∧ (E.st k).store m ≠ .queued :=
      Classical.byContradiction fun h' => h fun k h1 h2 => Classical.byContradiction fun h3 => h' ⟨k, h1, h2, h3⟩
    obtain ⟨k, h1, h2, h3⟩ := this
    obtain ⟨j, h4, h5, h6, h7⟩ := last_before (p := fun k => (E.st k).store m = .queued) h1 hq h3
    obtain ⟨i, r', h8⟩ := (E.steps j).leaves (h6 j h4 (Nat.le_refl j)) h7
    exact ⟨j, r', i, h4, by omega, h8, h7, E.has_mono (show j ≤ e + 1 by omega) ((E.reach j).basic.task i _ h8).called⟩

/-! ### C77 A mail the queue has picked up is delivered in the end -/

/-- C77. In a fair execution: if from some moment on nothing crashes, no task at the mail `m` dies, the storage is reliable for it, and from then
on `m` is picked up, by being listed while it is in the queue or found while it is in flight, and from some moment on the
transport does not refuse it any more and it is not found again, then some day the transport has accepted it and it has been
removed from the storage. Everything about other mails may fail, several instances may work at the same time, and the mail
may have been refused and recovered any number of times. -/
theorem c77_delivered (E : Execution) (hf : Fair E) (m : MailId) (n0 n n1 : Nat)
    (hrel : ∀ k, n0 ≤ k → Reliable m (E.st k) (E.act k)) (hn : n0 ≤ n)
    (hup : (∃ r, E.act n = .list r m ∧ (E.st n).store m = .queued) ∨
      ∃ r g, E.act n = .find r ⟨m, g⟩ ∧ (E.st n).store m = .inflight g)
    (hend : ∀ k, n1 ≤ k → ¬ Refuses m (E.st k) (E.act k) ∧ ¬ Finds m (E.act k)) :
    ∃ k, n ≤ k ∧ (E.st k).store m = .gone ∧ Accepted (E.st k).log m := by
  have hc : Care m (E.st (n + 1)) := by
    have hst := E.steps n
    rcases hup with ⟨r, h1, h2⟩ | ⟨r, g, h1, h2⟩
    · rw [h1] at hst; exact hst.list_care h2
    · rw [h1] at hst; exact hst.find_care h2
  have hc' := care_forever hrel (show n0 ≤ n + 1 by omega) (show n + 1 ≤ max (n + 1) n1 by omega) hc
  obtain ⟨k, h1, h2⟩ := delivered hf hrel (n1 := max n0 n1) (by omega) (fun k hk => hend k (by omega)) _
    (n := max (max (n + 1) n1) n0) (by omega)
    (care_forever hrel (show n0 ≤ max (n + 1) n1 by omega) (by omega) hc') (Nat.le_refl _)
  exact ⟨k, by omega, h2, (E.reach k).kept.gone m h2⟩

/-! ### C78 Restarting the queue delivers everything -/

/-- C78. In a fair execution, whatever failed, crashed and died before: if from some moment on nothing crashes, no task at it dies, and the storage is
reliable for the mail `m`, which is then in the queue or in flight, and `run` is called, `list_queue` and `find_inflight`
end, the first yielding `m` if it is in the queue all the time, the second if it is in flight all the time, and the transport
refuses `m` only finitely often, and it is found only finitely often, then some day the transport has accepted it and it has
been removed. -/
theorem c78_restart (E : Execution) (hf : Fair E) (m : MailId) (n e f n1 r : Nat)
    (hrel : ∀ k, n ≤ k → Reliable m (E.st k) (E.act k))
    (_hstart : E.act n = .start r) (hm : (E.st n).store m = .queued ∨ ∃ g, (E.st n).store m = .inflight g)
    (hne : n ≤ e) (_hend : E.act e = .listEnd r)
    (hlist : (∀ k, n ≤ k → k ≤ e → (E.st k).store m = .queued) → ∃ k, n ≤ k ∧ k ≤ e ∧ E.act k = .list r m)
    (hef : e ≤ f) (_hend' : E.act f = .findEnd r)
    (hfind : ∀ g, (∀ k, e ≤ k → k ≤ f → (E.st k).store m = .inflight g) → ∃ k, e ≤ k ∧ k ≤ f ∧ E.act k = .find r ⟨m, g⟩)
    (hfin : ∀ k, n1 ≤ k → ¬ Refuses m (E.st k) (E.act k) ∧ ¬ Finds m (E.act k)) :
    ∃ k, n ≤ k ∧ (E.st k).store m = .gone ∧ Accepted (E.st k).log m := by
  have ha : (E.st n).store m ≠ .absent := by rcases hm with h | ⟨g, h⟩ <;> rw [h] <;> simp
  by_cases hc : Care m (E.st (f + 1))
  · obtain ⟨k, h1, h2⟩ := delivered hf hrel (n1 := max (f + 1) n1) (by omega) (fun k hk => hfin k (by omega)) _
      (n := max (f + 1) n1) (Nat.le_refl _) (care_forever hrel (show n ≤ f + 1 by omega) (by omega) hc) (Nat.le_refl _)
    exact ⟨k, by omega, h2, (E.reach k).kept.gone m h2⟩
  · -- nobody takes care of the mail: it stays where it is, so it is listed or found
    have hst : ∀ k, n ≤ k → k ≤ f + 1 → (E.st k).store m = (E.st n).store m := by
      intro k h1 h2
      exact stays hrel (Nat.le_refl n) h1 ha fun h => hc (care_forever hrel h1 h2 h)
    exfalso
    rcases hm with h | ⟨g, h⟩
    · obtain ⟨k, h1, h2, h3⟩ := hlist fun k h1 h2 => (hst k h1 (by omega)).trans h
      apply hc
      refine care_forever hrel (show n ≤ k + 1 by omega) (by omega) ?_
      have hs := E.steps k
      have hk := (hst k h1 (by omega)).trans h
      rw [h3] at hs
      exact hs.list_care hk
    · obtain ⟨k, h1, h2, h3⟩ := hfind g fun k h1 h2 => (hst k (by omega) (by omega)).trans h
      apply hc
      refine care_forever hrel (show n ≤ k + 1 by omega) (by omega) ?_
      have hs := E.steps k
      have hk := (hst k (by omega) (by omega)).trans h
      rw [h3] at hs
      exact hs.find_care hk

end Verif

namespace Verif.Queue

/-! ### An execution that meets the hypotheses -/

/-- The states of an execution that performs the given actions and then waits for ever. -/
def stAt : Nat → St → List Act → St
  | 0, s, _ => s
  | n + 1, s, [] => stAt n { s with now := s.now + 1 } []
  | n + 1, s, a :: as =>
    match step s a with
    | some s' => stAt n s' as
    | none => s

/-- Its actions. -/
def actAt : Nat → List Act → Act
  | _, [] => .tick 1
  | 0, a :: _ => a
  | n + 1, _ :: as => actAt n as

theorem stAt_next : ∀ (n : Nat) (s : St) (as : List Act) (s' : St), exec s as = some s' →
    step (stAt n s as) (actAt n as) = some (stAt (n + 1) s as)
  | 0, s, [], _, _ => rfl
  | n + 1, s, [], _, _ => by
    have := stAt_next n { s with now := s.now + 1 } [] _ rfl
    rw [show actAt (n + 1) [] = actAt n [] from by cases n <;> rfl]
    exact this
  | 0, s, a :: as, s', h => by
    unfold exec at h
    simp only [stAt, actAt]
    split at h
    · rename_i h1; rw [h1]
    · cases h
  | n + 1, s, a :: as, s', h => by
    unfold exec at h
    simp only [stAt, actAt]
    split at h
    · rename_i s1 h1
      rw [h1]
      exact stAt_next n s1 as s' h
    · cases h

/-- The infinite execution made of a finite one. -/
def Execution.ofList (as : List Act) (h : (exec init as).isSome) : Execution where
  st n := stAt n init as
  act n := actAt n as
  first := rfl
  next n := stAt_next n init as _ (Option.eq_some_of_isSome h)

theorem stAt_append : ∀ (as bs : List Act) (s s1 : St) (n : Nat), exec s as = some s1 →
    stAt (as.length + n) s (as ++ bs) = stAt n s1 bs
  | [], bs, s, s1, n, h => by cases h; simp
  | a :: as, bs, s, s1, n, h => by
    unfold exec at h
    split at h
    · rename_i s2 h1
      have := stAt_append as bs s2 s1 n h
      simp only [List.length_cons, List.cons_append]
      rw [show as.length + 1 + n = as.length + n + 1 by omega, stAt, h1]
      exact this
    · cases h

theorem actAt_append : ∀ (as bs : List Act) (n : Nat), actAt (as.length + n) (as ++ bs) = actAt n bs
  | [], bs, n => by simp
  | a :: as, bs, n => by
    simp only [List.length_cons, List.cons_append]
    rw [show as.length + 1 + n = as.length + n + 1 by omega, actAt]
    exact actAt_append as bs n

theorem stAt_wait : ∀ (n : Nat) (s : St), stAt n s [] = { s with now := s.now + n }
  | 0, s => rfl
  | n + 1, s => by rw [stAt, stAt_wait]; simp; omega

theorem actAt_wait (n : Nat) : actAt n [] = .tick 1 := by cases n <;> rfl

/-- It is fair if no task is left. -/
theorem Execution.ofList_fair (as : List Act) (h : (exec init as).isSome) (s : St) (hs : exec init as = some s)
    (ht : ∀ i, s.task i = none) : Fair (.ofList as h) := by
  have late : ∀ k, (Execution.ofList as h).st (as.length + k) = { s with now := s.now + k } := by
    intro k
    have := stAt_append as [] init s k hs
    rw [List.append_nil, stAt_wait] at this
    exact this
  have none' : ∀ n i, ((Execution.ofList as h).st (as.length + n)).task i = none := by
    intro n i
    rw [late n]
    exact ht i
  refine ⟨?_, ?_, ?_⟩
  · intro n i r o a _
    exact ⟨as.length + n, by omega, by rw [none' n i]; simp⟩
  · intro n i r o _ _
    exact ⟨as.length + n, by omega, by rw [none' n i]; simp⟩
  · intro T
    refine ⟨as.length + T, ?_⟩
    rw [late T]
    simp

/-- A condition on the states and actions of a finite execution. -/
def checkB (B : St → Act → Bool) : St → List Act → Bool
  | _, [] => true
  | s, a :: as => B s a && (match step s a with | some s' => checkB B s' as | none => false)

theorem checkB_sound {B : St → Act → Bool} {P : St → Act → Prop} (hB : ∀ s a, B s a = true → P s a)
    (hw : ∀ s, P s (.tick 1)) : ∀ (n : Nat) (as : List Act) (s : St), checkB B s as = true → P (stAt n s as) (actAt n as)
  | 0, [], s, _ => hw s
  | n + 1, [], s, _ => by rw [stAt_wait, actAt_wait]; exact hw _
  | 0, a :: as, s, h => by
    simp only [checkB, Bool.and_eq_true] at h
    exact hB _ _ h.1
  | n + 1, a :: as, s, h => by
    simp only [checkB, Bool.and_eq_true] at h
    simp only [stAt, actAt]
    split at h
    · rename_i s' h1
      exact checkB_sound hB hw n as s' h.2
    · exact absurd h.2 (by simp)

theorem noFailureB_reliable (m : MailId) {s : St} {a : Act} (h : noFailureB s a = true) : Reliable m s a := by
  have := noFailureB_sound h
  exact ⟨this.1, fun i _ _ _ h1 => absurd h1 (this.2.1 i), fun i eff r o h1 h2 _ => .inl (this.2.2 i eff r o h1 h2)⟩

def quietB (_s : St) : Act → Bool
  | .answer _ .err _ => false
  | .find _ _ => false
  | _ => true

theorem quietB_sound (m : MailId) {s : St} {a : Act} (h : quietB s a = true) : ¬ Refuses m s a ∧ ¬ Finds m a := by
  constructor
  · rintro ⟨i, eff, r, c, b, rfl, _⟩; simp [quietB] at h
  · rintro ⟨r, c, rfl, _⟩; simp [quietB] at h

theorem of_any {x : Option St} {p : St → Bool} (h : x.any p = true) : ∃ s, x = some s ∧ p s = true := by
  cases x with
  | none => cases h
  | some s => exact ⟨s, rfl, h⟩

theorem bigRun_ok : (exec init bigRun).isSome = true := by decide +kernel

end Verif.Queue

namespace Verif
open Queue

/-- `bigRun`, in which the process crashes while the mail is in flight and `run` is called again, meets the hypotheses of
C78, and of C77. -/
theorem c78_example : ∃ (E : Execution) (n e f n1 : Nat), Fair E ∧ (∀ k, n ≤ k → Reliable 7 (E.st k) (E.act k)) ∧
    E.act (n - 2) = .crash 0 ∧ E.act n = .start 1 ∧ (E.st n).store 7 = .inflight 1 ∧ E.act e = .listEnd 1 ∧ n ≤ e ∧
    E.act f = .findEnd 1 ∧ e ≤ f ∧ (∃ k, e ≤ k ∧ k ≤ f ∧ E.act k = .find 1 ⟨7, 1⟩ ∧ (E.st k).store 7 = .inflight 1) ∧
    ∀ k, n1 ≤ k → ¬ Refuses 7 (E.st k) (E.act k) ∧ ¬ Finds 7 (E.act k) := by
  obtain ⟨s, hs, hs'⟩ := of_any (x := exec init bigRun)
    (p := fun s => s.tids == 3 && (s.task 0).isNone && (s.task 1).isNone && (s.task 2).isNone) (by decide +kernel)
  obtain ⟨s23, h1, h2⟩ := of_any (x := exec init (bigRun.take 23)) (p := fun s => checkB noFailureB s (bigRun.drop 23))
    (by decide +kernel)
  obtain ⟨s26, h3, h4⟩ := of_any (x := exec init (bigRun.take 26)) (p := fun s => checkB quietB s (bigRun.drop 26))
    (by decide +kernel)
  refine ⟨.ofList bigRun bigRun_ok, 23, 24, 26, 26, ?_, ?_, by decide +kernel, by decide +kernel,
    by decide +kernel, by decide +kernel, by omega, by decide +kernel, by omega,
    ⟨25, by omega, by omega, by decide +kernel, by decide +kernel⟩, ?_⟩
  · refine Execution.ofList_fair _ _ s hs fun i => ?_
    have : ∀ i t, s.task i = some t → i < s.tids := fun i t ht =>
      ((exec_reach (P := Always) .init (fun _ _ => trivial) hs).basic.task i t ht).tid
    cases hi : s.task i with
    | none => rfl
    | some t =>
      have hlt := this i t hi
      simp only [Bool.and_eq_true, beq_iff_eq, Option.isNone_iff_eq_none] at hs'
      obtain ⟨⟨⟨e, h5⟩, h6⟩, h7⟩ := hs'
      rw [e] at hlt
      match i, hlt, hi with
      | 0, _, hi => rw [h5] at hi; cases hi
      | 1, _, hi => rw [h6] at hi; cases hi
      | 2, _, hi => rw [h7] at hi; cases hi
  · intro k hk
    have := checkB_sound (P := Reliable 7) (fun s a => noFailureB_reliable 7) (fun s => noFailureB_reliable 7 rfl) (k - 23) _ _ h2
    have e1 := stAt_append (bigRun.take 23) (bigRun.drop 23) init s23 (k - 23) h1
    have e2 := actAt_append (bigRun.take 23) (bigRun.drop 23) (k - 23)
    rw [List.take_append_drop] at e1 e2
    rw [← e1, ← e2] at this
    rw [show (bigRun.take 23).length + (k - 23) = k by simp [bigRun]; omega] at this
    exact this
  · intro k hk
    have := checkB_sound (P := fun s a => ¬ Refuses 7 s a ∧ ¬ Finds 7 a) (fun s a => quietB_sound 7)
      (fun s => quietB_sound 7 (s := s) rfl) (k - 26) _ _ h4
    have e1 := stAt_append (bigRun.take 26) (bigRun.drop 26) init s26 (k - 26) h3
    have e2 := actAt_append (bigRun.take 26) (bigRun.drop 26) (k - 26)
    rw [List.take_append_drop] at e1 e2
    rw [← e1, ← e2] at this
    rw [show (bigRun.take 26).length + (k - 26) = k by simp [bigRun]; omega] at this
    exact this

end Verif
