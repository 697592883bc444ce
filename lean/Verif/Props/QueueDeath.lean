import Verif.Spec.QueueDeath
import Verif.Props.QueueLive

/-!
# C122 A task that panics, or is dropped, harms nobody else, and its mail is kept for recovery

`Act.die i` is the end of task `i` alone, at any moment: in an operation, or after its answer. The record has `Ev.died`.
-/

namespace Verif.Queue

/-- A task number that was given away and is free again stays free. -/
theorem Step.free {s s' : St} {act : Act} (h : Step s act s') {i : Nat} (hi : i < s.tids) (ht : s.task i = none) :
    i < s'.tids ∧ s'.task i = none ∧ ∃ new, s'.log = s.log ++ new ∧ ∀ e ∈ new, e.ev.by ≠ some i := by
  have other : ∀ {j : Nat} {t : Task}, s.task j = some t → j ≠ i := by
    rintro j t h1 rfl
    rw [h1] at ht
    cases ht
  cases h with
  | list => exact ⟨by simp [St.spawn, St.note]; omega, by simp only [St.spawn, St.note]; rw [upd_ne _ _ (by omega)]; exact ht,
      _, by rw [spawn_log, note_log, List.append_assoc], by simp [Ev.by, St.note]; omega⟩
  | find => exact ⟨by simp [St.spawn, St.note]; omega, by simp only [St.spawn, St.note]; rw [upd_ne _ _ (by omega)]; exact ht,
      _, by rw [spawn_log, note_log, List.append_assoc], by simp [Ev.by, St.note]; omega⟩
  | tick => exact ⟨hi, ht, [], by simp, by simp⟩
  | answer h1 he =>
    obtain ⟨e1, e2, e3, e4, e5⟩ := he.same
    refine ⟨by simp only [St.note, e2]; exact hi, ?_, _, (note_log _ _).trans (congrArg (· ++ _) e3), by simp [Ev.by, other h1]⟩
    simp only [St.note]
    rw [upd_ne _ _ (other h1).symm, e1]
    exact ht
  | finish h1 =>
    exact ⟨hi, by simp only [St.note]; rw [upd_ne _ _ (other h1).symm]; exact ht, _, note_log _ _, by simp [Ev.by, other h1]⟩
  | goOn h1 =>
    exact ⟨hi, by simp only [St.note]; rw [upd_ne _ _ (other h1).symm]; exact ht, _, note_log _ _, by simp [Ev.by, other h1]⟩
  | die h1 =>
    exact ⟨hi, by simp only [St.note]; rw [upd_ne _ _ (other h1).symm]; exact ht, _, note_log _ _, by simp [Ev.by, other h1]⟩
  | spawn h1 =>
    refine ⟨by simp [St.spawn, St.note]; omega, ?_, _, by rw [spawn_log, note_log, List.append_assoc], ?_⟩
    · simp only [St.spawn, St.note]
      rw [upd_ne _ _ (by omega), upd_ne _ _ (other h1).symm]
      exact ht
    · simp [Ev.by, St.note, other h1]
      omega
  | crash => exact ⟨hi, by simp only [St.note, survivors, ht], _, note_log _ _, by simp [Ev.by]⟩
  | _ => exact ⟨hi, ht, _, note_log _ _, by simp [Ev.by]⟩

/-- Whoever was answered had called. -/
theorem Reach.asked {P : St → Act → Prop} {s : St} (h : Reach P s) {r i : Nat} {o : Op} {a : Ans}
    (ha : Has s.log (.answer r i o a)) : Has s.log (.call r i o) := by
  induction h with
  | init => simp [Queue.init, Has] at ha
  | @step s s' act hr hp hs ih =>
    have hst := step_cases hs
    obtain ⟨new, hnew⟩ := hst.log
    by_cases hold : Has s.log (.answer r i o a)
    · exact hnew ▸ (ih hold).append
    · obtain ⟨e, h1, h2⟩ := ha
      rw [hnew, List.mem_append] at h1
      rcases h1 with h1 | h1
      · exact absurd ⟨e, h1, h2⟩ hold
      · cases hst with
        | @answer j r' o' a' eff s1 h3 he =>
          obtain ⟨e1, e2, e3, e4, e5⟩ := he.same
          rw [note_log] at hnew
          simp only [e3, List.append_cancel_left_eq] at hnew
          subst hnew
          simp only [List.mem_singleton] at h1
          subst h1
          simp only [Ev.answer.injEq] at h2
          obtain ⟨rfl, rfl, rfl, rfl⟩ := h2
          have := (hr.basic.task _ _ h3).called
          rw [note_log]
          simp only [e3]
          exact this.append
        | tick => simp at hnew; subst hnew; cases h1
        | list =>
          rw [spawn_log, note_log, List.append_assoc, List.append_cancel_left_eq] at hnew
          subst hnew
          simp at h1
          rcases h1 with rfl | rfl <;> cases h2
        | find =>
          rw [spawn_log, note_log, List.append_assoc, List.append_cancel_left_eq] at hnew
          subst hnew
          simp at h1
          rcases h1 with rfl | rfl <;> cases h2
        | spawn =>
          rw [spawn_log, note_log, List.append_assoc, List.append_cancel_left_eq] at hnew
          subst hnew
          simp at h1
          rcases h1 with rfl | rfl <;> cases h2
        | _ =>
          rw [note_log, List.append_cancel_left_eq] at hnew
          subst hnew
          simp at h1
          subst h1
          cases h2

/-- A call of `cancel_found_inflight` has its history. -/
theorem Reach.recovering {P : St → Act → Prop} {s : St} (h : Reach P s) {r i : Nat} {c : Claim}
    (ha : Has s.log (.call r i (.cancelFound c))) : ∃ t0 t1, HasAt s.log t0 (.started r) ∧ Has s.log (.found r c) ∧
      HasAt s.log t1 (.call r i (.cancelFound c)) ∧ t0 + 3600 ≤ t1 := by
  obtain ⟨⟨t1, ev⟩, h1, rfl⟩ := ha
  obtain ⟨pre, post, hl⟩ := List.append_of_mem h1
  obtain ⟨t0, h2, _, h3⟩ := c62_not_before_an_hour h.always hl
  refine ⟨t0, t1, ?_, ?_, h1, h3⟩
  · simp only [HasAt] at h2 ⊢
    rw [hl]
    exact List.mem_append_left _ h2
  · cases h.protocol pre _ post hl r i _ rfl with
    | @recover t c h4 =>
      have h5 : Has s.log (.answer r i (.delay t c) .ok) := hl ▸ h4.append
      obtain ⟨⟨t2, ev⟩, h6, rfl⟩ := h.asked h5
      obtain ⟨pre', post', hl'⟩ := List.append_of_mem h6
      cases h.protocol pre' _ post' hl' r i _ rfl with
      | wait h7 => exact hl' ▸ h7.append

theorem Recovered.append {l new : List Entry} {c : Claim} (h : Recovered l c) : Recovered (l ++ new) c := by
  obtain ⟨r, j, a, t0, t1, h1, h2, h3, h4, h5⟩ := h
  exact ⟨r, j, a, t0, t1, h1.append, h2.append, h3.append, h4, h5.append⟩

theorem Later.reach {P : St → Act → Prop} {s s' : St} (h : Reach P s) (hl : Later P s s') : Reach P s' := by
  induction hl with
  | refl => exact h
  | step _ h1 h2 ih => exact .step ih h1 h2

/-- A mail in flight on which nobody works stays in flight, with nobody working on it, unless it is recovered. -/
theorem Step.orphan {P : St → Act → Prop} {s s' : St} {act : Act} (hr : Reach P s) (hp : P s act) (hs : step s act = some s')
    {c : Claim} (hc : s.store c.mail = .inflight c.gen) (hw : ∀ i t, s.task i = some t → ¬ WorksOn t c) :
    Recovered s'.log c ∨ s'.store c.mail = .inflight c.gen ∧ ∀ i t, s'.task i = some t → ¬ WorksOn t c := by
  have hst := step_cases hs
  have hr' := Reach.step hr hp hs
  have still : ∀ i t, s'.task i = some t → ¬ WorksOn t c := by
    intro i t ht h
    cases hst.working ht h with
    | still h1 h2 => exact hw _ _ h1 h2
    | took h1 h2 h3 =>
      rw [hc] at h2
      cases h2
  cases hst with
  | @enqueue m h1 =>
    refine .inr ⟨?_, still⟩
    simp only [St.note]
    rw [upd_ne _ _ (by rintro h; rw [h, h1] at hc; cases hc)]
    exact hc
  | @answer j r o a eff s1 h1 he =>
    have hother : ∀ {d : Claim} {v : Loc}, s.store d.mail = .inflight d.gen → d ≠ c → upd s.store d.mail v c.mail = .inflight c.gen := by
      intro d v h2 hne
      rw [upd_ne _ _ (by
        intro h
        rw [← h, hc] at h2
        apply hne
        cases d; cases c
        simp only [Loc.inflight.injEq] at h2 h
        rw [h, h2]), hc]
    cases he with
    | @take m _ _ h2 h3 =>
      refine .inr ⟨?_, still⟩
      simp only [St.note, St.take]
      rw [upd_ne _ _ (by rintro h; rw [h, h2] at hc; cases hc)]
      exact hc
    | @done d _ _ h2 h3 =>
      refine .inr ⟨hother h2 ?_, still⟩
      rintro rfl
      exact hw _ _ h1 .finishing
    | @cancelled d _ _ h2 h3 =>
      refine .inr ⟨hother h2 ?_, still⟩
      rintro rfl
      exact hw _ _ h1 .cancelling
    | @recovered d _ _ h2 h3 =>
      by_cases hd : d = c
      · subst hd
        left
        have h4 : Has s.log (.call r j (.cancelFound d)) := (hr.basic.task _ _ h1).called
        obtain ⟨t0, t1, h5, h6, h7, h8⟩ := hr.recovering h4
        refine ⟨r, j, a, t0, t1, ?_, ?_, ?_, h8, ?_⟩ <;> rw [note_log]
        · exact h5.append
        · exact h6.append
        · exact h7.append
        · exact .last
      · exact .inr ⟨hother h2 hd, still⟩
    | _ => exact .inr ⟨hc, still⟩
  | _ => exact .inr ⟨hc, still⟩

end Verif.Queue

namespace Verif
open Queue

/-- C122. When a task dies, nothing else changes: every mail is where it was, every other task is where it was, every instance
of `run` goes on as before. -/
theorem c122_harms_nobody {s s' : St} {i : Nat} (h : step s (.die i) = some s') :
    s'.task i = none ∧ (∀ j, j ≠ i → s'.task j = s.task j) ∧ s'.store = s.store ∧ s'.runs = s.runs := by
  cases step_cases h with
  | die h1 => exact ⟨by simp [St.note], fun j hj => by simp only [St.note]; rw [upd_ne _ _ hj], rfl, rfl⟩

/-- C122. It can happen to any task at any moment. -/
theorem c122_any_moment {s : St} {i : Nat} {t : Task} (h : s.task i = some t) : ∃ s', step s (.die i) = some s' :=
  ⟨_, by simp only [Queue.step, h]; rfl⟩

/-- C122. A task that has died does nothing any more: no call, no answer, no spawning of another task is recorded of it
afterwards. -/
theorem c122_silent {s : St} (h : Reach Always s) {pre post : List Entry} {t r i : Nat} {o : Op}
    (hl : s.log = pre ++ ⟨t, .died r i o⟩ :: post) : ∀ e ∈ post, e.ev.by ≠ some i := by
  suffices (i < s.tids ∧ s.task i = none) ∧ ∀ e ∈ post, e.ev.by ≠ some i from this.2
  induction h generalizing pre post with
  | init => simp [Queue.init] at hl
  | @step s s' act hr hp hs ih =>
    have hst := step_cases hs
    obtain ⟨new, hnew⟩ := hst.log
    rw [hnew] at hl
    rcases split_log hl with ⟨post0, h1, rfl⟩ | ⟨x, rfl, h1⟩
    · obtain ⟨⟨h2, h3⟩, h4⟩ := ih h1
      obtain ⟨h5, h6, new', h7, h8⟩ := hst.free h2 h3
      rw [hnew, List.append_cancel_left_eq] at h7
      subst h7
      refine ⟨⟨h5, h6⟩, fun e he => ?_⟩
      rcases List.mem_append.1 he with he | he
      · exact h4 e he
      · exact h8 e he
    · cases hst with
      | @die j t' h3 =>
        rw [note_log, List.append_cancel_left_eq] at hnew
        rw [← hnew] at h1
        cases x with
        | nil =>
          simp only [List.nil_append, List.cons.injEq, Entry.mk.injEq, Ev.died.injEq] at h1
          obtain ⟨⟨_, _, rfl, _⟩, rfl⟩ := h1
          exact ⟨⟨(hr.basic.task _ _ h3).tid, by simp [St.note]⟩, by simp⟩
        | cons y ys => simp at h1
      | tick => simp at hnew; subst hnew; simp at h1
      | list =>
        rw [spawn_log, note_log, List.append_assoc, List.append_cancel_left_eq] at hnew
        have : (⟨t, .died r i o⟩ : Entry) ∈ new := by rw [h1]; simp
        rw [← hnew] at this
        simp at this
      | find =>
        rw [spawn_log, note_log, List.append_assoc, List.append_cancel_left_eq] at hnew
        have : (⟨t, .died r i o⟩ : Entry) ∈ new := by rw [h1]; simp
        rw [← hnew] at this
        simp at this
      | spawn =>
        rw [spawn_log, note_log, List.append_assoc, List.append_cancel_left_eq] at hnew
        have : (⟨t, .died r i o⟩ : Entry) ∈ new := by rw [h1]; simp
        rw [← hnew] at this
        simp at this
      | answer h3 he =>
        obtain ⟨e1, e2, e3, e4, e5⟩ := he.same
        rw [note_log] at hnew
        simp only [e3, List.append_cancel_left_eq] at hnew
        have : (⟨t, .died r i o⟩ : Entry) ∈ new := by rw [h1]; simp
        rw [← hnew] at this
        simp at this
      | _ =>
        rw [note_log, List.append_cancel_left_eq] at hnew
        have : (⟨t, .died r i o⟩ : Entry) ∈ new := by rw [h1]; simp
        rw [← hnew] at this
        simp at this

/-- C122. The mail of a task that died in the middle of an attempt is kept: it stays in flight, and nobody works on it, until an
instance of `run` that found it in flight has waited for an hour from its start and called `cancel_found_inflight`. -/
theorem c122_kept {s s1 s' : St} (h : Reach Gentle s) {i : Nat} {t : Task} {c : Claim} (ht : s.task i = some t)
    (hw : WorksOn t c) (hd : step s (.die i) = some s1) (hl : Later Gentle s1 s') :
    Recovered s'.log c ∨
    s'.store c.mail = .inflight c.gen ∧ ∀ j u d, s'.task j = some u → WorksOn u d → d.mail ≠ c.mail := by
  have h1 : Reach Gentle s1 := .step h (by intro _ _ _ _ _ h; cases h) hd
  obtain ⟨e1, e2, e3, _⟩ := c122_harms_nobody hd
  have key : Recovered s'.log c ∨ s'.store c.mail = .inflight c.gen ∧ ∀ i t, s'.task i = some t → ¬ WorksOn t c := by
    induction hl with
    | refl =>
      refine .inr ⟨by rw [e3]; exact h.alone.mine _ _ _ ht hw, fun j u hu hwu => ?_⟩
      by_cases hj : j = i
      · subst hj; rw [e1] at hu; cases hu
      · rw [e2 j hj] at hu
        exact hj (h.alone.one _ _ _ _ _ hu ht hwu hw)
    | @step s2 s3 act h2 hp hs ih =>
      rcases ih with h3 | ⟨h3, h4⟩
      · obtain ⟨new, hn⟩ := (step_cases hs).log
        exact .inl (hn ▸ h3.append)
      · exact Step.orphan (h2.reach h1) hp hs h3 h4
  rcases key with h3 | ⟨h3, h4⟩
  · exact .inl h3
  · refine .inr ⟨h3, fun j u d hu hwd he => ?_⟩
    have := (hl.reach h1).alone.mine _ _ _ hu hwd
    rw [he, h3] at this
    apply h4 j u hu
    cases c; cases d
    simp only [Loc.inflight.injEq] at this he
    rw [he, ← this] at hwd
    exact hwd

/-- The transport panics at the mail 7 (task 0), and again a task of the mail 8 dies (task 3); the instance goes on, and delivers
the mail 9 (task 2). A second instance finds the mail 7, recovers it after an hour, and delivers it. -/
def panicRun : List Act := [.enqueue 7, .enqueue 8, .enqueue 9, .start 0, .list 0 7, .answer 0 (.inflight ⟨7, 0⟩) true, .proceed 0,
  .answer 0 (.mail 7) true, .proceed 0, .list 0 8, .die 0, .list 0 9, .listEnd 0, .findEnd 0, .die 1,
  .answer 2 (.inflight ⟨9, 1⟩) true, .proceed 2, .answer 2 (.mail 9) true, .proceed 2, .answer 2 .ok true, .proceed 2,
  .answer 2 .ok true, .proceed 2, .tick 100, .start 1, .listEnd 1, .find 1 ⟨7, 0⟩, .findEnd 1, .tick 3600, .answer 3 .ok true,
  .proceed 3, .answer 3 (.queued 7) true, .proceed 3, .answer 3 (.inflight ⟨7, 2⟩) true, .proceed 3, .answer 3 (.mail 7) true,
  .proceed 3, .answer 3 .ok true, .proceed 3, .answer 3 .ok true, .proceed 3]

theorem panicRun_ok : (exec init panicRun).isSome = true := by decide +kernel

theorem execB_later {B : St → Act → Bool} {P : St → Act → Prop} (hB : ∀ s, Basic s → ∀ a, B s a = true → P s a)
    {s0 s s' : St} {as : List Act} (h0 : Reach P s0) (hr : Later P s0 s) (h : execB B s as = some s') : Later P s0 s' := by
  induction as generalizing s with
  | nil => simp [execB] at h; exact h ▸ hr
  | cons a as ih =>
    unfold execB at h
    split at h
    · split at h
      · exact ih (.step hr (hB _ (hr.reach h0).basic _ ‹_›) ‹_›) h
      · simp at h
    · simp at h

/-- It meets the hypotheses of `c122_kept`: the task that dies is sending the mail 7. In the end it was recovered and delivered. -/
theorem c122_example : ∃ s s1 s', Reach Gentle s ∧ s.task 0 = some ⟨0, .transportSend ⟨7, 0⟩ 7, none⟩ ∧
    WorksOn ⟨0, .transportSend ⟨7, 0⟩ 7, none⟩ ⟨7, 0⟩ ∧ step s (.die 0) = some s1 ∧ Later Gentle s1 s' ∧
    Recovered s'.log ⟨7, 0⟩ ∧ s'.store 7 = .gone ∧ s'.store 9 = .gone ∧ s'.store 8 = .queued ∧
    Has s'.log (.died 0 0 (.transportSend ⟨7, 0⟩ 7)) := by
  obtain ⟨s, hs, h⟩ := of_any (x := execB gentleB init (panicRun.take 10))
    (p := fun (s : St) => s.task 0 == some (⟨0, .transportSend ⟨7, 0⟩ 7, none⟩ : Queue.Task) && (step s (.die 0)).any fun s1 =>
      (execB gentleB s1 (panicRun.drop 11)).any fun (s' : St) => s'.store 7 == Loc.gone && s'.store 9 == Loc.gone &&
        s'.store 8 == Loc.queued &&
        decide ((⟨0, .died 0 0 (.transportSend ⟨7, 0⟩ 7)⟩ : Entry) ∈ s'.log))
    (by decide +kernel)
  simp only [Bool.and_eq_true, beq_iff_eq] at h
  obtain ⟨h1, h2⟩ := h
  obtain ⟨s1, h3, h4⟩ := of_any h2
  obtain ⟨s', h5, h6⟩ := of_any h4
  simp only [Bool.and_eq_true, beq_iff_eq, decide_eq_true_eq] at h6
  obtain ⟨⟨⟨h6, h7⟩, h8⟩, h9⟩ := h6
  have hr : Reach Gentle s := execB_reach (fun s hb a h => gentleB_sound hb h) .init hs
  have hr1 : Reach Gentle s1 := .step hr (by intro _ _ _ _ _ h; cases h) h3
  have hl : Later Gentle s1 s' := execB_later (fun s hb a h => gentleB_sound hb h) hr1 .refl h5
  refine ⟨s, s1, s', hr, h1, .sending, h3, hl, ?_, h6, h7, h8, ⟨_, h9, rfl⟩⟩
  rcases c122_kept hr h1 .sending h3 hl with h | ⟨h, _⟩
  · exact h
  · rw [h6] at h; cases h

/-- C122. In a fair execution, tasks at other mails may die, and everything about other mails may fail, as often as it likes: if
nothing crashes, no task at the mail `m` dies, and the storage is reliable for it, and it is listed while it is in the queue, and
the transport refuses it, and it is found, only finitely often, then it is delivered and removed. -/
theorem c122_others_delivered (E : Execution) (hf : Fair E) (m : MailId) (n n1 r : Nat)
    (hcrash : ∀ k r, E.act k ≠ .crash r)
    (hdeath : ∀ k i t, E.act k = .die i → (E.st k).task i = some t → t.op.mail ≠ m)
    (hstore : ∀ k i eff r o, E.act k = .answer i .err eff → (E.st k).task i = some ⟨r, o, none⟩ → o.mail = m →
      (∃ c b, o = .transportSend c b) ∨ Stale (E.st k) o)
    (hup : E.act n = .list r m ∧ (E.st n).store m = .queued)
    (hend : ∀ k, n1 ≤ k → ¬ Refuses m (E.st k) (E.act k) ∧ ¬ Finds m (E.act k)) :
    ∃ k, n ≤ k ∧ (E.st k).store m = .gone ∧ Accepted (E.st k).log m :=
  c77_delivered E hf m 0 n n1 (fun k _ => ⟨hcrash k, fun i r o a h1 h2 => by rw [about_eq]; exact hdeath k i _ h1 h2,
    fun i eff r o h1 h2 h3 => hstore k i eff r o h1 h2 (by rw [← about_eq]; exact h3)⟩) (Nat.zero_le _) (.inl ⟨r, hup⟩) hend

/-- What `c122_others_delivered` asks of every action, for the mail 9. -/
def deathB (s : St) : Act → Bool
  | .crash _ => false
  | .die i => match s.task i with
    | some t => t.op.mail != 9
    | none => true
  | .answer _ .err _ => false
  | .find _ c => c.mail != 9
  | _ => true

/-- `panicRun` meets its hypotheses for the mail 9. -/
theorem c122_example_others : ∃ (E : Execution) (n n1 : Nat), Fair E ∧ (∀ k r, E.act k ≠ .crash r) ∧
    (∀ k i t, E.act k = .die i → (E.st k).task i = some t → t.op.mail ≠ 9) ∧
    (∀ k i eff r o, E.act k = .answer i .err eff → (E.st k).task i = some ⟨r, o, none⟩ → o.mail = 9 →
      (∃ c b, o = .transportSend c b) ∨ Stale (E.st k) o) ∧
    (E.act n = .list 0 9 ∧ (E.st n).store 9 = .queued) ∧
    (∀ k, n1 ≤ k → ¬ Refuses 9 (E.st k) (E.act k) ∧ ¬ Finds 9 (E.act k)) ∧
    E.act 10 = .die 0 ∧ E.act 14 = .die 1 := by
  obtain ⟨s, hs, hs'⟩ := of_any (x := exec init panicRun)
    (p := fun s => (List.range s.tids).all fun i => (s.task i).isNone) (by decide +kernel)
  have hk : ∀ k, deathB ((Execution.ofList panicRun panicRun_ok).st k) ((Execution.ofList panicRun panicRun_ok).act k) = true := by
    intro k
    exact checkB_sound (P := fun s a => deathB s a = true) (fun s a h => h) (fun s => rfl) k panicRun init (by decide +kernel)
  refine ⟨.ofList panicRun panicRun_ok, 11, 0, ?_, ?_, ?_, ?_, ⟨by decide +kernel, by decide +kernel⟩, ?_, by decide +kernel,
    by decide +kernel⟩
  · refine Execution.ofList_fair _ _ s hs fun i => ?_
    cases hi : s.task i with
    | none => rfl
    | some t =>
      have := ((exec_reach (P := Always) .init (fun _ _ => trivial) hs).basic.task i t hi).tid
      simp only [List.all_eq_true, List.mem_range, Option.isNone_iff_eq_none] at hs'
      rw [hs' i this] at hi
      cases hi
  · intro k r h
    have := hk k
    rw [h] at this
    cases this
  · intro k i t h ht
    have := hk k
    rw [h] at this
    simp only [deathB, ht] at this
    simpa using this
  · intro k i eff r o h
    have := hk k
    rw [h] at this
    cases this
  · intro k _
    have := hk k
    constructor
    · rintro ⟨i, eff, r, c, b, h, _⟩
      rw [h] at this
      cases this
    · rintro ⟨r, c, h, hc⟩
      rw [h] at this
      simp [deathB, hc] at this

end Verif
