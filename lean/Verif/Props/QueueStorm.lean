import Verif.Props.QueueOnce
/-
C90: how often, and how soon, a refused mail is tried again.
-/
namespace Verif.Queue

/-- One attempt of task `i` that the transport refuses, up to the moment when the next attempt has been spawned. -/
def refusedAttempt (s : St) (i : Nat) (m : MailId) : List Act :=
  [.answer i (.inflight ⟨m, s.gens⟩) false, .proceed i, .answer i (.mail m) false, .proceed i, .answer i .err false, .proceed i,
    .answer i (.queued m) false, .proceed i]

theorem refused_attempt (s : St) (i r : Nat) (m : MailId) (ht : s.task i = some ⟨r, .sendStart m, none⟩)
    (hm : s.store m = .queued) :
    ∃ s', exec s (refusedAttempt s i m) = some s' ∧ s'.now = s.now ∧ s'.store m = .queued ∧
      (∀ x, x ≠ m → s'.store x = s.store x) ∧
      (∃ j, s'.task j = some ⟨r, .sendStart m, none⟩) ∧ refusals m s'.log = refusals m s.log + 1 := by
  simp only [refusedAttempt, exec, step, ht, effect, hm, St.take, St.note, St.proceed, next, sendQueuedMail, St.spawn, upd,
    if_true, and_self, Option.map_some]
  refine ⟨_, rfl, rfl, ?_, ?_, ⟨s.tids, ?_⟩, ?_⟩
  · simp
  · intro x hx; simp [upd, hx]
  · simp
  · simp [refusals, Entry.refuses, List.countP_append]

end Verif.Queue

namespace Verif.Queue

/-- A task that has been given the mail `m` back and has not begun the next attempt yet. -/
def givesBack (m : MailId) (t : Task) : Bool :=
  match t with
  | ⟨_, .sendCancel _, some (.queued x)⟩ => x == m
  | ⟨_, .cancelFound _, some (.queued x)⟩ => x == m
  | _ => false

/-- How many of the first `n` tasks satisfy `p`. -/
def cnt (p : Task → Bool) (f : Nat → Option Task) (n : Nat) : Nat := (List.range n).countP fun i => (f i).any p

theorem cnt_succ (p : Task → Bool) (f : Nat → Option Task) (n : Nat) :
    cnt p f (n + 1) = cnt p f n + if (f n).any p then 1 else 0 := by
  simp [cnt, List.range_succ, List.countP_append, List.countP_cons]

theorem cnt_out (p : Task → Bool) (f : Nat → Option Task) (n i : Nat) (v : Option Task) (h : n ≤ i) :
    cnt p (upd f i v) n = cnt p f n := by
  induction n with
  | zero => rfl
  | succ n ih => rw [cnt_succ, cnt_succ, ih (by omega), upd_ne _ _ (by omega)]

theorem cnt_in (p : Task → Bool) (f : Nat → Option Task) (n i : Nat) (v : Option Task) (h : i < n) :
    cnt p (upd f i v) n + (if (f i).any p then 1 else 0) = cnt p f n + if v.any p then 1 else 0 := by
  induction n with
  | zero => omega
  | succ n ih =>
    rw [cnt_succ, cnt_succ]
    by_cases hi : i = n
    · subst hi
      rw [cnt_out _ _ _ _ _ (Nat.le_refl _), upd_same]
      omega
    · have := ih (by omega)
      rw [upd_ne _ _ (by omega)]
      omega

theorem cnt_le (p : Task → Bool) (f g : Nat → Option Task) (n : Nat) (h : ∀ i t, f i = some t → g i = some t) :
    cnt p f n ≤ cnt p g n := by
  induction n with
  | zero => exact Nat.le_refl _
  | succ n ih =>
    rw [cnt_succ, cnt_succ]
    cases hf : f n with
    | none => simp; omega
    | some t => rw [h n t hf]; omega

theorem cnt_zero (p : Task → Bool) (f : Nat → Option Task) (n : Nat) (h : ∀ i t, f i = some t → p t = false) :
    cnt p f n = 0 := by
  induction n with
  | zero => rfl
  | succ n ih =>
    rw [cnt_succ, ih]
    cases hf : f n with
    | none => rfl
    | some t => simp [h n t hf]

theorem attempts_append (m : MailId) (l new : List Entry) : attempts m (l ++ new) = attempts m l + attempts m new := by
  simp [attempts]
theorem hands_append (m : MailId) (l new : List Entry) : hands m (l ++ new) = hands m l + hands m new := by simp [hands]

/-- The attempts begun and the ones about to begin are as many as the times the mail was handed over; a crash, and a death, only takes away. -/
structure Balanced (s : St) (m : MailId) : Prop where
  le : attempts m s.log + cnt (givesBack m) s.task s.tids ≤ hands m s.log
  eq : (∀ r, ¬ Has s.log (.crash r)) → (∀ r i o, Has s.log (.died r i o) → o.mail ≠ m) →
    hands m s.log ≤ attempts m s.log + cnt (givesBack m) s.task s.tids

theorem Balanced.quiet {s s' : St} {m : MailId} {new : List Entry} (h : Balanced s m) (hl : s'.log = s.log ++ new)
    (h0 : attempts m new + cnt (givesBack m) s'.task s'.tids = hands m new + cnt (givesBack m) s.task s.tids) :
    Balanced s' m := by
  obtain ⟨h1, h2⟩ := h
  constructor
  · rw [hl, attempts_append, hands_append]; omega
  · intro hc hd
    have := h2 (fun r ⟨e, he, h⟩ => hc r ⟨e, by rw [hl]; exact List.mem_append_left _ he, h⟩)
      fun r i o ⟨e, he, h⟩ => hd r i o ⟨e, by rw [hl]; exact List.mem_append_left _ he, h⟩
    rw [hl, attempts_append, hands_append]; omega

theorem Reach.balanced {P : St → Act → Prop} {s : St} (hr : Reach P s) (m : MailId) : Balanced s m := by
  induction hr with
  | init => exact ⟨by simp [Queue.init, attempts, cnt], fun _ _ => by simp [Queue.init, hands]⟩
  | @step s s' act hr hp hs ih =>
    have hb := hr.basic
    cases step_cases hs with
    | tick => exact ⟨ih.le, ih.eq⟩
    | @list r x h1 h2 =>
      refine ih.quiet (by rw [spawn_log, note_log, List.append_assoc]) ?_
      simp only [St.spawn, St.note, cnt_succ, upd_same, cnt_out _ _ _ _ _ (Nat.le_refl _), Option.any_some, givesBack]
      by_cases hx : x = m <;> simp [attempts, hands, Entry.attempts, Entry.hands, hx] <;> omega
    | @find r c τ h1 h2 =>
      refine ih.quiet (by rw [spawn_log, note_log, List.append_assoc]) ?_
      simp only [St.spawn, St.note, cnt_succ, upd_same, cnt_out _ _ _ _ _ (Nat.le_refl _), Option.any_some, givesBack]
      simp [attempts, hands, Entry.attempts, Entry.hands]
    | @finish tid r o a h1 h2 =>
      refine ih.quiet (note_log _ _) ?_
      have := cnt_in (givesBack m) s.task s.tids tid none (hb.task _ _ h1).tid
      have h3 : givesBack m ⟨r, o, some a⟩ = false := by
        unfold givesBack
        split
        · rename_i h; cases h; cases h2
        · rename_i h; cases h; cases h2
        · rfl
      simp only [h1, Option.any_some, h3, Option.any_none] at this
      simpa [attempts, hands, Entry.attempts, Entry.hands, St.note] using this
    | @goOn tid r o a o' h1 h2 =>
      refine ih.quiet (note_log _ _) ?_
      have := cnt_in (givesBack m) s.task s.tids tid (some ⟨r, o', none⟩) (hb.task _ _ h1).tid
      cases next_cases h2 with
      | @recovered c x =>
        by_cases hx : x = m <;>
          simp [attempts, hands, Entry.attempts, Entry.hands, St.note, h1, givesBack, hx] at this ⊢ <;> omega
      | _ => simp [attempts, hands, Entry.attempts, Entry.hands, St.note, h1, givesBack] at this ⊢ <;> omega
    | @spawn tid r o a o' h1 h2 =>
      refine ih.quiet (by rw [spawn_log, note_log, List.append_assoc]) ?_
      have := cnt_in (givesBack m) s.task s.tids tid none (hb.task _ _ h1).tid
      simp only [St.spawn, St.note, cnt_succ, upd_same, cnt_out _ _ _ _ _ (Nat.le_refl _), Option.any_some, givesBack]
      cases next_cases h2 with
      | @cancelled c x =>
        by_cases hx : x = m <;>
          simp [attempts, hands, Entry.attempts, Entry.hands, h1, givesBack, hx] at this ⊢ <;> omega
    | @crash r h1 =>
      have h2 := cnt_le (givesBack m) (survivors s r) s.task s.tids (by
        intro i t h
        unfold survivors at h
        split at h
        · rename_i t' ht
          split at h
          · cases h
          · cases h; exact ht
        · cases h)
      have h3 := ih.le
      refine ⟨?_, fun hc _ => absurd ⟨_, by rw [note_log]; exact List.mem_append_right _ List.mem_cons_self, rfl⟩ (hc r)⟩
      rw [note_log, attempts_append, hands_append]
      simp only [St.note]
      simp [attempts, hands, Entry.attempts, Entry.hands] at h3 ⊢
      omega
    | @die tid t h1 =>
      have h2 := cnt_in (givesBack m) s.task s.tids tid none (hb.task _ _ h1).tid
      have h3 := ih.le
      simp only [h1, Option.any_some, Option.any_none] at h2
      constructor
      · rw [note_log, attempts_append, hands_append]
        simp only [St.note]
        simp [attempts, hands, Entry.attempts, Entry.hands] at h2 h3 ⊢
        omega
      · intro hc hd
        have h4 := ih.eq (fun r ⟨e, he, h⟩ => hc r ⟨e, by rw [note_log]; exact List.mem_append_left _ he, h⟩)
          fun r i o ⟨e, he, h⟩ => hd r i o ⟨e, by rw [note_log]; exact List.mem_append_left _ he, h⟩
        have h5 : givesBack m t = false := by
          have h6 := hd t.run tid t.op ⟨⟨s.now, .died t.run tid t.op⟩, by simp [St.note], rfl⟩
          have h7 := hr.past _ _ h1
          unfold givesBack
          split
          · rename_i c x
            have := h7.back c (.inl rfl) x rfl
            simp only [Op.mail] at h6
            simp [this, h6]
          · rename_i c x
            have := h7.back c (.inr rfl) x rfl
            simp only [Op.mail] at h6
            simp [this, h6]
          · rfl
        rw [h5] at h2
        rw [note_log, attempts_append, hands_append]
        simp only [St.note]
        simp [attempts, hands, Entry.attempts, Entry.hands] at h2 h4 ⊢
        omega
    | @answer tid r o a eff s1 h1 he =>
      obtain ⟨e1, e2, e3, e4, e5⟩ := he.same
      refine ih.quiet (new := [⟨s.now, .answer r tid o a⟩]) (by rw [note_log]; simp only [e3, e5]) ?_
      have h3 : s1.tids = s.tids := by first | exact e2 | exact e4
      have := cnt_in (givesBack m) s.task s.tids tid (some ⟨r, o, some a⟩) (hb.task _ _ h1).tid
      simp only [St.note, e1, h3]
      simp only [h1, Option.any_some] at this
      have h4 : givesBack m ⟨r, o, none⟩ = false := by cases o <;> rfl
      have h5 : (if givesBack m ⟨r, o, some a⟩ = true then 1 else 0) = hands m [⟨s.now, .answer r tid o a⟩] := by
        cases o <;> cases a <;> simp [givesBack, hands, Entry.hands, List.countP_cons]
      have h6 : attempts m [⟨s.now, .answer r tid o a⟩] = 0 := by simp [attempts, Entry.attempts]
      rw [h4, h5] at this
      simp at this
      omega
    | _ => exact ih.quiet (note_log _ _) (by simp [attempts, hands, Entry.attempts, Entry.hands, St.note])

end Verif.Queue

namespace Verif
open Queue

/-- C90. In every execution, crashes and deaths included: a mail is attempted at most once for every time it was handed to the queue
(yielded by `list_queue`, or put back by `send_cancel` or `cancel_found_inflight`). -/
theorem c90_attempts {s : St} (h : Reach Always s) (m : MailId) : attempts m s.log ≤ hands m s.log :=
  Nat.le_trans (Nat.le_add_right _ _) (h.balanced m).le

/-- C90. Without crashes, and if no task at this mail was dropped or panicked, once no task is about to go on: it was attempted exactly once for every time. -/
theorem c90_attempts_exact {s : St} (h : Reach Always s) (m : MailId) (hc : ∀ r, ¬ Has s.log (.crash r))
    (hd : ∀ r i o, Has s.log (.died r i o) → o.mail ≠ m) (hq : ∀ i t, s.task i = some t → t.ans = none) : attempts m s.log = hands m s.log := by
  have h0 : cnt (givesBack m) s.task s.tids = 0 := by
    refine cnt_zero _ _ _ fun i t ht => ?_
    obtain ⟨r, o, a⟩ := t
    have := hq i _ ht
    simp only at this
    subst this
    cases o <;> rfl
  have h1 := (h.balanced m).le
  have h2 := (h.balanced m).eq hc hd
  omega

/-- C90. A transport that keeps refusing a mail gets it again without limit and without any pause: from any state in which an
attempt of a queued mail has been spawned, any number of further attempts may follow before the clock moves. -/
theorem c90_no_pause (s : St) (i r : Nat) (m : MailId) (ht : s.task i = some ⟨r, .sendStart m, none⟩)
    (hm : s.store m = .queued) (n : Nat) :
    ∃ acts s', exec s acts = some s' ∧ s'.now = s.now ∧ refusals m s'.log = refusals m s.log + n ∧
      s'.store m = .queued ∧ (∀ a ∈ acts, (∃ j x, a = .answer j x false) ∨ ∃ j, a = .proceed j) := by
  induction n generalizing s i with
  | zero => exact ⟨[], s, rfl, rfl, rfl, hm, by simp⟩
  | succ n ih =>
    obtain ⟨s1, h1, h2, h3, _, ⟨j, h4⟩, h5⟩ := refused_attempt s i r m ht hm
    obtain ⟨acts, s2, g1, g2, g3, g4, g5⟩ := ih s1 j h4 h3
    refine ⟨refusedAttempt s i m ++ acts, s2, ?_, by omega, by omega, g4, ?_⟩
    · have key : ∀ (as bs : List Act) (s s1 : St), exec s as = some s1 → exec s (as ++ bs) = exec s1 bs := by
        intro as
        induction as with
        | nil => intro bs s s1 h; cases h; rfl
        | cons a as ih =>
          intro bs s s1 h
          simp only [exec, List.cons_append] at h ⊢
          cases hs : step s a with
          | none => rw [hs] at h; cases h
          | some s2 => rw [hs] at h; exact ih bs s2 s1 h
      rw [key _ _ _ _ h1, g1]
    · intro a ha
      rcases List.mem_append.1 ha with ha | ha
      · simp [refusedAttempt] at ha
        rcases ha with rfl | rfl | rfl | rfl | rfl | rfl | rfl | rfl
        · exact .inl ⟨_, _, rfl⟩
        · exact .inr ⟨_, rfl⟩
        · exact .inl ⟨_, _, rfl⟩
        · exact .inr ⟨_, rfl⟩
        · exact .inl ⟨_, _, rfl⟩
        · exact .inr ⟨_, rfl⟩
        · exact .inl ⟨_, _, rfl⟩
        · exact .inr ⟨_, rfl⟩
      · exact g5 a ha


/-- The hypotheses are met: a mail has been listed, and its attempt spawned. -/
theorem c90_example : ∃ s, Reach Always s ∧ s.task 0 = some ⟨0, .sendStart 7, none⟩ ∧ s.store 7 = .queued := by
  obtain ⟨s, hs, h⟩ := of_any (x := exec Queue.init [.enqueue 7, .start 0, .list 0 7])
    (p := fun s => s.task 0 == some ⟨0, .sendStart 7, none⟩ && s.store 7 == .queued) (by decide +kernel)
  simp only [Bool.and_eq_true, beq_iff_eq] at h
  exact ⟨s, exec_reach .init (fun _ _ => trivial) hs, h.1, h.2⟩

/-- Listed once, given back once, two attempts; a task at another mail died. -/
theorem c90_example_exact : ∃ s, Reach Always s ∧ (∀ r, ¬ Has s.log (.crash r)) ∧
    (∀ r i o, Has s.log (.died r i o) → o.mail ≠ 7) ∧ Has s.log (.died 0 1 (.sendStart 8)) ∧
    (∀ i t, s.task i = some t → t.ans = none) ∧ attempts 7 s.log = 2 ∧ refusals 7 s.log = 1 := by
  obtain ⟨s, hs, h⟩ := of_any (x := exec Queue.init [.enqueue 7, .enqueue 8, .start 0, .list 0 7, .list 0 8, .die 1, .listEnd 0,
      .findEnd 0, .answer 0 (.inflight ⟨7, 0⟩) true, .proceed 0, .answer 0 (.mail 7) true, .proceed 0, .answer 0 .err true,
      .proceed 0, .answer 0 (.queued 7) true, .proceed 0])
    (p := fun s => s.tids == 3 && (s.task 0).isNone && (s.task 1).isNone && (s.task 2).all (·.ans.isNone) && attempts 7 s.log == 2 &&
      refusals 7 s.log == 1 && s.log.all (fun e => match e.ev with | .crash _ => false | .died _ _ o => o.mail != 7 | _ => true) &&
      decide (⟨0, .died 0 1 (.sendStart 8)⟩ ∈ s.log)) (by decide +kernel)
  have hr := exec_reach (P := Always) .init (fun _ _ => trivial) hs
  simp only [Bool.and_eq_true, beq_iff_eq, Option.isNone_iff_eq_none, List.all_eq_true, decide_eq_true_eq] at h
  obtain ⟨⟨⟨⟨⟨⟨⟨h1, h2⟩, h3'⟩, h3⟩, h4⟩, h5⟩, h6⟩, h7⟩ := h
  refine ⟨s, hr, ?_, ?_, ⟨_, h7, rfl⟩, ?_, h4, h5⟩
  · rintro r ⟨e, he, hev⟩
    have := h6 e he
    rw [hev] at this
    cases this
  · rintro r i o ⟨e, he, hev⟩
    have := h6 e he
    rw [hev] at this
    simpa using this
  · intro i t ht
    have := (hr.basic.task i t ht).tid
    rw [h1] at this
    match i, this, ht with
    | 0, _, ht => rw [h2] at ht; cases ht
    | 1, _, ht => rw [h3'] at ht; cases ht
    | 2, _, ht => rw [ht] at h3; simpa using h3

end Verif
