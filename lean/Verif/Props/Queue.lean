import Verif.Proofs.QueueCheck
/-
Properties of the queue: C57 to C64, C66 to C68.

`Reach P s`: `s` is reached by some execution, of any length, of any number of instances of `run` on one storage, with
any failures and crashes, all of whose actions satisfy `P`. `Always` is no condition. `s.log` is everything that
happened.
-/
namespace Verif
open Queue

/-! ### C57 The queue never loses a mail -/

/-- A mail that was enqueued is in the queue, in flight, or was accepted by the transport. -/
theorem c57_never_lost {s : St} (h : Reach Always s) {m : MailId} (hm : Has s.log (.enqueued m)) :
    s.store m = .queued ∨ (∃ g, s.store m = .inflight g) ∨ (s.store m = .gone ∧ Accepted s.log m) := by
  have hk := h.kept
  cases hs : s.store m with
  | absent => exact absurd hs (hk.there m hm)
  | queued => exact .inl rfl
  | inflight g => exact .inr (.inl ⟨g, rfl⟩)
  | gone => exact .inr (.inr ⟨rfl, hk.gone m hs⟩)

/-- Nothing the queue does makes up a mail. -/
theorem c57_nothing_new {s : St} (h : Reach Always s) {m : MailId} (hm : s.store m ≠ .absent) :
    Has s.log (.enqueued m) := h.kept.back m hm

/-! ### C58 send_done only after the transport accepted -/

/-- Before each call of `send_done`, the same task was answered this in-flight mail by `send_start` of the mail, and
`Ok` by the transport for the message of this mail. -/
theorem c58_done_after_accepted {s : St} (h : Reach Always s) {pre post : List Entry} {t r i : Nat} {c : Claim}
    (hl : s.log = pre ++ ⟨t, .call r i (.sendDone c)⟩ :: post) :
    Has pre (.answer r i (.sendStart c.mail) (.inflight c)) ∧ Has pre (.answer r i (.transportSend c c.mail) .ok) := by
  cases h.protocol pre _ post hl r i _ rfl with
  | done h1 h2 => exact ⟨h1, h2⟩

/-- And what `get_mail` gave to the transport is the message of the mail that was claimed. -/
theorem c58_right_message {s : St} (h : Reach Always s) {pre post : List Entry} {t r i : Nat} {c : Claim} {b : MailId}
    (hl : s.log = pre ++ ⟨t, .call r i (.transportSend c b)⟩ :: post) :
    b = c.mail ∧ Has pre (.answer r i (.sendStart c.mail) (.inflight c)) := by
  cases h.protocol pre _ post hl r i _ rfl with
  | send h1 h2 => exact ⟨rfl, h1⟩

/-- Conversely, after the transport accepted, the task calls `send_done` for the same in-flight mail, unless it has not
yet run again or it was cut off: its process crashed, or it was dropped or panicked. -/
theorem c58_accepted_is_done {s : St} (h : Reach Always s) {pre post : List Entry} {t r i : Nat} {c : Claim} {b : MailId}
    (hl : s.log = pre ++ ⟨t, .answer r i (.transportSend c b) .ok⟩ :: post) :
    s.task i = some ⟨r, .transportSend c b, some .ok⟩ ∨ CutOff post r i (.transportSend c b) ∨ Has post (.call r i (.sendDone c)) :=
  h.reacted hl

/-! ### C59 A refused mail is put back and retried -/

/-- After the transport refused, the task calls `send_cancel` for the same in-flight mail, unless it has not yet run
again or it was cut off: its process crashed, or it was dropped or panicked. -/
theorem c59_refused_is_cancelled {s : St} (h : Reach Always s) {pre post : List Entry} {t r i : Nat} {c : Claim} {b : MailId}
    (hl : s.log = pre ++ ⟨t, .answer r i (.transportSend c b) .err⟩ :: post) :
    s.task i = some ⟨r, .transportSend c b, some .err⟩ ∨ CutOff post r i (.transportSend c b) ∨
    Has post (.call r i (.sendCancel c)) :=
  h.reacted hl

/-- When `send_cancel` succeeds the mail is in the queue. -/
theorem c59_queued_again {s s' : St} {i r : Nat} {c : Claim} {m : MailId} {eff : Bool}
    (ht : s.task i = some ⟨r, .sendCancel c, none⟩) (hs : step s (.answer i (.queued m) eff) = some s') :
    m = c.mail ∧ s'.store c.mail = .queued := by
  cases step_cases hs with
  | answer h1 he =>
    rw [h1] at ht
    cases ht
    cases he with
    | cancelled h2 h3 =>
      refine ⟨by simpa using h3, ?_⟩
      show upd s.store c.mail .queued c.mail = _
      simp

/-- After `send_cancel` gave the mail back, a new task is spawned that calls `send_start` for it, unless the task has
not yet run again or it was cut off: its process crashed, or it was dropped or panicked. -/
theorem c59_cancelled_is_retried {s : St} (h : Reach Always s) {pre post : List Entry} {t r i : Nat} {c : Claim} {m : MailId}
    (hl : s.log = pre ++ ⟨t, .answer r i (.sendCancel c) (.queued m)⟩ :: post) :
    s.task i = some ⟨r, .sendCancel c, some (.queued m)⟩ ∨ CutOff post r i (.sendCancel c) ∨
    ∃ t' j mid post', post = mid ++ ⟨t', .spawned r i j⟩ :: ⟨t', .call r j (.sendStart m)⟩ :: post' :=
  h.reacted hl

/-- A task that was answered can always run. -/
theorem c59_never_blocked {s : St} {i r : Nat} {o : Op} {a : Ans} (ht : s.task i = some ⟨r, o, some a⟩) :
    ∃ s', step s (.proceed i) = some s' := by
  simp only [step, ht]
  exact ⟨_, rfl⟩

/-! ### C60 One attempt at a time -/

/-- As long as `cancel_found_inflight` takes effect only for in-flight mails nobody works on, two tasks that work on
the same mail are the same task. -/
theorem c60_one_attempt {s : St} (h : Reach Gentle s) {i j : Nat} {t u : Task} {c d : Claim}
    (hi : s.task i = some t) (hj : s.task j = some u) (hc : WorksOn t c) (hd : WorksOn u d) (hm : c.mail = d.mail) : i = j := by
  have ha := h.alone
  have h1 := ha.mine i t c hi hc
  have h2 := ha.mine j u d hj hd
  rw [← hm, h1] at h2
  have : c = d := by cases c; cases d; simp_all
  subst this
  exact ha.one i t j u c hi hj hc hd

/-- The condition in terms of time: attempts shorter than `A` seconds, and `find_inflight` yielding no mail later than
`F` seconds after startup, where `A + F` is at most the hour of run.rs:45. -/
theorem c60_one_attempt_timely {A F : Nat} (hAF : A + F ≤ 3600) {s : St} (h : Reach (Timely A F) s) {i j : Nat} {t u : Task}
    {c d : Claim} (hi : s.task i = some t) (hj : s.task j = some u) (hc : WorksOn t c) (hd : WorksOn u d)
    (hm : c.mail = d.mail) : i = j :=
  c60_one_attempt (h.gentle hAF) hi hj hc hd hm

/-- Whoever works on a mail has it in flight in the storage, with the claim it was given. -/
theorem c60_worker_owns {s : St} (h : Reach Gentle s) {i : Nat} {t : Task} {c : Claim} (hi : s.task i = some t)
    (hc : WorksOn t c) : s.store c.mail = .inflight c.gen := h.alone.mine i t c hi hc

/-! ### C61 Every listed mail gets an attempt -/

/-- The very next thing after `list_queue` yielded a mail is a call of `send_start` for it. -/
theorem c61_listed_is_attempted {s : St} (h : Reach Always s) {pre post : List Entry} {t r : Nat} {m : MailId}
    (hl : s.log = pre ++ ⟨t, .listed r m⟩ :: post) : ∃ j post', post = ⟨t, .call r j (.sendStart m)⟩ :: post' := by
  induction h generalizing pre post with
  | init => simp [Queue.init] at hl
  | @step s s' act hr hp hs ih =>
    have hst := step_cases hs
    obtain ⟨new, hnew⟩ := hst.log
    rw [hnew] at hl
    rcases split_log hl with ⟨post0, h1, rfl⟩ | ⟨x, rfl, h1⟩
    · obtain ⟨j, post', rfl⟩ := ih h1
      exact ⟨j, post' ++ new, by simp⟩
    · exact ⟨s.tids, [], (hst.listed hnew h1).2⟩

/-! ### C62 Recovery only after the delay and after listing -/

/-- `cancel_found_inflight` is not called before 3600 seconds after startup. -/
theorem c62_not_before_an_hour {s : St} (h : Reach Always s) {pre post : List Entry} {t r i : Nat} {c : Claim}
    (hl : s.log = pre ++ ⟨t, .call r i (.cancelFound c)⟩ :: post) :
    ∃ t0, HasAt pre t0 (.started r) ∧ (∀ t1, HasAt s.log t1 (.started r) → t1 = t0) ∧ t0 + 3600 ≤ t := by
  have h1 : Ordered (fun pre e => ∀ r i c, e.ev = .call r i (.cancelFound c) →
      ∃ t0, HasAt pre t0 (.started r) ∧ t0 + 3600 ≤ e.time) s.log := by
    refine h.calls (fun pre e he r i c h => absurd h (he r i _)) ?_
    intro s act s' l r i o hr hp hst hr' hl hx ht r' i' c he
    cases he
    have h2 := (hr'.waits _ _ ht).2 c rfl
    have h3 := hr'.basic.task _ _ ht
    refine ⟨(s'.runs r).startup, ?_, ?_⟩
    · have h4 := hr'.timed.started r h3.alive.1
      rw [hl] at h4
      exact h4.before (by simp)
    · have hn : s'.now = s.now := by
        cases hst with
        | tick =>
          obtain ⟨x, rfl⟩ := hx
          have := congrArg List.length hl
          simp at this
        | answer h1 he => obtain ⟨e1, e2, e3, e4, e5⟩ := he.same; exact e5
        | _ => rfl
      rw [← hn]
      exact h2
  obtain ⟨t0, h2, h3⟩ := h1 pre _ post hl r i c rfl
  refine ⟨t0, h2, ?_, h3⟩
  intro t1 ht1
  have h4 := h.timed.startup r t1 ht1
  have h5 := h.timed.startup r t0 (hl ▸ h2.append)
  omega

/-- `find_inflight` yields nothing to a run whose listing of the queue has not ended, or has failed. -/
theorem c62_listing_first {s : St} (h : Reach Always s) {pre post : List Entry} {t r : Nat} {c : Claim}
    (hl : s.log = pre ++ ⟨t, .found r c⟩ :: post) : Has pre (.listEnded r) ∧ ¬ Has pre (.listFailed r) := by
  have h1 : Ordered (fun pre e => ∀ r c, e.ev = .found r c → Has pre (.listEnded r) ∧ ¬ Has pre (.listFailed r)) s.log := by
    clear hl
    induction h with
    | init => exact Ordered.nil
    | @step s s' act hr hp hs ih =>
      have hst := step_cases hs
      cases hst with
      | tick => exact ih
      | list => exact (ih.snoc (by simp)).snoc (by simp)
      | find h1 h2 =>
        refine (ih.snoc ?_).snoc (by simp)
        intro r' c' he
        cases he
        exact hr.timed.finding _ h1
      | spawn => exact (ih.snoc (by simp)).snoc (by simp)
      | answer h2 he =>
        obtain ⟨e1, e2, e3, e4, e5⟩ := he.same
        rw [note_log]
        simp only [e3]
        exact ih.snoc (by simp)
      | _ => exact ih.snoc (by simp)
  exact h1 pre _ post hl r c rfl

/-! ### C63 A delivered mail is not sent again -/

/-- Once `send_done` has succeeded for a mail, by whichever instance, no task calls the transport with that mail any
more; crashes and restarts do not matter. -/
theorem c63_not_sent_again {s : St} (h : Reach Gentle s) {pre post : List Entry} {t r i : Nat} {c : Claim} {b : MailId}
    (hl : s.log = pre ++ ⟨t, .call r i (.transportSend c b)⟩ :: post) :
    ∀ r' i' d, d.mail = b → ¬ Has pre (.answer r' i' (.sendDone d) .ok) := by
  have h1 : Ordered (fun pre e => ∀ r i c b, e.ev = .call r i (.transportSend c b) →
      ∀ r' i' d, d.mail = b → ¬ Has pre (.answer r' i' (.sendDone d) .ok)) s.log := by
    refine h.calls (fun pre e he r i c b h => absurd h (he r i _)) ?_
    intro s act s' l r i o hr hp hst hr' hl hx ht r1 i1 c b he r' i' d hd hdone
    cases he
    have hb := (hr'.basic.task _ _ ht).body c b rfl
    have h2 := hr'.alone.mine _ _ c ht .sending
    have h3 := hr'.kept.done r' i' d (hl ▸ hdone.append)
    rw [hd, hb, h2] at h3
    cases h3
  exact h1 pre _ post hl r i c b rfl

/-! ### C66 The protocol -/

/-- Every call is justified by what was recorded before it. -/
theorem c66_protocol {s : St} (h : Reach Always s) {pre post : List Entry} {t r i : Nat} {o : Op}
    (hl : s.log = pre ++ ⟨t, .call r i o⟩ :: post) : Justified pre r i o :=
  h.protocol pre _ post hl r i o rfl

/-! ### C67 Sent again only after a crash, a death or a failed send_done -/

/-- If the transport is given a mail that it accepted before, in an attempt of run `r'`, then that run has crashed, or
the task of that attempt was dropped or panicked before `send_done` had answered, or `send_done` of that attempt has failed. -/
theorem c67_sent_again_only_after_failure {s : St} (h : Reach Gentle s) {pre post : List Entry} {t r i : Nat} {c : Claim}
    {b : MailId} (hl : s.log = pre ++ ⟨t, .call r i (.transportSend c b)⟩ :: post) {r' i' : Nat} {d : Claim}
    (ha : Has pre (.answer r' i' (.transportSend d b) .ok)) :
    (CutOff pre r' i' (.transportSend d b) ∨ CutOff pre r' i' (.sendDone d)) ∨ Has pre (.answer r' i' (.sendDone d) .err) := by
  have h1 : Ordered (fun pre e => ∀ r i c b, e.ev = .call r i (.transportSend c b) →
      ∀ r' i' d, Has pre (.answer r' i' (.transportSend d b) .ok) →
      (CutOff pre r' i' (.transportSend d b) ∨ CutOff pre r' i' (.sendDone d)) ∨
        Has pre (.answer r' i' (.sendDone d) .err)) s.log := by
    clear ha hl
    refine h.calls (fun pre e he r i c b h => absurd h (he r i _)) ?_
    intro s act s' l r i o hr hp hst hr' hl hx ht r1 i1 c b he r' i' d ha
    cases he
    have hb := (hr'.basic.task _ _ ht).body c b rfl
    have hbefore : ∀ ev, (∀ r i o, ev ≠ .call r i o) → Has s'.log ev → Has l ev := by
      intro ev hne hev
      rw [hl] at hev
      exact hev.before (fun h => hne _ _ _ h.symm)
    have hdm : b = d.mail := by
      obtain ⟨⟨t', ev⟩, h2, h3⟩ := ha
      simp only at h3
      subst h3
      have h4 := hr'.sentBody
      obtain ⟨p, q, hpq⟩ := List.append_of_mem h2
      exact h4 p ⟨t', .answer r' i' (.transportSend d b) .ok⟩ (q ++ [⟨s.now, .call r i (.transportSend c b)⟩]) (by rw [hl, hpq]; simp) _ _ _ _ _ rfl
    have hmine := hr'.alone.mine _ _ c ht .sending
    have haccepted := hr'.accepted (by rw [hl]; exact ha.append)
    rcases haccepted with h2 | h2 | h2 | h2 | h2
    · have := c60_one_attempt hr' ht h2 .sending .sending (by rw [← hb, hdm])
      subst this
      rw [ht] at h2
      cases h2
    · have := c60_one_attempt hr' ht h2 .sending .finishing (by rw [← hb, hdm])
      subst this
      rw [ht] at h2
      cases h2
    · exact .inl (h2.imp (.imp (hbefore _ (by simp)) (hbefore _ (by simp))) (.imp (hbefore _ (by simp)) (hbefore _ (by simp))))
    · have h3 := hr'.kept.done _ _ _ h2
      rw [← hdm, hb, hmine] at h3
      cases h3
    · exact .inr (hbefore _ (by simp) h2)
  exact h1 pre _ post hl r i c b rfl r' i' d ha

/-! ### C68 Recovery -/

/-- The very next thing after `find_inflight` yielded a mail is the start of a wait until an hour after startup. -/
theorem c68_found_waits {s : St} (h : Reach Always s) {pre post : List Entry} {t r : Nat} {c : Claim}
    (hl : s.log = pre ++ ⟨t, .found r c⟩ :: post) :
    ∃ t0 j post', HasAt pre t0 (.started r) ∧ post = ⟨t, .call r j (.delay (t0 + 3600) c)⟩ :: post' := by
  induction h generalizing pre post with
  | init => simp [Queue.init] at hl
  | @step s s' act hr hp hs ih =>
    have hst := step_cases hs
    obtain ⟨new, hnew⟩ := hst.log
    rw [hnew] at hl
    rcases split_log hl with ⟨post0, h1, rfl⟩ | ⟨x, rfl, h1⟩
    · obtain ⟨t0, j, post', h2, rfl⟩ := ih h1
      exact ⟨t0, j, post' ++ new, h2, by simp⟩
    · obtain ⟨h2, _, h3⟩ := hst.found hnew h1
      exact ⟨_, s.tids, [], (hr.timed.started r (by rw [h2]; simp)).append, h3⟩

/-- When the wait is over the task calls `cancel_found_inflight` for that mail, unless it has not yet run again or it was cut
off. -/
theorem c68_waited_is_recovered {s : St} (h : Reach Always s) {pre post : List Entry} {t r i T : Nat} {c : Claim}
    (hl : s.log = pre ++ ⟨t, .answer r i (.delay T c) .ok⟩ :: post) :
    s.task i = some ⟨r, .delay T c, some .ok⟩ ∨ CutOff post r i (.delay T c) ∨ Has post (.call r i (.cancelFound c)) :=
  h.reacted hl

/-- When `cancel_found_inflight` succeeds, the mail is in the queue. -/
theorem c68_queued_again {s s' : St} {i r : Nat} {c : Claim} {m : MailId} {eff : Bool}
    (ht : s.task i = some ⟨r, .cancelFound c, none⟩) (hs : step s (.answer i (.queued m) eff) = some s') :
    m = c.mail ∧ s'.store c.mail = .queued := by
  cases step_cases hs with
  | answer h1 he =>
    rw [h1] at ht
    cases ht
    cases he with
    | recovered h2 h3 =>
      refine ⟨by simpa using h3, ?_⟩
      show upd s.store c.mail .queued c.mail = _
      simp

/-- Then the task calls `send_start` for it, unless it has not yet run again or it was cut off: its process crashed, or it was dropped or panicked. -/
theorem c68_recovered_is_attempted {s : St} (h : Reach Always s) {pre post : List Entry} {t r i : Nat} {c : Claim} {m : MailId}
    (hl : s.log = pre ++ ⟨t, .answer r i (.cancelFound c) (.queued m)⟩ :: post) :
    s.task i = some ⟨r, .cancelFound c, some (.queued m)⟩ ∨ CutOff post r i (.cancelFound c) ∨
    Has post (.call r i (.sendStart m)) :=
  h.reacted hl

/-! ### C64 No mail is stranded -/

/-- As long as no operation of the storage fails and nothing crashes or dies, every mail that was listed or found is delivered
or has a task; the transport may refuse it any number of times. What is missing for C64: mails enqueued after the
listing, and failing operations (see the refutations below). -/
theorem c64_no_failure_partial {s : St} (h : Reach NoFailure s) {m : MailId}
    (hm : (∃ r, Has s.log (.listed r m)) ∨ (∃ r c, Has s.log (.found r c) ∧ c.mail = m)) :
    (s.store m = .gone ∧ Accepted s.log m) ∨ ∃ i t, s.task i = some t ∧ t.op.mail = m := by
  by_cases hg : s.store m = .gone
  · exact .inl ⟨hg, h.kept.gone m hg⟩
  · exact .inr (h.cared hm hg)

/-- With failures, crashes and deaths of any kind: a mail that an instance of `run` has listed or found has been delivered and
removed, or a task of this instance is at it, or this instance has crashed, or its task at this mail was dropped or panicked, or an operation of the storage (or the timer) for
this very mail has answered an error to this instance. So these are the only ways to strand a mail that was picked up; what
fails about other mails, or in other instances, does not matter. What is missing for C64: exactly these cases, and mails
enqueued after the listing (see the refutations below). -/
theorem c64_accounted_partial {s : St} (h : Reach Always s) {m : MailId} {r : Nat}
    (hm : Has s.log (.listed r m) ∨ ∃ c, Has s.log (.found r c) ∧ c.mail = m) :
    (s.store m = .gone ∧ Accepted s.log m) ∨ (∃ i t, s.task i = some t ∧ t.run = r ∧ t.op.mail = m) ∨
      (Has s.log (.crash r) ∨ ∃ i o, Has s.log (.died r i o) ∧ o.mail = m) ∨
      ∃ i o, Has s.log (.answer r i o .err) ∧ o.mail = m ∧ ∀ c b, o ≠ .transportSend c b := by
  by_cases hg : s.store m = .gone
  · exact .inl ⟨hg, h.kept.gone m hg⟩
  · exact .inr (h.accounted hm hg)

/-- Refutation: a mail enqueued after the listing gets no task: the run is over, nothing is running, and nothing will
happen to the mail unless `run` is called again. -/
theorem c64_late_mail_refuted : ∃ s, Reach NoFailure s ∧ (s.runs 0).phase = .finished ∧ s.store 0 = .queued ∧
    (∀ i, s.task i = none) ∧
    ∀ s', Continues s s' → s'.store 0 = .queued ∧ ∀ i, s'.task i = none := by
  refine ⟨_, execB_reach (B := noFailureB) (fun s _ a h => noFailureB_sound h) .init
    (as := [.start 0, .listEnd 0, .findEnd 0, .enqueue 0]) rfl, rfl, rfl, fun i => rfl, ?_⟩
  intro s' hs'
  obtain ⟨h1, h2⟩ := hs'.idle (fun i => rfl) (fun r => by by_cases h : r = 0 <;> simp [St.note, upd, h, Queue.init])
  exact ⟨h2 0 (by simp [St.note]), h1.1⟩

/-- Refutation: when `get_mail` fails, the mail stays in flight without a task, until `run` is called again (and an
hour passes). -/
theorem c64_failed_get_mail_refuted : ∃ s, Reach Always s ∧ (s.runs 0).phase = .finished ∧
    s.store 0 = .inflight 0 ∧ Has s.log (.listed 0 0) ∧ ¬ Has s.log (.crash 0) ∧ (∀ i, s.task i = none) ∧
    ∀ s', Continues s s' → s'.store 0 = .inflight 0 ∧ ∀ i, s'.task i = none := by
  have hr : ∃ s, exec Queue.init [.enqueue 0, .start 0, .list 0 0, .listEnd 0, .findEnd 0, .answer 0 (.inflight ⟨0, 0⟩) true,
      .proceed 0, .answer 0 .err false, .proceed 0] = some s := ⟨_, rfl⟩
  obtain ⟨s, hs⟩ := hr
  have hreach : Reach Always s := exec_reach .init (fun _ _ => trivial) hs
  cases hs
  have ht : ∀ i : Nat, upd (upd (upd (upd (upd (fun _ => (none : Option Task)) 0 (some ⟨0, .sendStart 0, none⟩))
      0 (some ⟨0, .sendStart 0, some (.inflight ⟨0, 0⟩)⟩)) 0 (some ⟨0, .getMail ⟨0, 0⟩, none⟩))
      0 (some ⟨0, .getMail ⟨0, 0⟩, some .err⟩)) 0 none i = none := by
    intro i
    by_cases h : i = 0 <;> simp [upd, h]
  refine ⟨_, hreach, rfl, rfl, ⟨⟨0, .listed 0 0⟩, ?_, rfl⟩, ?_, ht, ?_⟩
  · simp [St.note, St.spawn, St.proceed, St.take, Queue.init, sendQueuedMail, next]
  · rintro ⟨e, h1, h2⟩
    simp [St.note, St.spawn, St.proceed, St.take, Queue.init, sendQueuedMail, next] at h1
    rcases h1 with rfl | rfl | rfl | rfl | rfl | rfl | rfl | rfl | rfl | rfl <;> simp at h2
  · intro s' hs'
    obtain ⟨h1, h2⟩ := hs'.idle ht (fun r => by
      by_cases h : r = 0 <;> simp [St.note, St.spawn, St.proceed, St.take, Queue.init, sendQueuedMail, next, upd, h])
    exact ⟨h2 0 (by simp [St.note, St.spawn, St.proceed, St.take, Queue.init, sendQueuedMail, next, upd]), h1.1⟩

/-! ### C69 The hour's delay protects mails that are being sent -/

/-- When attempts take less than `A` seconds and `find_inflight` yields its mails within `F` seconds after startup, with
`A + F ≤ 3600`, then whenever `cancel_found_inflight` answers, with or without success, no task works with that claim. Missing for C69: the
condition on `find_inflight`, without which it is false. -/
theorem c69_not_taken_away_partial {A F : Nat} (hAF : A + F ≤ 3600) {s : St} (h : Reach (Timely A F) s) {i r : Nat}
    {c : Claim} {a : Ans} {eff : Bool} (hact : Timely A F s (.answer i a eff)) (hi : s.task i = some ⟨r, .cancelFound c, none⟩)
    {j : Nat} {t : Task} (hj : s.task j = some t) : ¬ WorksOn t c := by
  intro hw
  have h1 := h.recoverable hAF _ _ c hi (.inr rfl)
  obtain ⟨τ, h2, h3⟩ := h1
  have h4 := hact.1 j t c τ hj hw h2
  have h5 := (h.waits _ _ hi).2 c rfl
  simp only at h3 h5
  omega

/-- Refutation: the condition on `find_inflight` is needed, and `A + F ≤ 3600` cannot be relaxed by one second, here and
in C60. The delay of
run.rs:45 counts from startup and not from the moment the mail was found. So when listing the queue takes an hour, a
mail that this very run is sending (for less than a second) is found in flight, recovered at once, and sent a second
time concurrently. -/
theorem c69_slow_listing_refuted : ∃ s, Reach (Timely 1 3600) s ∧
    s.task 0 = some ⟨0, .transportSend ⟨0, 0⟩ 0, none⟩ ∧ s.task 1 = some ⟨0, .transportSend ⟨0, 1⟩ 0, none⟩ := by
  have hr : ∃ s, execB (timelyB 1 3600) Queue.init [.enqueue 0, .start 0, .list 0 0, .tick 3600,
      .answer 0 (.inflight ⟨0, 0⟩) true, .proceed 0, .answer 0 (.mail 0) true, .proceed 0, .listEnd 0, .find 0 ⟨0, 0⟩,
      .answer 1 .ok true, .proceed 1, .answer 1 (.queued 0) true, .proceed 1, .answer 1 (.inflight ⟨0, 1⟩) true, .proceed 1,
      .answer 1 (.mail 0) true, .proceed 1] = some s := ⟨_, rfl⟩
  obtain ⟨s, hs⟩ := hr
  refine ⟨s, execB_reach (fun s hb a h => timelyB_sound hb h) .init hs, ?_⟩
  cases hs
  exact ⟨rfl, rfl⟩

/-! ### Concrete executions -/

/-- An execution with everything in it: a mail is refused, put back, retried, accepted; the process crashes before
`send_done`; a second instance finds the mail in flight, recovers it an hour after its start, and delivers it. Nobody
worked on the mail when it was recovered, and attempts took less than a minute. -/
def bigRun : List Act := [.enqueue 7, .start 0, .list 0 7, .listEnd 0, .findEnd 0, .answer 0 (.inflight ⟨7, 0⟩) true,
  .proceed 0, .answer 0 (.mail 7) true, .proceed 0, .tick 10, .answer 0 .err true, .proceed 0, .answer 0 (.queued 7) true,
  .proceed 0, .answer 1 (.inflight ⟨7, 1⟩) true, .proceed 1, .answer 1 (.mail 7) true, .proceed 1, .tick 10, .answer 1 .ok true,
  .proceed 1, .crash 0, .tick 10, .start 1, .listEnd 1, .find 1 ⟨7, 1⟩, .findEnd 1, .tick 3600, .answer 2 .ok true, .proceed 2,
  .answer 2 (.queued 7) true, .proceed 2, .answer 2 (.inflight ⟨7, 2⟩) true, .proceed 2, .answer 2 (.mail 7) true, .proceed 2,
  .answer 2 .ok true, .proceed 2, .answer 2 .ok true, .proceed 2]

/-- The record of `bigRun`. -/
def bigLog : List Entry := [⟨0, .enqueued 7⟩, ⟨0, .started 0⟩, ⟨0, .listed 0 7⟩, ⟨0, .call 0 0 (.sendStart 7)⟩,
  ⟨0, .listEnded 0⟩, ⟨0, .findEnded 0⟩, ⟨0, .answer 0 0 (.sendStart 7) (.inflight ⟨7, 0⟩)⟩, ⟨0, .call 0 0 (.getMail ⟨7, 0⟩)⟩,
  ⟨0, .answer 0 0 (.getMail ⟨7, 0⟩) (.mail 7)⟩, ⟨0, .call 0 0 (.transportSend ⟨7, 0⟩ 7)⟩,
  ⟨10, .answer 0 0 (.transportSend ⟨7, 0⟩ 7) .err⟩, ⟨10, .call 0 0 (.sendCancel ⟨7, 0⟩)⟩,
  ⟨10, .answer 0 0 (.sendCancel ⟨7, 0⟩) (.queued 7)⟩, ⟨10, .spawned 0 0 1⟩, ⟨10, .call 0 1 (.sendStart 7)⟩,
  ⟨10, .answer 0 1 (.sendStart 7) (.inflight ⟨7, 1⟩)⟩, ⟨10, .call 0 1 (.getMail ⟨7, 1⟩)⟩,
  ⟨10, .answer 0 1 (.getMail ⟨7, 1⟩) (.mail 7)⟩, ⟨10, .call 0 1 (.transportSend ⟨7, 1⟩ 7)⟩,
  ⟨20, .answer 0 1 (.transportSend ⟨7, 1⟩ 7) .ok⟩, ⟨20, .call 0 1 (.sendDone ⟨7, 1⟩)⟩, ⟨20, .crash 0⟩,
  ⟨30, .started 1⟩, ⟨30, .listEnded 1⟩, ⟨30, .found 1 ⟨7, 1⟩⟩, ⟨30, .call 1 2 (.delay 3630 ⟨7, 1⟩)⟩, ⟨30, .findEnded 1⟩,
  ⟨3630, .answer 1 2 (.delay 3630 ⟨7, 1⟩) .ok⟩, ⟨3630, .call 1 2 (.cancelFound ⟨7, 1⟩)⟩,
  ⟨3630, .answer 1 2 (.cancelFound ⟨7, 1⟩) (.queued 7)⟩, ⟨3630, .call 1 2 (.sendStart 7)⟩,
  ⟨3630, .answer 1 2 (.sendStart 7) (.inflight ⟨7, 2⟩)⟩, ⟨3630, .call 1 2 (.getMail ⟨7, 2⟩)⟩,
  ⟨3630, .answer 1 2 (.getMail ⟨7, 2⟩) (.mail 7)⟩, ⟨3630, .call 1 2 (.transportSend ⟨7, 2⟩ 7)⟩,
  ⟨3630, .answer 1 2 (.transportSend ⟨7, 2⟩ 7) .ok⟩, ⟨3630, .call 1 2 (.sendDone ⟨7, 2⟩)⟩,
  ⟨3630, .answer 1 2 (.sendDone ⟨7, 2⟩) .ok⟩, ⟨3630, .ended 1 2⟩]

/-- It meets the hypotheses of C57 to C63 and C66 to C68, with every kind of entry those are about. -/
theorem c60_example : ∃ s, Reach (Timely 60 60) s ∧ Reach Gentle s ∧ Reach Always s ∧ s.log = bigLog ∧
    s.store 7 = .gone ∧ Has s.log (.enqueued 7) := by
  have hr : ∃ s, execB (timelyB 60 60) Queue.init bigRun = some s := ⟨_, rfl⟩
  obtain ⟨s, hs⟩ := hr
  have h1 : Reach (Timely 60 60) s := execB_reach (fun s hb a h => timelyB_sound hb h) .init hs
  refine ⟨s, h1, h1.gentle (by decide), h1.always, ?_⟩
  cases hs
  exact ⟨rfl, rfl, ⟨_, List.mem_cons_self, rfl⟩⟩

/-- In the middle of it a task is working: the hypotheses of C60 are met with `i = j`. -/
theorem c60_example_working : ∃ s, Reach Gentle s ∧ s.task 1 = some ⟨0, .transportSend ⟨7, 1⟩ 7, none⟩ ∧
    WorksOn ⟨0, .transportSend ⟨7, 1⟩ 7, none⟩ ⟨7, 1⟩ := by
  have hr : ∃ s, execB gentleB Queue.init (bigRun.take 18) = some s := ⟨_, rfl⟩
  obtain ⟨s, hs⟩ := hr
  refine ⟨s, execB_reach (fun s hb a h => gentleB_sound hb h) .init hs, ?_, .sending⟩
  cases hs
  rfl

/-- A run without failures in which a mail is refused: the hypotheses of `c64_no_failure_partial` are met by a mail
that has a task, and later by one that is gone. -/
theorem c64_example : (∃ s, Reach NoFailure s ∧ Has s.log (.listed 0 7) ∧ s.store 7 = .queued ∧
      s.task 1 = some ⟨0, .sendStart 7, none⟩) ∧
    ∃ s, Reach NoFailure s ∧ Has s.log (.listed 0 7) ∧ s.store 7 = .gone ∧ s.task 1 = none := by
  constructor
  · have hr : ∃ s, execB noFailureB Queue.init (bigRun.take 14) = some s := ⟨_, rfl⟩
    obtain ⟨s, hs⟩ := hr
    refine ⟨s, execB_reach (fun s _ a h => noFailureB_sound h) .init hs, ?_⟩
    cases hs
    exact ⟨⟨⟨0, .listed 0 7⟩, List.mem_cons_of_mem _ (List.mem_cons_of_mem _ List.mem_cons_self), rfl⟩, rfl, rfl⟩
  · have hr : ∃ s, execB noFailureB Queue.init (bigRun.take 21 ++ [.answer 1 .ok true, .proceed 1]) = some s := ⟨_, rfl⟩
    obtain ⟨s, hs⟩ := hr
    refine ⟨s, execB_reach (fun s _ a h => noFailureB_sound h) .init hs, ?_⟩
    cases hs
    exact ⟨⟨⟨0, .listed 0 7⟩, List.mem_cons_of_mem _ (List.mem_cons_of_mem _ List.mem_cons_self), rfl⟩, rfl, rfl⟩

/-- C63 needs the condition: with slow listing, a mail can be delivered, marked done, and sent again. -/
theorem c63_condition_is_needed : ∃ s, Reach Always s ∧ Has s.log (.answer 0 1 (.sendDone ⟨0, 1⟩) .ok) ∧
    s.task 0 = some ⟨0, .transportSend ⟨0, 0⟩ 0, none⟩ ∧ s.store 0 = .gone := by
  have hr : ∃ s, exec Queue.init [.enqueue 0, .start 0, .list 0 0, .tick 3600,
      .answer 0 (.inflight ⟨0, 0⟩) true, .proceed 0, .answer 0 (.mail 0) true, .listEnd 0, .find 0 ⟨0, 0⟩,
      .answer 1 .ok true, .proceed 1, .answer 1 (.queued 0) true, .proceed 1, .answer 1 (.inflight ⟨0, 1⟩) true, .proceed 1,
      .answer 1 (.mail 0) true, .proceed 1, .answer 1 .ok true, .proceed 1, .answer 1 .ok true, .proceed 0] = some s := ⟨_, rfl⟩
  obtain ⟨s, hs⟩ := hr
  have hreach : Reach Always s := exec_reach .init (fun _ _ => trivial) hs
  refine ⟨s, hreach, ?_⟩
  cases hs
  refine ⟨⟨⟨3600, .answer 0 1 (.sendDone ⟨0, 1⟩) .ok⟩, ?_, rfl⟩, rfl, rfl⟩
  simp [St.note, St.spawn, St.proceed, St.take, Queue.init, sendQueuedMail, next]

end Verif
