import Verif.Spec.QueueCount
import Verif.Props.QueueLive
/-
C84: how often a mail is sent.
-/
namespace Verif.Queue

/-- An accepted attempt is under way, or over with success. -/
def Pend (s : St) (m : MailId) : Prop :=
  s.store m = .gone ∨ ∃ i r c, c.mail = m ∧
    (s.task i = some ⟨r, .transportSend c m, some .ok⟩ ∨ s.task i = some ⟨r, .sendDone c, none⟩)

structure Counted (s : St) (m : MailId) : Prop where
  le : acceptances m s.log ≤ 1 + mishaps m s.log
  lt : acceptances m s.log ≤ mishaps m s.log ∨ Pend s m

theorem acceptances_append (m : MailId) (l new : List Entry) :
    acceptances m (l ++ new) = acceptances m l + acceptances m new := by simp [acceptances]
theorem mishaps_append (m : MailId) (l new : List Entry) :
    mishaps m (l ++ new) = mishaps m l + mishaps m new := by simp [mishaps]

theorem Counted.quiet {s s' : St} {m : MailId} {new : List Entry} (h : Counted s m) (hl : s'.log = s.log ++ new)
    (h0 : acceptances m new = 0) (hp : Pend s m → Pend s' m ∨ 1 ≤ mishaps m new) : Counted s' m := by
  obtain ⟨h1, h2⟩ := h
  constructor
  · rw [hl, acceptances_append, mishaps_append]; omega
  · rw [hl, acceptances_append, mishaps_append]
    rcases h2 with h2 | h2
    · left; omega
    · rcases hp h2 with h3 | h3
      · exact .inr h3
      · left; omega

theorem Pend.tasks {s s' : St} {m : MailId} (h : Pend s m) (hs : s.store m = .gone → s'.store m = .gone)
    (ht : ∀ i t, s.task i = some t → s'.task i = some t) : Pend s' m := by
  rcases h with h | ⟨i, r, c, hc, h⟩
  · exact .inl (hs h)
  · exact .inr ⟨i, r, c, hc, h.imp (ht _ _) (ht _ _)⟩

theorem Reach.counted {s : St} (hr : Reach Gentle s) (m : MailId) : Counted s m := by
  induction hr with
  | init => exact ⟨by simp [Queue.init, acceptances], .inl (by simp [Queue.init, acceptances])⟩
  | @step s s' act hr hp hs ih =>
    have hb := hr.basic
    have fresh : ∀ i t v, s.task i = some t → upd s.task s.tids v i = some t := by
      intro i t v h
      rw [upd_ne _ _ (Nat.ne_of_lt (hb.task i t h).tid)]
      exact h
    cases step_cases hs with
    | tick => exact ⟨ih.le, ih.lt⟩
    | enqueue h1 =>
      refine ih.quiet (note_log _ _) rfl fun h => .inl (h.tasks ?_ fun _ _ h => h)
      intro h2
      simp only [St.note, upd]
      split
      · rename_i h3; rw [h3, h1] at h2; cases h2
      · exact h2
    | list h1 h2 =>
      exact ih.quiet (by rw [spawn_log, note_log, List.append_assoc]) rfl
        fun h => .inl (h.tasks (fun h => h) fun i t h => fresh i t _ h)
    | find h1 h2 =>
      exact ih.quiet (by rw [spawn_log, note_log, List.append_assoc]) rfl
        fun h => .inl (h.tasks (fun h => h) fun i t h => fresh i t _ h)
    | @finish tid r o a h1 h2 =>
      refine ih.quiet (note_log _ _) rfl fun h => .inl ?_
      rcases h with h | ⟨i, r', c, hc, h⟩
      · exact .inl h
      · have hne : i ≠ tid := by
          rintro rfl
          rcases h with h | h
          · rw [h1] at h; cases h; cases h2
          · rw [h1] at h; cases h
        exact .inr ⟨i, r', c, hc, h.imp (fun h => (upd_ne _ _ hne).trans h) fun h => (upd_ne _ _ hne).trans h⟩
    | @goOn tid r o a o' h1 h2 =>
      refine ih.quiet (note_log _ _) rfl fun h => .inl ?_
      rcases h with h | ⟨i, r', c, hc, h⟩
      · exact .inl h
      · by_cases hne : i = tid
        · subst hne
          rcases h with h | h
          · rw [h1] at h; cases h
            refine .inr ⟨i, r, c, hc, .inr ?_⟩
            simp only [St.note, upd_same]
            cases h2
            rfl
          · rw [h1] at h; cases h
        · exact .inr ⟨i, r', c, hc, h.imp (fun h => (upd_ne _ _ hne).trans h) fun h => (upd_ne _ _ hne).trans h⟩
    | @spawn tid r o a o' h1 h2 =>
      refine ih.quiet (by rw [spawn_log, note_log, List.append_assoc]) rfl fun h => .inl ?_
      rcases h with h | ⟨i, r', c, hc, h⟩
      · exact .inl h
      · have hne : i ≠ tid := by
          rintro rfl
          rcases h with h | h
          · rw [h1] at h; cases h; cases h2
          · rw [h1] at h; cases h
        have hi : i ≠ s.tids := by
          rcases h with h | h <;> exact Nat.ne_of_lt (hb.task _ _ h).tid
        refine .inr ⟨i, r', c, hc, ?_⟩
        simp only [St.spawn, St.note]
        rw [upd_ne _ _ hi, upd_ne _ _ hne]
        exact h
    | crash h1 => exact ih.quiet (note_log _ _) rfl fun _ => .inr (by simp [mishaps, Entry.mishap])
    | @die tid t h1 =>
      refine ih.quiet (note_log _ _) rfl fun h => ?_
      rcases h with h | ⟨i, r', c, hc, h⟩
      · exact .inl (.inl h)
      · by_cases hne : i = tid
        · subst hne
          refine .inr ?_
          rcases h with h | h <;> rw [h1] at h <;> cases h <;> simp [mishaps, Entry.mishap, hc]
        · exact .inl (.inr ⟨i, r', c, hc, h.imp (fun h => (upd_ne _ _ hne).trans h) fun h => (upd_ne _ _ hne).trans h⟩)
    | @answer tid r o a eff s1 h1 he =>
      obtain ⟨e1, e2, e3, e4, e5⟩ := he.same
      have hgone := (he.store m).2
      have hl : ({ s1 with task := upd s1.task tid (some ⟨r, o, some a⟩) }.note (.answer r tid o a)).log =
          s.log ++ [⟨s.now, .answer r tid o a⟩] := by
        rw [note_log]; simp only [e3, e5]
      by_cases hacc : ∃ c, o = .transportSend c m ∧ a = .ok
      · -- the transport accepts the mail: nobody else has
        obtain ⟨c, rfl, rfl⟩ := hacc
        have hm : m = c.mail := (hb.task _ _ h1).body c m rfl
        have hno : ¬ Pend s m := by
          rintro (h | ⟨i, r', d, hd, h⟩)
          · have := c60_worker_owns hr h1 .sending
            rw [← hm, h] at this
            cases this
          · rcases h with h | h
            · have := c60_one_attempt hr h1 h .sending .sending (by rw [← hm, hd])
              subst this; rw [h1] at h; cases h
            · have := c60_one_attempt hr h1 h .sending .finishing (by rw [← hm, hd])
              subst this; rw [h1] at h; cases h
        have h2 := ih.lt.resolve_right hno
        constructor
        · rw [hl, acceptances_append, mishaps_append]; simp [acceptances, Entry.accepts] at h2 ⊢; omega
        · right
          exact .inr ⟨tid, r, c, hm.symm, .inl (by simp only [St.note, upd_same])⟩
      · refine ih.quiet hl ?_ ?_
        · have : Entry.accepts m ⟨s.now, .answer r tid o a⟩ = false := by
            simp only [Entry.accepts]
            split
            · rename_i c b h
              cases h
              simp only [beq_eq_false_iff_ne, ne_eq]
              rintro rfl
              exact hacc ⟨_, rfl, rfl⟩
            · rfl
          simp [acceptances, this]
        · rintro (h | ⟨i, r', c, hc, h⟩)
          · exact .inl (.inl (hgone h))
          · by_cases hne : i = tid
            · subst hne
              rcases h with h | h
              · rw [h1] at h; cases h
              · rw [h1] at h; cases h
                cases he with
                | done h5 h6 =>
                  left; left
                  simp only [St.note, hc, upd_same]
                | failed h5 =>
                  right
                  simp [mishaps, Entry.mishap, hc]
            · left
              refine .inr ⟨i, r', c, hc, ?_⟩
              simp only [St.note]
              rw [upd_ne _ _ hne, e1]
              exact h
    | _ => exact ih.quiet (note_log _ _) rfl fun h => .inl (h.tasks (fun h => h) fun _ _ h => h)

theorem Step.stays_gone {s s' : St} {act : Act} {m : MailId} (h : Step s act s') (hg : s.store m = .gone) :
    s'.store m = .gone := by
  cases h with
  | answer h1 he => exact (he.store m).2 hg
  | enqueue h1 =>
    simp only [St.note, upd]
    split
    · rename_i h3; rw [h3, h1] at hg; cases hg
    · exact hg
  | _ => exact hg

/-! ### One transport per attempt -/

theorem Reach.oneTask {P : St → Act → Prop} {s : St} (hr : Reach P s) :
    ∀ i t j u c, s.task i = some t → s.task j = some u → WorksOn t c → WorksOn u c → i = j := by
  induction hr with
  | init => intros; simp [Queue.init] at *
  | @step s s' act hr hp hs ih =>
    have hst := step_cases hs
    have hb := hr.basic
    have hold : ∀ i u c, s.task i = some u → WorksOn u c → c.gen < s.gens := by
      intro i u c h1 h2
      obtain ⟨τ, h3⟩ := (hb.task i u h1).work c h2.mem
      exact (hb.gen c τ h3).1
    intro i t j u c ht hu hwt hwu
    cases hst.working ht hwt with
    | took h1 h2 h3 =>
      generalize hu' : u = u', hj : j = j' at *
      cases hst.working hu hwu with
      | took h4 _ _ => rfl
      | still h4 h5 => exact absurd (hold _ _ _ h4 h5) (by simp)
    | still h1 h2 =>
      cases hst.working hu hwu with
      | took h4 _ _ => exact absurd (hold _ _ _ h1 h2) (by simp)
      | still h4 h5 => exact ih _ _ _ _ c h1 h4 h2 h5

/-- The task has the claim and has not called the transport yet. -/
inductive Early : Task → Claim → Prop
  | started {r m c} : Early ⟨r, .sendStart m, some (.inflight c)⟩ c
  | fetching {r c a} : a ≠ some .err → Early ⟨r, .getMail c, a⟩ c

theorem Early.works {t : Task} {c : Claim} (h : Early t c) : WorksOn t c := by
  cases h with
  | started => exact .started
  | fetching h => exact .fetching h

/-- How a task comes to be early. -/
theorem Step.early {s s' : St} {act : Act} (h : Step s act s') {i : Nat} {t : Task} {c : Claim}
    (ht : s'.task i = some t) (hw : Early t c) : (∃ u, s.task i = some u ∧ Early u c) ∨ c.gen = s.gens := by
  cases h.became ht with
  | same h => exact .inl ⟨_, h, hw⟩
  | listed => cases hw
  | found => cases hw
  | answered h1 h2 h3 h4 h5 =>
    cases hw with
    | started =>
      cases h3 with
      | take h6 h7 =>
        simp only [Ans.inflight.injEq, reduceCtorEq, or_false] at h7
        subst h7
        exact .inr rfl
    | fetching h => exact .inl ⟨_, h2, .fetching (by simp)⟩
  | goOn h1 h2 h3 =>
    cases h3 with
    | started => cases hw; exact .inl ⟨_, h2, .started⟩
    | fetched => cases hw
    | accepted => cases hw
    | refused => cases hw
    | waited => cases hw
    | recovered => cases hw
  | spawned h1 h2 h3 =>
    cases h3; cases hw

structure Once (s : St) (c : Claim) : Prop where
  le : transports c s.log ≤ 1
  fresh : s.gens ≤ c.gen → transports c s.log = 0
  early : ∀ i t, s.task i = some t → Early t c → transports c s.log = 0

theorem Step.gens {s s' : St} {act : Act} (h : Step s act s') : s.gens ≤ s'.gens := by
  cases h with
  | answer h1 he => cases he <;> simp [St.note, St.take]
  | _ => simp [St.note, St.spawn]

/-- What a step records, seen from the transport. -/
theorem Step.transports {s s' : St} {act : Act} (h : Step s act s') (c : Claim) :
    transports c s'.log = transports c s.log ∨
    ∃ i r b, s.task i = some ⟨r, .getMail c, some (.mail b)⟩ ∧ s'.task i = some ⟨r, .transportSend c b, none⟩ ∧
      transports c s'.log = transports c s.log + 1 := by
  cases h with
  | tick => exact .inl rfl
  | answer h1 he =>
    obtain ⟨e1, e2, e3, e4, e5⟩ := he.same
    left
    rw [note_log]
    simp [e3, Queue.transports, Entry.transports]
  | @goOn tid r o a o' h1 h2 =>
    have h3 := next_cases h2
    cases h3 with
    | @fetched d b =>
      by_cases hd : d = c
      · subst hd
        right
        refine ⟨tid, r, b, h1, by simp [St.note], ?_⟩
        simp [Queue.transports, Entry.transports]
      · left
        simp [Queue.transports, Entry.transports, hd]
    | _ => left; simp [Queue.transports, Entry.transports]
  | spawn h1 h2 =>
    have h3 := next_cases h2
    cases h3
    left
    simp [Queue.transports, Entry.transports]
  | _ => left; simp [Queue.transports, Entry.transports]

theorem Reach.once {P : St → Act → Prop} {s : St} (hr : Reach P s) (c : Claim) : Once s c := by
  induction hr with
  | init => exact ⟨by simp [Queue.init, Queue.transports], fun _ => rfl, fun _ _ _ _ => rfl⟩
  | @step s s' act hr hp hs ih =>
    have hst := step_cases hs
    have hb := hr.basic
    have hg := hst.gens
    rcases hst.transports c with h | ⟨i, r, b, h1, h2, h3⟩
    · refine ⟨h ▸ ih.le, fun h5 => h ▸ ih.fresh (by omega), fun i t ht he => ?_⟩
      rw [h]
      rcases hst.early ht he with ⟨u, h6, h7⟩ | h6
      · exact ih.early i u h6 h7
      · exact ih.fresh (by omega)
    · have he : Early ⟨r, .getMail c, some (.mail b)⟩ c := .fetching (by simp)
      have h0 := ih.early i _ h1 he
      obtain ⟨τ, hτ⟩ := (hb.task i _ h1).work c he.works.mem
      have hlt := (hb.gen c τ hτ).1
      refine ⟨by omega, fun h5 => by omega, fun j t ht hj => ?_⟩
      exfalso
      rcases hst.early ht hj with ⟨u, h6, h7⟩ | h6
      · have := hr.oneTask i _ j u c h1 h6 he.works h7.works
        subst this
        rw [h2] at ht
        cases ht
        cases hj
      · omega

end Verif.Queue

namespace Verif
open Queue

/-! ### C84 How often a mail is sent -/

/-- C84. As long as recovery takes place only for mails nobody works on: the transport accepts a mail at most once more than
there are crashes, and failures of `send_done` and deaths of tasks for this mail. So every duplicate delivery has a mishap of its own. -/
theorem c84_duplicates {s : St} (h : Reach Gentle s) (m : MailId) :
    acceptances m s.log ≤ 1 + mishaps m s.log := (h.counted m).le

/-- The same, in terms of time (attempts shorter than `A`, found mails yielded within `F`, at most an hour together). -/
theorem c84_duplicates_timely {A F : Nat} (hAF : A + F ≤ 3600) {s : St} (h : Reach (Timely A F) s) (m : MailId) :
    acceptances m s.log ≤ 1 + mishaps m s.log := ((h.gentle hAF).counted m).le

/-- C84. Whatever happens: within one attempt (one successful `send_start`) the transport is called at most once. -/
theorem c84_one_transport_per_attempt {s : St} (h : Reach Always s) (c : Claim) : transports c s.log ≤ 1 := (h.once c).le

end Verif

namespace Verif.Queue

theorem Execution.reachP (E : Execution) {P : St → Act → Prop} (hP : ∀ k, P (E.st k) (E.act k)) : ∀ n, Reach P (E.st n)
  | 0 => by rw [E.first]; exact .init
  | n + 1 => .step (E.reachP hP n) (hP n) (E.next n)

theorem Accepted.pos {log : List Entry} {m : MailId} (h : Accepted log m) : 1 ≤ acceptances m log := by
  obtain ⟨e, he, r, tid, c, hev⟩ := h
  have : 0 < acceptances m log := List.countP_pos_iff.2 ⟨e, he, by simp [Entry.accepts, hev]⟩
  exact this

theorem Reach.noMishap {m : MailId} {s : St} (h : Reach (fun s a => Gentle s a ∧ Reliable m s a) s) : mishaps m s.log = 0 := by
  induction h with
  | init => rfl
  | @step s s' act hr hp hs ih =>
    have hg : Reach Gentle s := hr.mono fun _ _ h => h.1
    cases step_cases hs with
    | tick => exact ih
    | crash => exact absurd rfl (hp.2.1 _)
    | @die tid t h1 =>
      have h2 := hp.2.2.1 tid t.run t.op t.ans rfl h1
      rw [note_log, mishaps_append, ih]
      obtain ⟨r, o, a⟩ := t
      cases o <;> simp [mishaps, Entry.mishap, Op.about] at h2 ⊢ <;> exact h2
    | @answer tid r o a eff s1 h1 he =>
      obtain ⟨e1, e2, e3, e4, e5⟩ := he.same
      rw [note_log]
      simp only [e3, mishaps_append, ih]
      have : Entry.mishap m ⟨s1.now, .answer r tid o a⟩ = false := by
        simp only [Entry.mishap]
        split
        · rename_i h; cases h
        · rename_i c h
          cases h
          simp only [beq_eq_false_iff_ne, ne_eq]
          intro hm
          rcases hp.2.2.2 tid eff r (.sendDone c) rfl h1 hm with ⟨d, b, h⟩ | h
          · cases h
          · exact h (c60_worker_owns hg h1 .finishing)
        · rename_i h; cases h
        · rename_i h; cases h
        · rfl
      simp [mishaps, this]
    | _ => simp [mishaps_append, ih, St.note, St.spawn] <;> simp [mishaps, Entry.mishap]

end Verif.Queue

namespace Verif
open Queue

/-- C84. Without mishaps a mail is sent exactly once: in a fair execution in which nothing crashes, no task at it dies, the storage is reliable for
the mail `m`, and recovery takes place only for mails nobody works on, if `m` is picked up (listed while queued), and the
transport refuses it only finitely often, and it is found only finitely often, then the transport accepts it exactly once,
and it is removed. -/
theorem c84_exactly_once (E : Execution) (hf : Fair E) (m : MailId) (n n1 : Nat)
    (hrel : ∀ k, Reliable m (E.st k) (E.act k)) (hgen : ∀ k, Gentle (E.st k) (E.act k))
    (hup : ∃ r, E.act n = .list r m ∧ (E.st n).store m = .queued)
    (hend : ∀ k, n1 ≤ k → ¬ Refuses m (E.st k) (E.act k) ∧ ¬ Finds m (E.act k)) :
    ∃ k0, ∀ k, k0 ≤ k → acceptances m (E.st k).log = 1 ∧ (E.st k).store m = .gone := by
  obtain ⟨k0, h1, h2, h3⟩ := c77_delivered E hf m 0 n n1 (fun k _ => hrel k) (Nat.zero_le _) (.inl hup) hend
  refine ⟨k0, fun k hk => ?_⟩
  have hr := E.reachP (P := fun s a => Gentle s a ∧ Reliable m s a) (fun k => ⟨hgen k, hrel k⟩) k
  have h4 := c84_duplicates (hr.mono fun _ _ h => h.1) m
  rw [hr.noMishap] at h4
  have h5 : (E.st k).store m = .gone ∧ Accepted (E.st k).log m := by
    induction hk with
    | refl => exact ⟨h2, h3⟩
    | @step k hk ih =>
      have hr := E.reachP (P := fun s a => Gentle s a ∧ Reliable m s a) (fun k => ⟨hgen k, hrel k⟩) k
      obtain ⟨h6, h7⟩ := ih hr (by have := c84_duplicates (hr.mono fun _ _ h => h.1) m; rw [hr.noMishap] at this; exact this)
      refine ⟨(E.steps k).stays_gone h6, ?_⟩
      obtain ⟨new, hn⟩ := (E.steps k).log
      rw [hn]
      exact h7.append
  have := h5.2.pos
  exact ⟨by omega, h5.1⟩

end Verif

namespace Verif.Queue

/-- The first instance of `bigRun` without the crash: refused once, then delivered. -/
def calmRun : List Act := bigRun.take 21 ++ [.answer 1 .ok true, .proceed 1]

theorem calmRun_ok : (exec init calmRun).isSome = true := by decide +kernel

def noRecoveryB (s : St) : Act → Bool
  | .answer tid _ _ => match s.task tid with
    | some ⟨_, .cancelFound _, none⟩ => false
    | _ => true
  | _ => true

theorem noRecoveryB_sound {s : St} {act : Act} (h : noRecoveryB s act = true) : Gentle s act := by
  rintro tid a eff r c rfl hne ht
  simp [noRecoveryB, ht] at h

end Verif.Queue

namespace Verif
open Queue

/-- `bigRun` meets the hypotheses of the first two theorems with a duplicate and a mishap, so the bound is reached. -/
theorem c84_example_duplicate : ∃ s, Reach (Timely 60 60) s ∧ Reach Gentle s ∧ acceptances 7 s.log = 2 ∧ mishaps 7 s.log = 1 ∧
    transports ⟨7, 2⟩ s.log = 1 := by
  obtain ⟨s, h1, h2, _, h4, _⟩ := c60_example
  exact ⟨s, h1, h2, by rw [h4]; decide, by rw [h4]; decide, by rw [h4]; decide⟩

/-- Without the condition on recovery, a mail is accepted twice without any mishap. -/
theorem c84_condition_is_needed : ∃ s, Reach Always s ∧ acceptances 0 s.log = 2 ∧ mishaps 0 s.log = 0 := by
  obtain ⟨s, hs, h⟩ := of_any (x := exec Queue.init [.enqueue 0, .start 0, .list 0 0, .tick 3600,
      .answer 0 (.inflight ⟨0, 0⟩) true, .proceed 0, .answer 0 (.mail 0) true, .listEnd 0, .find 0 ⟨0, 0⟩,
      .answer 1 .ok true, .proceed 1, .answer 1 (.queued 0) true, .proceed 1, .answer 1 (.inflight ⟨0, 1⟩) true, .proceed 1,
      .answer 1 (.mail 0) true, .proceed 1, .answer 1 .ok true, .proceed 1, .answer 1 .ok true, .proceed 0, .answer 0 .ok true])
    (p := fun s => acceptances 0 s.log == 2 && mishaps 0 s.log == 0) (by decide +kernel)
  simp only [Bool.and_eq_true, beq_iff_eq] at h
  exact ⟨s, exec_reach .init (fun _ _ => trivial) hs, h.1, h.2⟩

/-- A fair execution that meets the hypotheses of `c84_exactly_once`, in which the mail is refused once. -/
theorem c84_example : ∃ (E : Execution) (n n1 : Nat), Fair E ∧ (∀ k, Reliable 7 (E.st k) (E.act k)) ∧
    (∀ k, Gentle (E.st k) (E.act k)) ∧ (E.act n = .list 0 7 ∧ (E.st n).store 7 = .queued) ∧
    (∃ k, Refuses 7 (E.st k) (E.act k)) ∧
    ∀ k, n1 ≤ k → ¬ Refuses 7 (E.st k) (E.act k) ∧ ¬ Finds 7 (E.act k) := by
  obtain ⟨s, hs, hs'⟩ := of_any (x := exec init calmRun)
    (p := fun s => s.tids == 2 && (s.task 0).isNone && (s.task 1).isNone) (by decide +kernel)
  obtain ⟨s11, h3, h4⟩ := of_any (x := exec init (calmRun.take 11)) (p := fun s => checkB quietB s (calmRun.drop 11))
    (by decide +kernel)
  refine ⟨.ofList calmRun calmRun_ok, 2, 11, ?_, ?_, ?_, ⟨by decide +kernel, by decide +kernel⟩, ?_, ?_⟩
  · refine Execution.ofList_fair _ _ s hs fun i => ?_
    have : ∀ i t, s.task i = some t → i < s.tids := fun i t ht =>
      ((exec_reach (P := Always) .init (fun _ _ => trivial) hs).basic.task i t ht).tid
    cases hi : s.task i with
    | none => rfl
    | some t =>
      have hlt := this i t hi
      simp only [Bool.and_eq_true, beq_iff_eq, Option.isNone_iff_eq_none] at hs'
      obtain ⟨⟨e, h5⟩, h6⟩ := hs'
      rw [e] at hlt
      match i, hlt, hi with
      | 0, _, hi => rw [h5] at hi; cases hi
      | 1, _, hi => rw [h6] at hi; cases hi
  · intro k
    exact checkB_sound (P := Reliable 7) (fun s a => noFailureB_reliable 7) (fun s => noFailureB_reliable 7 rfl) k _ _
      (by decide +kernel)
  · intro k
    exact checkB_sound (P := Gentle) (fun s a => noRecoveryB_sound) (fun s => noRecoveryB_sound rfl) k _ _
      (by decide +kernel)
  · exact ⟨10, 0, true, 0, ⟨7, 0⟩, 7, by decide +kernel, by decide +kernel, rfl⟩
  · intro k hk
    have := checkB_sound (P := fun s a => ¬ Refuses 7 s a ∧ ¬ Finds 7 a) (fun s a => quietB_sound 7)
      (fun s => quietB_sound 7 (s := s) rfl) (k - 11) _ _ h4
    have e1 := stAt_append (calmRun.take 11) (calmRun.drop 11) init s11 (k - 11) h3
    have e2 := actAt_append (calmRun.take 11) (calmRun.drop 11) (k - 11)
    rw [List.take_append_drop] at e1 e2
    rw [← e1, ← e2] at this
    rw [show (calmRun.take 11).length + (k - 11) = k by simp [calmRun, bigRun]; omega] at this
    exact this

end Verif
