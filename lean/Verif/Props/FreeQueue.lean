import Verif.Proofs.FreeQueue
/-
C127: the queue in an environment that keeps no contract.
-/
namespace Verif
open Queue FreeQ

/-- C127. What the queue does with a storage that keeps its contract (C57 on) is among what is spoken of here. -/
theorem c127_covers {acts : List Act} {s : Queue.St} (h : Queue.exec Queue.init acts = some s) : FreeQ.exec FreeQ.init acts = some (forget s) := by
  have key : ∀ (acts : List Act) (s1 : Queue.St), Queue.exec s1 acts = some s → FreeQ.exec (forget s1) acts = some (forget s) := by
    intro acts
    induction acts with
    | nil => intro s1 h; cases h; rfl
    | cons a as ih =>
      intro s1 h
      simp only [Queue.exec] at h
      cases h1 : Queue.step s1 a with
      | none => rw [h1] at h; cases h
      | some s2 =>
        rw [h1] at h
        simp only [FreeQ.exec, step_covers h1]
        exact ih s2 h
  exact key acts Queue.init h

/-- C127. What is recorded of a task is all, or a first part, of what a task can come to; and only a first part if the task is still
there, or its process has crashed, or it was dropped or panicked, which is then the last that is recorded. -/
theorem c127_task {s : FreeQ.St} (h : Happens s) (i : Nat) :
    eventsOf i s.log = [] ∨ ∃ r done rest, Life r i (done ++ rest) ∧
      ((eventsOf i s.log = done ∧ (rest = [] ∨ (∃ t, s.task i = some t ∧ t.run = r) ∨ Has s.log (.crash r))) ∨
      ∃ o, eventsOf i s.log = done ++ [.died r i o]) := by
  have hk := h.known i
  unfold Known at hk
  split at hk
  · rename_i t ht
    obtain ⟨rest, hl⟩ := hk.2.life
    exact .inr ⟨t.run, _, rest, hl, .inl ⟨rfl, .inr (.inl ⟨t, ht, rfl⟩)⟩⟩
  · rcases hk with ⟨_, hk⟩ | ⟨_, r, d, rest, hl, ⟨h1, h2 | h2⟩ | h1⟩
    · exact .inl hk
    · exact .inr ⟨r, d, rest, hl, .inl ⟨h1, .inl h2⟩⟩
    · exact .inr ⟨r, d, rest, hl, .inl ⟨h1, .inr (.inr h2)⟩⟩
    · exact .inr ⟨r, d, rest, hl, .inr h1⟩

/-- C127. Each call follows on a reason: a handle just yielded or given back, for a new task, or the last answer of its task. -/
theorem c127_calls {s : FreeQ.St} (h : Happens s) {pre post : List Entry} {t r i : Nat} {o : Op}
    (hl : s.log = pre ++ ⟨t, .call r i o⟩ :: post) : Warranted pre t r i o :=
  (h.calls pre _ post hl r i o rfl).1

/-- C127. `send_done` is called with the in-flight mail that `send_start` has given this task, right after the transport has accepted the
message that `get_mail` has answered for it; `send_cancel` right after it has refused that. -/
theorem c127_verdict {s : FreeQ.St} (h : Happens s) {pre post : List Entry} {t r i : Nat} {c : Claim} :
    (s.log = pre ++ ⟨t, .call r i (.sendDone c)⟩ :: post →
      ∃ m b first, eventsOf i pre = first ++ handed r i m c b ++ [.answer r i (.transportSend c b) .ok]) ∧
    (s.log = pre ++ ⟨t, .call r i (.sendCancel c)⟩ :: post →
      ∃ m b first, eventsOf i pre = first ++ handed r i m c b ++ [.answer r i (.transportSend c b) .err]) :=
  ⟨fun hl => (h.calls pre _ post hl r i _ rfl).2.1 c rfl, fun hl => (h.calls pre _ post hl r i _ rfl).2.2 c rfl⟩

/-- C127. Each handle that is yielded or given back is used at once, by a new task. -/
theorem c127_handles {s : FreeQ.St} (h : Happens s) {pre post : List Entry} {t : Nat} :
    (∀ r m, s.log = pre ++ ⟨t, .listed r m⟩ :: post →
      ∃ i post', post = ⟨t, .call r i (.sendStart m)⟩ :: post' ∧ eventsOf i pre = []) ∧
    (∀ r c, s.log = pre ++ ⟨t, .found r c⟩ :: post →
      ∃ i t0 post', post = ⟨t, .call r i (.delay (t0 + 3600) c)⟩ :: post' ∧ eventsOf i pre = [] ∧ ⟨t0, .started r⟩ ∈ pre) ∧
    (∀ r j i, s.log = pre ++ ⟨t, .spawned r j i⟩ :: post →
      ∃ m c post', post = ⟨t, .call r i (.sendStart m)⟩ :: post' ∧ eventsOf i pre = [] ∧
        (eventsOf j pre).getLast? = some (.answer r j (.sendCancel c) (.queued m))) := by
  refine ⟨fun r m hl => (h.used pre _ post hl).1 r m rfl, fun r c hl => ?_, fun r j i hl => ?_⟩
  · obtain ⟨i, t', post', rfl, hi⟩ := (h.used pre _ post hl).2.1 r c rfl
    have hc := c127_calls h (pre := pre ++ [⟨t, .found r c⟩]) (t := t) (r := r) (i := i) (o := .delay t' c) (post := post') (by rw [hl]; simp)
    cases hc with
    | found pre' c t0 h1 h2 h3 =>
      have := (List.append_inj' h1 rfl).1
      subst this
      exact ⟨i, t0, post', rfl, hi, h2⟩
  · obtain ⟨m, post', rfl, hi⟩ := (h.used pre _ post hl).2.2 r j i rfl
    have hc := c127_calls h (pre := pre ++ [⟨t, .spawned r j i⟩]) (t := t) (r := r) (i := i) (o := .sendStart m) (post := post') (by rw [hl]; simp)
    have hne : j ≠ i → eventsOf i (pre ++ [⟨t, .spawned r j i⟩]) = [] := fun hji => by
      rw [eventsOf_other (by simp only [actor, ne_eq, Option.some.injEq]; exact hji), hi]
    cases hc with
    | listed pre' m h1 _ => have := (List.append_inj' h1 rfl).2; simp at this
    | again pre' m j' c h1 h2 h3 =>
      have h4 := (List.append_inj' h1 rfl).1
      have h5 := (List.append_inj' h1 rfl).2
      simp only [List.cons.injEq, Entry.mk.injEq, Ev.spawned.injEq, true_and, and_true] at h5
      subst h4 h5
      exact ⟨m, c, post', rfl, hi, h3⟩
    | recovered c m h1 =>
      by_cases hji : j = i
      · subst hji; rw [eventsOf_own rfl, List.getLast?_concat] at h1; cases h1
      · rw [hne hji] at h1; cases h1

/-- C127. A task calls each operation at most once, and `send_done` and `send_cancel` not both. -/
theorem c127_once {s : FreeQ.St} (h : Happens s) (i : Nat) (k : Kind) :
    (callsOf i k s.log).length ≤ 1 ∧ (callsOf i .sendDone s.log).length + (callsOf i .sendCancel s.log).length ≤ 1 := by
  simp only [callsOf_length]
  rcases c127_task h i with h | ⟨r, d, rest, hl, h⟩
  · rw [h]; simp [kindCalls]
  · have : ∀ k, (kindCalls k (eventsOf i s.log)).length ≤ (kindCalls k (d ++ rest)).length := by
      intro k
      rcases h with ⟨h, _⟩ | ⟨o, h⟩ <;> rw [h, kindCalls_append, List.length_append]
      · omega
      · rw [kindCalls_append, List.length_append, show (kindCalls k [Ev.died r i o]) = [] from rfl]; simp
    obtain ⟨h1, h2⟩ := hl.once k
    have a := this k
    have b := this .sendDone
    have c := this .sendCancel
    omega

/-- C127. Whatever the environment does, messages are given to the transport at most as often as handles are yielded and messages are
refused. -/
theorem c127_paid {s : FreeQ.St} (h : Happens s) : times isTransmission s.log ≤ times isYield s.log + times isRefusal s.log := by
  have hn : ∀ i, s.tids ≤ i → eventsOf i s.log = [] := fun i hi => by
    have hk := h.known i
    unfold Known at hk
    split at hk
    · omega
    · rcases hk with hk | hk
      · exact hk.2
      · omega
  have h1 := times_sum (p := isTransmission) (by intro e he; cases e <;> first | rfl | cases he) hn
  have h2 := times_sum (p := isSpawn) (by intro e he; cases e <;> first | rfl | cases he) hn
  have h3 := times_sum (p := isRefusal) (by intro e he; cases e <;> first | rfl | cases he) hn
  have h4 : ∀ i, countOf isTransmission (eventsOf i s.log) ≤ 1 := fun i => by
    have := (c127_once h i .transportSend).1
    rw [callsOf_length] at this
    refine Nat.le_trans (Nat.le_of_eq ?_) this
    unfold countOf kindCalls
    congr 1
    refine List.filter_congr fun e _ => ?_
    cases e with
    | call r i o => cases o <;> rfl
    | _ => rfl
  have h5 := sumTo_le h4 s.tids
  rw [sumTo_const] at h5
  have h6 := sumTo_le h.retries s.tids
  have h7 := h.tasks
  omega

/-- C127. A `run` spawns a delivery for each mail listed until the list ends, and only then looks for mails in flight; it does nothing of
its own after either stream has failed or both have ended. -/
theorem c127_run {s : FreeQ.St} (h : Happens s) (r : Nat) : RunSoFar r (runEvents r s.log) := (h.runs r).soFar

/-- C127. Nothing comes from a process that has crashed. -/
theorem c127_crash {s : FreeQ.St} (h : Happens s) {pre post : List Entry} {t r : Nat} (hl : s.log = pre ++ ⟨t, .crash r⟩ :: post) :
    (∀ e ∈ post, runOf e.ev = some r → e.ev = .crash r) ∧ ∀ i t, s.task i = some t → t.run ≠ r := by
  obtain ⟨hd, ho⟩ := h.silent
  refine ⟨fun e he hr => ?_, (hd r ⟨⟨t, .crash r⟩, by rw [hl]; simp, rfl⟩).2⟩
  obtain ⟨p, q, rfl⟩ := List.append_of_mem he
  exact ho (pre ++ ⟨t, .crash r⟩ :: p) e q (by rw [hl]; simp) r ⟨⟨t, .crash r⟩, by simp, rfl⟩ hr

/-- C127. Whatever the environment has answered, the code can go on. -/
theorem c127_goes_on {s : FreeQ.St} {i : Nat} {t : Task} (ht : s.task i = some t) (ha : t.ans ≠ none) :
    ∃ s', FreeQ.step s (.proceed i) = some s' := by
  obtain ⟨r, o, a⟩ := t
  cases a with
  | none => exact absurd rfl ha
  | some a => exact ⟨s.proceed i ⟨r, o, some a⟩ a, by simp only [FreeQ.step, ht]⟩

/-- C127. No environment keeps a task going for ever: it takes at most twelve steps, six answers and what the code does with each; after
that it is over. -/
theorem c127_finite {s s' : FreeQ.St} (h : Happens s) {i : Nat} {t : Task} (ht : s.task i = some t) {acts : List Act}
    (he : FreeQ.exec s acts = some s') :
    (acts.filter (isStepOf i)).length ≤ 12 ∧ (12 ≤ (acts.filter (isStepOf i)).length → s'.task i = none) := by
  have h1 := rank_exec he ((h.known i).some ht).1
  have h2 : rankAt s i = rank t.op t.ans := by unfold rankAt; rw [ht]
  have h3 := rank_le t.op t.ans
  refine ⟨by omega, fun h4 => ?_⟩
  cases ht' : s'.task i with
  | none => rfl
  | some t' =>
    have h5 : rankAt s' i = rank t'.op t'.ans := by unfold rankAt; rw [ht']
    have := rank_pos t'.op t'.ans
    omega

/-- C127. So in an execution that goes on for ever, each task whose operations answer, and which is polled then, comes to its end, whatever
the answers are. -/
theorem c127_ends {σ : Nat → FreeQ.St} {a : Nat → Act} (h : Endless σ a) {i m : Nat} (ht : (σ m).task i ≠ none) (hs : Served σ a i) :
    ∃ n, m ≤ n ∧ (σ n).task i = none := by
  cases ht' : (σ m).task i with
  | none => exact absurd ht' ht
  | some t => exact endless_ends h hs _ m (((endless_happens h m).known i).some ht').1 (Nat.le_refl _)

theorem FreeQ.Happens.tasks_le {s : FreeQ.St} (h : Happens s) : s.tids ≤ times isYield s.log + times isRefusal s.log := by
  have hn : ∀ i, s.tids ≤ i → eventsOf i s.log = [] := fun i hi => by
    have hk := h.known i
    unfold Known at hk
    split at hk
    · omega
    · rcases hk with hk | hk
      · exact hk.2
      · omega
  have h2 := times_sum (p := isSpawn) (by intro e he; cases e <;> first | rfl | cases he) hn
  have h3 := times_sum (p := isRefusal) (by intro e he; cases e <;> first | rfl | cases he) hn
  have h6 := sumTo_le h.retries s.tids
  have h7 := h.tasks
  omega

/-- C127. And if, moreover, only finitely many handles are yielded and messages refused, the queue comes to rest: from some moment on there
is no task any more. -/
theorem c127_comes_to_rest {σ : Nat → FreeQ.St} {a : Nat → Act} (h : Endless σ a) (hs : ∀ i, Served σ a i) {B : Nat}
    (hB : ∀ n, times isYield (σ n).log + times isRefusal (σ n).log ≤ B) : ∃ N, ∀ n, N ≤ n → ∀ i, (σ n).task i = none := by
  have known : ∀ n i, (σ n).tids ≤ i → (σ n).task i = none := fun n i hi => by
    cases ht : (σ n).task i with
    | none => rfl
    | some t => exact absurd (((endless_happens h n).known i).some ht).1 (Nat.not_lt.2 hi)
  have one : ∀ i, ∃ N, ∀ n, N ≤ n → (σ n).task i = none := fun i => by
    by_cases hm : ∃ m, i < (σ m).tids
    · obtain ⟨m, hm⟩ := hm
      obtain ⟨n, hn, ht⟩ := endless_ends h (hs i) _ m hm (Nat.le_refl _)
      obtain ⟨d, rfl⟩ := Nat.le.dest hn
      refine ⟨m + d, fun k hk => ?_⟩
      obtain ⟨e, rfl⟩ := Nat.le.dest hk
      have h1 := (endless_down h (endless_down h hm d).1 e).2
      have h2 : rankAt (σ (m + d)) i = 0 := by unfold rankAt; rw [ht]
      exact rankAt_zero (by omega)
    · exact ⟨0, fun n _ => known n i (Nat.le_of_not_lt fun hlt => hm ⟨n, hlt⟩)⟩
  have all : ∀ b, ∃ N, ∀ n, N ≤ n → ∀ i, i < b → (σ n).task i = none := fun b => by
    induction b with
    | zero => exact ⟨0, fun _ _ i hi => absurd hi (Nat.not_lt_zero i)⟩
    | succ b ih =>
      obtain ⟨N1, h1⟩ := ih
      obtain ⟨N2, h2⟩ := one b
      refine ⟨N1 + N2, fun n hn i hi => ?_⟩
      by_cases hib : i = b
      · subst hib; exact h2 n (by omega)
      · exact h1 n (by omega) i (by omega)
  obtain ⟨N, hN⟩ := all B
  refine ⟨N, fun n hn i => ?_⟩
  by_cases hi : i < B
  · exact hN n hn i hi
  · exact known n i (Nat.le_trans (Nat.le_trans (endless_happens h n).tasks_le (hB n)) (Nat.le_of_not_lt hi))

/-! ### Examples -/

/-- An environment that breaks the contract in every way: mail 7 does not exist, and is listed twice; both deliveries get the same in-flight
mail, of mail 3; its message is that of mail 9, which the transport takes the first time, and refuses the second time; `send_cancel` gives
back mail 5; an in-flight mail that never was is found, and the timer is an hour early. -/
def lawless : List Act :=
  [.start 0, .list 0 7, .list 0 7, .answer 0 (.inflight ⟨3, 3⟩) false, .proceed 0, .answer 1 (.inflight ⟨3, 3⟩) false, .proceed 1,
   .answer 0 (.mail 9) false, .answer 1 (.mail 9) false, .proceed 0, .proceed 1, .answer 0 .ok false, .answer 1 .err false,
   .listEnd 0, .find 0 ⟨8, 1⟩, .answer 2 .ok false, .proceed 2, .proceed 1, .proceed 0, .answer 1 (.queued 5) false, .proceed 1,
   .answer 2 (.queued 4) false, .proceed 2, .findEnd 0, .answer 0 .ok false, .proceed 0, .die 3]

/-- C127: it can happen, and not with a storage that keeps its contract; the record shows what the theorems say. -/
theorem c127_example :
    (∃ s, FreeQ.exec FreeQ.init lawless = some s ∧
      eventsOf 0 s.log = handed 0 0 7 ⟨3, 3⟩ 9 ++ [.answer 0 0 (.transportSend ⟨3, 3⟩ 9) .ok, .call 0 0 (.sendDone ⟨3, 3⟩),
        .answer 0 0 (.sendDone ⟨3, 3⟩) .ok, .ended 0 0] ∧
      eventsOf 1 s.log = handed 0 1 7 ⟨3, 3⟩ 9 ++ [.answer 0 1 (.transportSend ⟨3, 3⟩ 9) .err, .call 0 1 (.sendCancel ⟨3, 3⟩),
        .answer 0 1 (.sendCancel ⟨3, 3⟩) (.queued 5), .spawned 0 1 3] ∧
      eventsOf 2 s.log = [.call 0 2 (.delay 3600 ⟨8, 1⟩), .answer 0 2 (.delay 3600 ⟨8, 1⟩) .ok, .call 0 2 (.cancelFound ⟨8, 1⟩),
        .answer 0 2 (.cancelFound ⟨8, 1⟩) (.queued 4), .call 0 2 (.sendStart 4)] ∧
      eventsOf 3 s.log = [.call 0 3 (.sendStart 5), .died 0 3 (.sendStart 5)] ∧
      runEvents 0 s.log = [.started 0, .listed 0 7, .listed 0 7, .listEnded 0, .found 0 ⟨8, 1⟩, .findEnded 0] ∧
      (callsOf 1 .sendCancel s.log).length = 1 ∧ times isTransmission s.log = 2 ∧ times isYield s.log = 3 ∧ times isRefusal s.log = 1) ∧
    (Queue.exec Queue.init lawless).isNone := by
  refine ⟨⟨_, rfl, ?_⟩, ?_⟩ <;> decide +kernel

/-- C127: the recovery of a mail, with all that can follow: twelve steps, the last of which is the end. -/
theorem c127_example_longest :
    ∃ s, FreeQ.exec FreeQ.init [.start 0, .listEnd 0, .find 0 ⟨8, 1⟩] = some s ∧
      ∃ s', FreeQ.exec s [.answer 0 .ok false, .proceed 0, .answer 0 (.queued 4) false, .proceed 0, .answer 0 (.inflight ⟨4, 2⟩) false,
          .proceed 0, .answer 0 (.mail 4) false, .proceed 0, .answer 0 .ok false, .proceed 0, .answer 0 .ok false] = some s' ∧
        (s'.task 0).isSome ∧ ∃ s'', FreeQ.step s' (.proceed 0) = some s'' ∧ (s''.task 0).isNone :=
  ⟨_, rfl, _, rfl, rfl, _, rfl, rfl⟩

/-- A delivery whose first operation fails, while time passes; nothing else happens after that but that time passes. -/
def uneventful : Nat → Act
  | 0 => .start 0
  | 1 => .list 0 7
  | 2 => .tick 5
  | 3 => .answer 0 .err false
  | 4 => .tick 5
  | 5 => .proceed 0
  | _ => .tick 1

/-- Its states. -/
def uneventfully : Nat → FreeQ.St
  | 0 => FreeQ.init
  | n + 1 => (FreeQ.step (uneventfully n) (uneventful n)).getD FreeQ.init

/-- C127: an execution that goes on for ever, and serves its task. -/
theorem c127_example_ends :
    Endless uneventfully uneventful ∧ (uneventfully 2).task 0 ≠ none ∧ Served uneventfully uneventful 0 ∧
    (uneventfully 6).task 0 = none := by
  have h6 : ∀ k, (uneventfully (k + 6)).task 0 = none := by
    intro k
    induction k with
    | zero => rfl
    | succ k ih => exact ih
  have h1 : Endless uneventfully uneventful := by
    refine ⟨rfl, fun n => ?_⟩
    match n with
    | 0 | 1 | 2 | 3 | 4 | 5 => rfl
    | n + 6 => rfl
  have h2 : (uneventfully 2).task 0 = some ⟨0, .sendStart 7, none⟩ := rfl
  refine ⟨h1, fun h => ?_, fun m _ => ?_, rfl⟩
  · rw [h2] at h; cases h
  · by_cases hm : m ≤ 5
    · exact ⟨5, hm, .inl rfl⟩
    · obtain ⟨k, rfl⟩ := Nat.le.dest (Nat.lt_of_not_le hm)
      exact ⟨k + 6, by omega, .inr (h6 k)⟩

/-- C127: in it all tasks are served, and one handle is yielded and no message refused. -/
theorem c127_example_rest :
    (∀ i, Served uneventfully uneventful i) ∧
    ∀ n, times isYield (uneventfully n).log + times isRefusal (uneventfully n).log ≤ 1 := by
  have htids : ∀ n, (uneventfully n).tids ≤ 1 := by
    have h6 : ∀ k, (uneventfully (k + 6)).tids ≤ 1 := by
      intro k
      induction k with
      | zero => exact Nat.le_refl 1
      | succ k ih => exact ih
    intro n
    match n with
    | 0 | 1 => exact Nat.zero_le 1
    | 2 | 3 | 4 | 5 => exact Nat.le_refl 1
    | n + 6 => exact h6 n
  have hlog : ∀ k, (uneventfully (k + 6)).log = (uneventfully 6).log := by
    intro k
    induction k with
    | zero => rfl
    | succ k ih => exact ih
  refine ⟨fun i => ?_, fun n => ?_⟩
  · by_cases hi : i = 0
    · subst hi; exact c127_example_ends.2.2.1
    · intro m hm
      cases ht : (uneventfully m).task i with
      | none => exact absurd ht hm
      | some t =>
        have h1 := (((endless_happens c127_example_ends.1 m).known i).some ht).1
        have h2 := htids m
        omega
  · match n with
    | 0 | 1 | 2 | 3 | 4 | 5 => decide +kernel
    | n + 6 => rw [hlog n]; decide +kernel

end Verif
