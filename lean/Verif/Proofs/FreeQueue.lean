import Verif.Spec.FreeQueue
import Verif.Proofs.Queue
/-
The queue in an environment that keeps no contract (C127).
-/
namespace Verif.FreeQ
open Queue

/-! ### Steps -/

/-- What is left of the tasks after a crash of run `r`. -/
def survivors (s : St) (r : Nat) : Nat → Option Task := fun tid => match s.task tid with
  | some t => if t.run = r then none else some t
  | none => none

inductive Step (s : St) : Act → St → Prop
  | tick {d} : Step s (.tick d) { s with now := s.now + d }
  | enqueue {m} : Step s (.enqueue m) (s.note (.enqueued m))
  | start {r} : (s.runs r).phase = .notStarted →
      Step s (.start r) ({ s with runs := upd s.runs r ⟨.listing, s.now⟩ }.note (.started r))
  | list {r m} : (s.runs r).phase = .listing →
      Step s (.list r m) ((s.note (.listed r m)).spawn r (.sendStart m))
  | listEnd {r} : (s.runs r).phase = .listing →
      Step s (.listEnd r) ({ s with runs := upd s.runs r { s.runs r with phase := .finding } }.note (.listEnded r))
  | listFail {r} : (s.runs r).phase = .listing →
      Step s (.listFail r) ({ s with runs := upd s.runs r { s.runs r with phase := .failed } }.note (.listFailed r))
  | find {r c} : (s.runs r).phase = .finding →
      Step s (.find r c) ((s.note (.found r c)).spawn r (.delay ((s.runs r).startup + recoveryDelay) c))
  | findEnd {r} : (s.runs r).phase = .finding →
      Step s (.findEnd r) ({ s with runs := upd s.runs r { s.runs r with phase := .finished } }.note (.findEnded r))
  | findFail {r} : (s.runs r).phase = .finding →
      Step s (.findFail r) ({ s with runs := upd s.runs r { s.runs r with phase := .failed } }.note (.findFailed r))
  | answer {tid r o a eff} : s.task tid = some ⟨r, o, none⟩ → typed o a = true →
      Step s (.answer tid a eff) ({ s with task := upd s.task tid (some ⟨r, o, some a⟩) }.note (.answer r tid o a))
  | finish {tid r o a} : s.task tid = some ⟨r, o, some a⟩ → next o a = .finish →
      Step s (.proceed tid) ({ s with task := upd s.task tid none }.note (.ended r tid))
  | goOn {tid r o a o'} : s.task tid = some ⟨r, o, some a⟩ → next o a = .goOn o' →
      Step s (.proceed tid) ({ s with task := upd s.task tid (some ⟨r, o', none⟩) }.note (.call r tid o'))
  | spawn {tid r o a o'} : s.task tid = some ⟨r, o, some a⟩ → next o a = .spawn o' →
      Step s (.proceed tid)
        (({ s with task := upd s.task tid none }.note (.spawned r tid s.tids)).spawn r o')
  | crash {r} : (s.runs r).phase ≠ .notStarted →
      Step s (.crash r) ({ s with runs := upd s.runs r { s.runs r with phase := .crashed }, task := survivors s r }.note
        (.crash r))
  | die {tid t} : s.task tid = some t →
      Step s (.die tid) ({ s with task := upd s.task tid none }.note (.died t.run tid t.op))

theorem step_cases {s : St} {act : Act} {s' : St} (h : step s act = some s') : Step s act s' := by
  cases act with
  | tick d => cases h; exact .tick
  | enqueue m => cases h; exact .enqueue
  | start r => simp only [step] at h; split at h <;> cases h; exact .start ‹_›
  | list r m => simp only [step] at h; split at h <;> cases h; exact .list ‹_›
  | listEnd r => simp only [step] at h; split at h <;> cases h; exact .listEnd ‹_›
  | listFail r => simp only [step] at h; split at h <;> cases h; exact .listFail ‹_›
  | find r c => simp only [step] at h; split at h <;> cases h; exact .find ‹_›
  | findEnd r => simp only [step] at h; split at h <;> cases h; exact .findEnd ‹_›
  | findFail r => simp only [step] at h; split at h <;> cases h; exact .findFail ‹_›
  | answer tid a eff =>
    simp only [step] at h
    split at h
    · split at h <;> cases h
      exact .answer ‹_› ‹_›
    · cases h
  | proceed tid =>
    simp only [step] at h
    split at h
    · cases h
      rename_i ht
      unfold St.proceed
      split <;> rename_i hn
      · exact .finish ht hn
      · exact .goOn ht hn
      · exact .spawn ht hn
    · cases h
  | crash r => simp only [step] at h; split at h <;> cases h; exact .crash ‹_›
  | die tid => simp only [step] at h; split at h <;> cases h; exact .die ‹_›

theorem exec_append {s : St} {as bs : List Act} : exec s (as ++ bs) = (exec s as).bind (exec · bs) := by
  induction as generalizing s with
  | nil => rfl
  | cons a as ih =>
    simp only [List.cons_append, exec]
    cases step s a with
    | none => rfl
    | some s' => exact ih

/-- Induction over what happens. -/
theorem Happens.induct {P : St → Prop} (h0 : P init) (hs : ∀ s act s', Happens s → P s → Step s act s' → P s') {s : St} (h : Happens s) :
    P s := by
  obtain ⟨acts, h⟩ := h
  have key : ∀ (bs as : List Act) (s1 : St), exec init as = some s1 → P s1 → exec s1 bs = some s → P s := by
    intro bs
    induction bs with
    | nil => intro as s1 _ hp h; cases h; exact hp
    | cons b bs ih =>
      intro as s1 h1 hp h
      simp only [exec] at h
      cases h2 : step s1 b with
      | none => rw [h2] at h; cases h
      | some s2 =>
        rw [h2] at h
        refine ih (as ++ [b]) s2 ?_ (hs s1 b s2 ⟨as, h1⟩ hp (step_cases h2)) h
        rw [exec_append, h1]
        simp only [Option.bind_some, exec, h2]
  exact key acts [] init rfl h0 h

/-! ### Records -/

theorem eventsOf_append (i : Nat) (l l' : List Entry) : eventsOf i (l ++ l') = eventsOf i l ++ eventsOf i l' := by
  simp [eventsOf]

theorem eventsOf_one (i t : Nat) (e : Ev) : eventsOf i [⟨t, e⟩] = if actor e = some i then [e] else [] := by
  simp only [eventsOf, List.map_cons, List.map_nil, List.filter_cons, List.filter_nil]
  by_cases h : actor e = some i <;> simp [h]

theorem eventsOf_snoc (i t : Nat) (e : Ev) (l : List Entry) :
    eventsOf i (l ++ [⟨t, e⟩]) = eventsOf i l ++ if actor e = some i then [e] else [] := by
  rw [eventsOf_append, eventsOf_one]

theorem eventsOf_other {i t : Nat} {e : Ev} {l : List Entry} (h : actor e ≠ some i) : eventsOf i (l ++ [⟨t, e⟩]) = eventsOf i l := by
  rw [eventsOf_snoc, if_neg h, List.append_nil]

theorem eventsOf_own {i t : Nat} {e : Ev} {l : List Entry} (h : actor e = some i) : eventsOf i (l ++ [⟨t, e⟩]) = eventsOf i l ++ [e] := by
  rw [eventsOf_snoc, if_pos h]

theorem has_append {l l' : List Entry} {e : Ev} (h : Has l e) : Has (l ++ l') e := by
  obtain ⟨x, h1, h2⟩ := h
  exact ⟨x, List.mem_append_left _ h1, h2⟩

/-! ### The life of a task -/

/-- What is recorded of a task up to a call. -/
inductive Chain (r i : Nat) : Op → List Ev → Prop
  | start (m : MailId) : Chain r i (.sendStart m) [.call r i (.sendStart m)]
  | delay (t : Nat) (c : Claim) : Chain r i (.delay t c) [.call r i (.delay t c)]
  | on {o a o' l} : Chain r i o l → typed o a = true → next o a = .goOn o' → Chain r i o' (l ++ [.answer r i o a, .call r i o'])

/-- What may be recorded after a call. -/
inductive Rest (r i : Nat) : Op → List Ev → Prop
  | finish {o a} : typed o a = true → next o a = .finish → Rest r i o [.answer r i o a, .ended r i]
  | spawn {o a o' j} : typed o a = true → next o a = .spawn o' → Rest r i o [.answer r i o a, .spawned r i j]
  | on {o a o' l} : typed o a = true → next o a = .goOn o' → Rest r i o' l → Rest r i o (.answer r i o a :: .call r i o' :: l)

theorem Rest.sendDone {r i c l} (h : Rest r i (.sendDone c) l) : ∃ a, (a = .ok ∨ a = .err) ∧ l = [.answer r i (.sendDone c) a, .ended r i] := by
  cases h with
  | @finish _ a h1 h2 => refine ⟨a, ?_, rfl⟩; cases a <;> simp_all [typed]
  | @spawn _ a _ _ h1 h2 => cases a <;> simp_all [typed, next]
  | @on _ a _ _ h1 h2 => cases a <;> simp_all [typed, next]

theorem Rest.sendCancel {r i c l} (h : Rest r i (.sendCancel c) l) : l = [.answer r i (.sendCancel c) .err, .ended r i] ∨
    ∃ m j, l = [.answer r i (.sendCancel c) (.queued m), .spawned r i j] := by
  cases h with
  | @finish _ a h1 h2 => cases a <;> simp_all [typed, next]
  | @spawn _ a _ _ h1 h2 => cases a <;> simp_all [typed, next]
  | @on _ a _ _ h1 h2 => cases a <;> simp_all [typed, next]

theorem Rest.delivers {r i m l} (h : Rest r i (.sendStart m) l) : Delivers r i m (.call r i (.sendStart m) :: l) := by
  cases h with
  | @finish _ a h1 h2 =>
    cases a <;> simp [typed, next] at h1 h2
    exact .notStarted
  | @spawn _ a _ _ h1 h2 => cases a <;> simp [typed, next] at h1 h2
  | @on _ a _ _ h1 h2 h =>
    cases a <;> simp [typed, next] at h1 h2
    subst h2
    cases h with
    | @finish _ a h1 h2 =>
      cases a <;> simp [typed, next] at h1 h2
      exact .noMessage _
    | @spawn _ a _ _ h1 h2 => cases a <;> simp [typed, next] at h1 h2
    | @on _ a _ _ h1 h2 h =>
      cases a <;> simp [typed, next] at h1 h2
      subst h2
      cases h with
      | @finish _ a h1 h2 => cases a <;> simp [typed, next] at h1 h2
      | @spawn _ a _ _ h1 h2 => cases a <;> simp [typed, next] at h1 h2
      | @on _ a _ _ h1 h2 h =>
        cases a <;> simp [typed, next] at h1 h2
        · subst h2
          rcases h.sendCancel with rfl | ⟨m', j, rfl⟩
          · exact .refusedNotPutBack _ _
          · exact .refused _ _ _ _
        · subst h2
          obtain ⟨a, rfl | rfl, rfl⟩ := h.sendDone
          · exact .delivered _ _
          · exact .deliveredNotMarked _ _

theorem Rest.recovers {r i t c l} (h : Rest r i (.delay t c) l) : Life r i (.call r i (.delay t c) :: l) := by
  cases h with
  | @finish _ a h1 h2 =>
    cases a <;> simp [typed, next] at h1 h2
    exact .noTimer _ _
  | @spawn _ a _ _ h1 h2 => cases a <;> simp [typed, next] at h1 h2
  | @on _ a _ _ h1 h2 h =>
    cases a <;> simp [typed, next] at h1 h2
    subst h2
    cases h with
    | @finish _ a h1 h2 =>
      cases a <;> simp [typed, next] at h1 h2
      exact .notRecovered _ _
    | @spawn _ a _ _ h1 h2 => cases a <;> simp [typed, next] at h1 h2
    | @on _ a _ _ h1 h2 h =>
      cases a <;> simp [typed, next, sendQueuedMail] at h1 h2
      subst h2
      exact .recovery _ _ _ _ h.delivers

theorem Chain.life {r i o l l'} (h : Chain r i o l) (h' : Rest r i o l') : Life r i (l ++ l') := by
  induction h generalizing l' with
  | start m => exact .delivery _ _ h'.delivers
  | delay t c => exact h'.recovers
  | on _ h1 h2 ih =>
    rw [List.append_assoc]
    exact ih (.on h1 h2 h')

theorem Rest.exists (r i : Nat) (o : Op) : ∃ l, Rest r i o l := by
  have e : ∀ o, next o .err = .finish → ∃ l, Rest r i o l := fun o h => ⟨_, .finish (a := .err) (by cases o <;> rfl) h⟩
  cases o with
  | transportSend c b =>
    obtain ⟨l, h⟩ := e (.sendCancel c) rfl
    exact ⟨_, .on (a := .err) rfl rfl h⟩
  | _ => exact e _ rfl

theorem Rest.of (r i : Nat) {o : Op} {a : Ans} (h : typed o a = true) : ∃ l, Rest r i o (.answer r i o a :: l) := by
  rcases hn : next o a with _ | o' | o'
  · exact ⟨_, .finish h hn⟩
  · obtain ⟨l, h'⟩ := Rest.exists r i o'
    exact ⟨_, .on h hn h'⟩
  · exact ⟨_, .spawn (j := 0) h hn⟩

/-- What is recorded of a task that is at an operation, which has answered or not. -/
inductive Upto (r i : Nat) : Op → Option Ans → List Ev → Prop
  | waits {o l} : Chain r i o l → Upto r i o none l
  | answered {o a l} : Chain r i o l → typed o a = true → Upto r i o (some a) (l ++ [.answer r i o a])

theorem Upto.life {r i o a l} (h : Upto r i o a l) : ∃ rest, Life r i (l ++ rest) := by
  cases h with
  | waits h => obtain ⟨l', h'⟩ := Rest.exists r i o; exact ⟨l', h.life h'⟩
  | answered h ht => obtain ⟨l', h'⟩ := Rest.of r i ht; exact ⟨l', by rw [List.append_assoc]; exact h.life h'⟩

/-- What is recorded of a task that is no more. -/
def Over (log : List Entry) (r i : Nat) (l : List Ev) : Prop :=
  ∃ done rest, Life r i (done ++ rest) ∧ ((l = done ∧ (rest = [] ∨ Has log (.crash r))) ∨ ∃ o, l = done ++ [.died r i o])

/-- What is known of task `i`. -/
def Known (s : St) (i : Nat) : Prop :=
  match s.task i with
  | some t => i < s.tids ∧ Upto t.run i t.op t.ans (eventsOf i s.log)
  | none => (s.tids ≤ i ∧ eventsOf i s.log = []) ∨ (i < s.tids ∧ ∃ r, Over s.log r i (eventsOf i s.log))

theorem Over.mono {log log' : List Entry} {r i : Nat} {l : List Ev} (h : Over log r i l) (hl : ∀ e, Has log e → Has log' e) :
    Over log' r i l := by
  obtain ⟨d, rest, h1, h2⟩ := h
  refine ⟨d, rest, h1, ?_⟩
  rcases h2 with ⟨h2, h3 | h3⟩ | h2
  · exact .inl ⟨h2, .inl h3⟩
  · exact .inl ⟨h2, .inr (hl _ h3)⟩
  · exact .inr h2

theorem Known.same {s s' : St} {i : Nat} (h : Known s i) (h1 : s'.task i = s.task i) (h2 : eventsOf i s'.log = eventsOf i s.log)
    (h3 : s.tids ≤ s'.tids) (h4 : s.tids ≤ i → s'.tids ≤ i) (h5 : ∀ e, Has s.log e → Has s'.log e) : Known s' i := by
  unfold Known at h ⊢
  rw [h1, h2]
  cases ht : s.task i with
  | some t => rw [ht] at h; exact ⟨Nat.lt_of_lt_of_le h.1 h3, h.2⟩
  | none =>
    rw [ht] at h
    rcases h with ⟨h, h'⟩ | ⟨h, r, h'⟩
    · exact .inl ⟨h4 h, h'⟩
    · exact .inr ⟨Nat.lt_of_lt_of_le h h3, r, h'.mono h5⟩

theorem Known.some {s : St} {i : Nat} {t : Task} (h : Known s i) (ht : s.task i = some t) :
    i < s.tids ∧ Upto t.run i t.op t.ans (eventsOf i s.log) := by
  unfold Known at h; rw [ht] at h; exact h

theorem Known.fresh {s : St} (h : Known s s.tids) : s.task s.tids = none ∧ eventsOf s.tids s.log = [] := by
  unfold Known at h
  split at h
  · exact absurd h.1 (Nat.lt_irrefl _)
  · rename_i ht
    rcases h with h | h
    · exact ⟨ht, h.2⟩
    · exact absurd h.1 (Nat.lt_irrefl _)

theorem upd_self {α : Type} (f : Nat → α) (k : Nat) (v : α) : upd f k v k = v := by simp [upd]
theorem upd_other {α : Type} {f : Nat → α} {k j : Nat} {v : α} (h : j ≠ k) : upd f k v j = f j := by simp [upd, h]

theorem Known.note {s : St} {i : Nat} (h : Known s i) {e : Ev} (he : actor e = none) (runs : Nat → Run) :
    Known ({ s with runs := runs }.note e) i :=
  h.same rfl (eventsOf_other (by rw [he]; exact fun h => nomatch h)) (Nat.le_refl _) id fun _ h => has_append h

theorem Known.spawn {s : St} (h : ∀ i, Known s i) (r : Nat) {o : Op} (ho : ∀ i, Chain r i o [.call r i o]) (i : Nat) :
    Known (s.spawn r o) i := by
  by_cases hi : i = s.tids
  · subst hi
    unfold Known
    simp only [St.spawn, St.note, upd_self]
    refine ⟨Nat.lt_succ_self _, ?_⟩
    rw [eventsOf_own rfl, (h s.tids).fresh.2]
    exact .waits (ho _)
  · refine (h i).same (upd_other hi) (eventsOf_other ?_) (Nat.le_succ _) (fun h => ?_) (fun _ h => has_append h)
    · simp only [actor, ne_eq, Option.some.injEq]; exact fun h => hi h.symm
    · simp only [St.spawn, St.note]; omega

theorem Known.moved {s : St} (h : ∀ i, Known s i) {tid : Nat} {t : Task} (ht : s.task tid = Option.some t) {e : Ev} (he : actor e = Option.some tid)
    {v : Option Task} (hv : match v with
      | .some t => Upto t.run tid t.op t.ans (eventsOf tid s.log ++ [e])
      | none => ∃ r, Over (s.log ++ [⟨s.now, e⟩]) r tid (eventsOf tid s.log ++ [e])) (i : Nat) :
    Known ({ s with task := upd s.task tid v }.note e) i := by
  by_cases hi : i = tid
  · subst hi
    unfold Known
    simp only [St.note, upd_self, eventsOf_own he]
    have hlt := ((h i).some ht).1
    cases v with
    | some t => exact ⟨hlt, hv⟩
    | none => exact .inr ⟨hlt, hv⟩
  · exact (h i).same (upd_other hi) (eventsOf_other (by rw [he]; simp only [ne_eq, Option.some.injEq]; exact fun h => hi h.symm))
      (Nat.le_refl _) id fun _ h => has_append h

theorem Known.step {s s' : St} {act : Act} (h : ∀ i, Known s i) (hs : Step s act s') (i : Nat) : Known s' i := by
  cases hs with
  | tick => exact (h i).same rfl rfl (Nat.le_refl _) id fun _ h => h
  | enqueue => exact (h i).note rfl s.runs
  | start => exact (h i).note rfl _
  | listEnd => exact (h i).note rfl _
  | listFail => exact (h i).note rfl _
  | findEnd => exact (h i).note rfl _
  | findFail => exact (h i).note rfl _
  | list => exact Known.spawn (fun i => (h i).note rfl s.runs) _ (fun i => .start _) i
  | find => exact Known.spawn (fun i => (h i).note rfl s.runs) _ (fun i => .delay _ _) i
  | @answer tid r o a _ ht hty =>
    refine Known.moved h ht rfl (v := Option.some _) ?_ i
    have hu := ((h tid).some ht).2
    cases hu with
    | waits hc => exact .answered hc hty
  | @finish tid r o a ht hn =>
    refine Known.moved h ht rfl (v := none) ⟨r, _, [], ?_, .inl ⟨rfl, .inl rfl⟩⟩ i
    have hu := ((h tid).some ht).2
    dsimp only at hu
    generalize eventsOf tid s.log = l at hu
    cases hu with
    | answered hc hty =>
      rw [List.append_nil, List.append_assoc]
      exact hc.life (.finish hty hn)
  | @goOn tid r o a o' ht hn =>
    refine Known.moved h ht rfl (v := Option.some _) ?_ i
    have hu := ((h tid).some ht).2
    dsimp only at hu ⊢
    generalize eventsOf tid s.log = l at hu
    cases hu with
    | answered hc hty =>
      rw [List.append_assoc]
      exact .waits (.on hc hty hn)
  | @spawn tid r o a o' ht hn =>
    refine Known.spawn (Known.moved h ht rfl (v := none) ⟨r, _, [], ?_, .inl ⟨rfl, .inl rfl⟩⟩) _ ?_ i
    · have hu := ((h tid).some ht).2
      dsimp only at hu
      generalize eventsOf tid s.log = l at hu
      cases hu with
      | answered hc hty =>
        rw [List.append_nil, List.append_assoc]
        exact hc.life (.spawn hty hn)
    · intro i
      have : ∃ m, o' = .sendStart m := by
        cases o <;> cases a <;> simp [next] at hn
        exact ⟨_, hn.symm⟩
      obtain ⟨m, rfl⟩ := this
      exact .start m
  | @crash r hp =>
    have hev : eventsOf i (s.log ++ [⟨s.now, .crash r⟩]) = eventsOf i s.log := eventsOf_other (by simp [actor])
    by_cases hk : ∃ t, s.task i = Option.some t ∧ t.run = r
    · obtain ⟨t, ht, hr⟩ := hk
      obtain ⟨h1, h2⟩ := (h i).some ht
      unfold Known
      have hnone : survivors s r i = none := by simp [survivors, ht, hr]
      simp only [St.note, hnone, hev]
      obtain ⟨rest, hl⟩ := h2.life
      subst hr
      exact .inr ⟨h1, t.run, _, rest, hl, .inl ⟨rfl, .inr ⟨_, List.mem_append_right _ (List.mem_singleton.2 rfl), rfl⟩⟩⟩
    · refine (h i).same ?_ hev (Nat.le_refl _) id fun _ h => has_append h
      simp only [St.note, survivors]
      cases ht : s.task i with
      | none => rfl
      | some t => exact if_neg fun hr => hk ⟨t, ht, hr⟩
  | @die tid t ht =>
    refine Known.moved h ht rfl (v := none) ?_ i
    obtain ⟨rest, hl⟩ := ((h tid).some ht).2.life
    exact ⟨t.run, _, rest, hl, .inr ⟨_, rfl⟩⟩

theorem Happens.known {s : St} (h : Happens s) (i : Nat) : Known s i := by
  refine h.induct (P := fun s => ∀ i, Known s i) (fun i => ?_) (fun s act s' _ ih hs => Known.step ih hs) i
  exact .inl ⟨Nat.zero_le _, rfl⟩

/-! ### Calls -/

theorem Chain.started {r i m l} (h : Chain r i (.sendStart m) l) : ∃ first, l = first ++ [.call r i (.sendStart m)] := by
  cases h with
  | start => exact ⟨[], rfl⟩
  | @on o a _ l h1 h2 h3 => exact ⟨l ++ [.answer r i o a], by simp⟩

theorem Chain.handed {r i c b l} (h : Chain r i (.transportSend c b) l) : ∃ m first, l = first ++ handed r i m c b := by
  cases h with
  | @on o a _ l h1 h2 h3 =>
    cases o <;> cases a <;> simp [next, sendQueuedMail] at h3
    obtain ⟨rfl, rfl⟩ := h3
    cases h1 with
    | @on o a _ l h1 h2 h3 =>
      cases o <;> cases a <;> simp [next, sendQueuedMail] at h3
      rename_i m _
      subst h3
      obtain ⟨first, rfl⟩ := h1.started
      exact ⟨m, first, by simp only [FreeQ.handed, List.append_assoc, List.cons_append, List.nil_append]⟩

/-- What is to be shown of a call. -/
def CallOk (pre : List Entry) (e : Entry) : Prop :=
  ∀ r i o, e.ev = .call r i o → Warranted pre e.time r i o ∧
    (∀ c, o = .sendDone c → ∃ m b first, eventsOf i pre = first ++ FreeQ.handed r i m c b ++ [.answer r i (.transportSend c b) .ok]) ∧
    (∀ c, o = .sendCancel c → ∃ m b first, eventsOf i pre = first ++ FreeQ.handed r i m c b ++ [.answer r i (.transportSend c b) .err])

theorem callOk_other {pre : List Entry} {e : Entry} (h : ∀ r i o, e.ev ≠ .call r i o) : CallOk pre e :=
  fun r i o h' => absurd h' (h r i o)

theorem Happens.startup {s : St} (h : Happens s) (r : Nat) (hr : (s.runs r).phase ≠ .notStarted) :
    ⟨(s.runs r).startup, .started r⟩ ∈ s.log := by
  refine h.induct (P := fun s => ∀ r, (s.runs r).phase ≠ .notStarted → ⟨(s.runs r).startup, .started r⟩ ∈ s.log) ?_ ?_ r hr
  · intro r h; exact absurd rfl h
  · intro s act s' _ ih hs r hr
    have other : ∀ (r' : Nat) (ph : Phase) (e : Ev), (s.runs r').phase ≠ .notStarted →
        (upd s.runs r' { s.runs r' with phase := ph } r).phase ≠ .notStarted →
        ⟨(upd s.runs r' { s.runs r' with phase := ph } r).startup, .started r⟩ ∈ s.log ++ [⟨s.now, e⟩] := by
      intro r' ph e h1 h2
      by_cases hi : r = r'
      · subst hi; rw [upd_self]; exact List.mem_append_left _ (ih _ h1)
      · rw [upd_other hi] at h2 ⊢; exact List.mem_append_left _ (ih _ h2)
    cases hs with
    | tick => exact ih r hr
    | @start r' h =>
      simp only [St.note] at hr ⊢
      by_cases hi : r = r'
      · subst hi; rw [upd_self]; exact List.mem_append_right _ (List.mem_singleton.2 rfl)
      · rw [upd_other hi] at hr ⊢; exact List.mem_append_left _ (ih _ hr)
    | listEnd h => exact other _ _ _ (by rw [h]; simp) hr
    | listFail h => exact other _ _ _ (by rw [h]; simp) hr
    | findEnd h => exact other _ _ _ (by rw [h]; simp) hr
    | findFail h => exact other _ _ _ (by rw [h]; simp) hr
    | crash h => exact other _ _ _ h hr
    | list => exact List.mem_append_left _ (List.mem_append_left _ (ih r hr))
    | find => exact List.mem_append_left _ (List.mem_append_left _ (ih r hr))
    | spawn => exact List.mem_append_left _ (List.mem_append_left _ (ih r hr))
    | _ => exact List.mem_append_left _ (ih r hr)

theorem Happens.calls {s : St} (h : Happens s) : Ordered CallOk s.log := by
  refine h.induct (P := fun s => Ordered CallOk s.log) Ordered.nil ?_
  intro s act s' hh ih hs
  have hk := hh.known
  cases hs with
  | tick => exact ih
  | @list r m hp =>
    refine (ih.snoc (callOk_other (by simp))).snoc ?_
    intro r' i' o' he
    cases he
    exact ⟨.listed _ _ rfl (hk s.tids).fresh.2, fun _ h => (nomatch h), fun _ h => (nomatch h)⟩
  | @find r c hp =>
    refine (ih.snoc (callOk_other (by simp))).snoc ?_
    intro r' i' o' he
    cases he
    exact ⟨.found _ _ _ rfl (hh.startup _ (by rw [hp]; simp)) (hk s.tids).fresh.2, fun _ h => (nomatch h), fun _ h => (nomatch h)⟩
  | @spawn tid r o a o' ht hn =>
    refine (ih.snoc (callOk_other (by simp))).snoc ?_
    intro r' i' o'' he
    cases he
    have hu := ((hk tid).some ht).2
    dsimp only at hu
    cases o <;> cases a <;> simp [next] at hn
    rename_i c m
    subst hn
    refine ⟨.again _ _ tid c rfl (hk s.tids).fresh.2 ?_, fun _ h => (nomatch h), fun _ h => (nomatch h)⟩
    generalize eventsOf tid s.log = l at hu
    cases hu with
    | answered hc hty => rw [List.getLast?_concat]
  | @goOn tid r o a o' ht hn =>
    refine ih.snoc ?_
    intro r' i' o'' he
    cases he
    have hu := ((hk tid).some ht).2
    dsimp only at hu
    generalize hev : eventsOf tid s.log = l at hu
    cases hu with
    | answered hc hty =>
      have hlast : (eventsOf tid s.log).getLast? = Option.some (.answer r tid o a) := by rw [hev, List.getLast?_concat]
      cases o <;> cases a <;> simp [next] at hn <;> subst hn
      · exact ⟨.fetch _ _ hlast, fun _ h => (nomatch h), fun _ h => (nomatch h)⟩
      · exact ⟨.hand _ _ hlast, fun _ h => (nomatch h), fun _ h => (nomatch h)⟩
      · refine ⟨.cancel _ _ hlast, fun _ h => (nomatch h), fun c h => ?_⟩
        cases h
        obtain ⟨m, first, hl⟩ := hc.handed
        exact ⟨m, _, first, by rw [hl]⟩
      · refine ⟨.done _ _ hlast, fun c h => ?_, fun _ h => (nomatch h)⟩
        cases h
        obtain ⟨m, first, hl⟩ := hc.handed
        exact ⟨m, _, first, by rw [hl]⟩
      · exact ⟨.recover _ _ hlast, fun _ h => (nomatch h), fun _ h => (nomatch h)⟩
      · exact ⟨.recovered _ _ hlast, fun _ h => (nomatch h), fun _ h => (nomatch h)⟩
  | _ => exact ih.snoc (callOk_other (by simp))

/-! ### What is yielded is used at once -/

/-- What must come after an entry. -/
def UsedAt (pre : List Entry) (e : Entry) (post : List Entry) : Prop :=
  (∀ r m, e.ev = .listed r m → ∃ i post', post = ⟨e.time, .call r i (.sendStart m)⟩ :: post' ∧ eventsOf i pre = []) ∧
  (∀ r c, e.ev = .found r c → ∃ i t post', post = ⟨e.time, .call r i (.delay t c)⟩ :: post' ∧ eventsOf i pre = []) ∧
  (∀ r j i, e.ev = .spawned r j i → ∃ m post', post = ⟨e.time, .call r i (.sendStart m)⟩ :: post' ∧ eventsOf i pre = [])

def AllUsed (log : List Entry) : Prop := ∀ pre e post, log = pre ++ e :: post → UsedAt pre e post

theorem UsedAt.more {pre post new : List Entry} {e : Entry} (h : UsedAt pre e post) : UsedAt pre e (post ++ new) := by
  obtain ⟨h1, h2, h3⟩ := h
  refine ⟨fun r m he => ?_, fun r c he => ?_, fun r j i he => ?_⟩
  · obtain ⟨i, p, rfl, h⟩ := h1 r m he; exact ⟨i, p ++ new, rfl, h⟩
  · obtain ⟨i, t, p, rfl, h⟩ := h2 r c he; exact ⟨i, t, p ++ new, rfl, h⟩
  · obtain ⟨m, p, rfl, h⟩ := h3 r j i he; exact ⟨m, p ++ new, rfl, h⟩

theorem AllUsed.append {log new : List Entry} (h : AllUsed log) (hn : ∀ x e y, new = x ++ e :: y → UsedAt (log ++ x) e y) :
    AllUsed (log ++ new) := by
  intro pre e post hs
  rw [List.append_eq_append_iff] at hs
  rcases hs with ⟨x, h1, h2⟩ | ⟨x, h1, h2⟩
  · subst h1; exact hn _ _ _ h2
  · cases x with
    | nil =>
      simp only [List.nil_append, List.append_nil] at h1 h2
      subst h1
      have := hn [] e post h2.symm
      rwa [List.append_nil] at this
    | cons b x =>
      simp only [List.cons_append, List.cons.injEq] at h2
      obtain ⟨rfl, rfl⟩ := h2
      exact (h _ _ _ h1).more

theorem AllUsed.one {log : List Entry} (h : AllUsed log) {e : Entry} (h1 : ∀ r m, e.ev ≠ .listed r m) (h2 : ∀ r c, e.ev ≠ .found r c)
    (h3 : ∀ r j i, e.ev ≠ .spawned r j i) : AllUsed (log ++ [e]) := by
  refine h.append fun x e' y hx => ?_
  cases x with
  | cons a x => simp at hx
  | nil =>
    simp only [List.nil_append, List.cons.injEq] at hx
    obtain ⟨rfl, _⟩ := hx
    exact ⟨fun _ _ h => absurd h (h1 _ _), fun _ _ h => absurd h (h2 _ _), fun _ _ _ h => absurd h (h3 _ _ _)⟩

theorem AllUsed.two {log : List Entry} (h : AllUsed log) {e : Entry} {r i : Nat} {o : Op}
    (he : UsedAt log e [⟨e.time, .call r i o⟩]) : AllUsed (log ++ [e] ++ [⟨e.time, .call r i o⟩]) := by
  rw [List.append_assoc]
  refine h.append fun x e' y hx => ?_
  match x with
  | [] =>
    simp only [List.cons_append, List.nil_append, List.cons.injEq] at hx
    obtain ⟨rfl, rfl⟩ := hx
    rw [List.append_nil]; exact he
  | [a] =>
    simp only [List.cons_append, List.nil_append, List.cons.injEq] at hx
    obtain ⟨_, rfl, _⟩ := hx
    exact ⟨by simp, by simp, by simp⟩
  | a :: b :: x => simp at hx

theorem Happens.used {s : St} (h : Happens s) : AllUsed s.log := by
  refine h.induct (P := fun s => AllUsed s.log) (fun pre e post h => by simp [init] at h) ?_
  intro s act s' hh ih hs
  have hk := (hh.known s.tids).fresh.2
  cases hs with
  | tick => exact ih
  | @list r m hp =>
    exact ih.two (e := ⟨s.now, .listed r m⟩) ⟨fun _ _ h => by cases h; exact ⟨_, _, rfl, hk⟩, by simp, by simp⟩
  | @find r c hp =>
    exact ih.two (e := ⟨s.now, .found r c⟩) ⟨by simp, fun _ _ h => by cases h; exact ⟨_, _, _, rfl, hk⟩, by simp⟩
  | @spawn tid r o a o' ht hn =>
    have : ∃ m, o' = .sendStart m := by
      cases o <;> cases a <;> simp [next] at hn
      exact ⟨_, hn.symm⟩
    obtain ⟨m, rfl⟩ := this
    exact ih.two (e := ⟨s.now, .spawned r tid s.tids⟩) ⟨by simp, by simp, fun _ _ _ h => by cases h; exact ⟨_, _, rfl, hk⟩⟩
  | _ => exact ih.one (by simp) (by simp) (by simp)

/-! ### One call of each kind -/

/-- The calls of kind `k` among events. -/
def kindCalls (k : Kind) (l : List Ev) : List Ev :=
  l.filter fun e => match e with
    | .call _ _ o => kindOf o == k
    | _ => false

theorem callsOf_length (i : Nat) (k : Kind) (log : List Entry) : (callsOf i k log).length = (kindCalls k (eventsOf i log)).length := by
  unfold callsOf kindCalls eventsOf
  rw [List.filter_filter, List.filter_map, List.length_map]
  congr 1
  refine List.filter_congr fun e _ => ?_
  obtain ⟨t, e⟩ := e
  cases e <;> simp [actor, Bool.and_comm]

theorem Delivers.once {r i m l} (h : Delivers r i m l) (k : Kind) : (kindCalls k l).length ≤ 1 ∧
    (k ≠ .delay ∧ k ≠ .cancelFound ∨ kindCalls k l = []) ∧ (kindCalls .sendDone l).length + (kindCalls .sendCancel l).length ≤ 1 := by
  cases h <;> cases k <;> simp [kindCalls, handed, kindOf]

theorem kindCalls_append (k : Kind) (l l' : List Ev) : kindCalls k (l ++ l') = kindCalls k l ++ kindCalls k l' := List.filter_append _ _

theorem Life.once {r i l} (h : Life r i l) (k : Kind) : (kindCalls k l).length ≤ 1 ∧
    (kindCalls .sendDone l).length + (kindCalls .sendCancel l).length ≤ 1 := by
  cases h with
  | delivery m l h => exact ⟨(h.once k).1, (h.once k).2.2⟩
  | noTimer => cases k <;> simp [kindCalls, kindOf]
  | notRecovered => cases k <;> simp [kindCalls, kindOf]
  | recovery t c m l h =>
    obtain ⟨h1, h2, h3⟩ := h.once k
    simp only [kindCalls_append, List.length_append]
    refine ⟨?_, ?_⟩
    · rcases h2 with h2 | h2
      · have : (kindCalls k [.call r i (.delay t c), .answer r i (.delay t c) .ok,
          .call r i (.cancelFound c), .answer r i (.cancelFound c) (.queued m)]).length = 0 := by
          cases k <;> simp_all [kindCalls, kindOf]
        omega
      · rw [h2]; cases k <;> simp [kindCalls, kindOf]
    · have : ∀ k, (k = .sendDone ∨ k = .sendCancel) → (kindCalls k [.call r i (.delay t c), .answer r i (.delay t c) .ok,
          .call r i (.cancelFound c), .answer r i (.cancelFound c) (.queued m)]).length = 0 := by
        rintro k (rfl | rfl) <;> simp [kindCalls, kindOf]
      have a := this .sendDone (.inl rfl)
      have b := this .sendCancel (.inr rfl)
      omega

/-! ### Runs -/

theorem runEvents_snoc (r t : Nat) (e : Ev) (l : List Entry) : runEvents r (l ++ [⟨t, e⟩]) = runEvents r l ++
    if runOf e = some r ∧ actor e = none ∧ (e matches .crash _) = false then [e] else [] := by
  unfold runEvents
  rw [List.map_append, List.filter_append]
  congr 1
  simp only [List.map_cons, List.map_nil, List.filter_cons, List.filter_nil]
  cases e <;> simp [runOf, actor]

/-- What is known of run `r`. -/
def RunKnown (s : St) (r : Nat) : Prop :=
  match (s.runs r).phase with
  | .notStarted => runEvents r s.log = []
  | .listing => ∃ ms : List MailId, runEvents r s.log = .started r :: ms.map (.listed r)
  | .finding => ∃ (ms : List MailId) (cs : List Claim), runEvents r s.log = .started r :: ms.map (.listed r) ++ .listEnded r :: cs.map (.found r)
  | _ => RunSoFar r (runEvents r s.log)

theorem RunKnown.soFar {s : St} {r : Nat} (h : RunKnown s r) : RunSoFar r (runEvents r s.log) := by
  unfold RunKnown at h
  split at h
  · rw [h]; exact .notYet
  · obtain ⟨ms, h⟩ := h; rw [h]; exact .listing ms
  · obtain ⟨ms, cs, h⟩ := h; rw [h]; exact .finding ms cs
  · exact h

theorem RunKnown.same {s s' : St} {r : Nat} (h : RunKnown s r) (h1 : (s'.runs r).phase = (s.runs r).phase)
    (h2 : runEvents r s'.log = runEvents r s.log) : RunKnown s' r := by
  unfold RunKnown at h ⊢
  rw [h1, h2]; exact h

theorem runEvents_other {r t : Nat} {e : Ev} {l : List Entry} (h : ¬ (runOf e = some r ∧ actor e = none)) :
    runEvents r (l ++ [⟨t, e⟩]) = runEvents r l := by
  rw [runEvents_snoc, if_neg fun h' => h ⟨h'.1, h'.2.1⟩, List.append_nil]

theorem Happens.runs {s : St} (h : Happens s) (r : Nat) : RunKnown s r := by
  refine h.induct (P := fun s => ∀ r, RunKnown s r) (fun r => rfl) ?_ r
  intro s act s' hh ih hs r
  have h := ih r
  have phase : ∀ (r' : Nat) (ph : Phase) (e : Ev), runOf e = some r' → actor e = none → (∀ r, e ≠ .crash r) →
      (r = r' → RunKnown { s with runs := upd s.runs r' ⟨ph, (s.runs r').startup⟩, log := s.log ++ [⟨s.now, e⟩] } r) →
      RunKnown ({ s with runs := upd s.runs r' { s.runs r' with phase := ph } }.note e) r := by
    intro r' ph e h1 h2 h3 h4
    by_cases hi : r = r'
    · exact h4 hi
    · refine h.same (by simp only [St.note]; rw [upd_other hi]) (runEvents_other ?_)
      rw [h1]; rintro ⟨h5, _⟩; cases h5; exact hi rfl
  cases hs with
  | tick => exact h
  | enqueue => exact h.same rfl (runEvents_other (by simp [runOf]))
  | @start r' hp =>
    by_cases hi : r = r'
    · subst hi
      unfold RunKnown at h ⊢
      rw [hp] at h
      simp only [St.note, upd_self, runEvents_snoc]
      exact ⟨[], by rw [h, if_pos (by simp [runOf, actor])]; rfl⟩
    · exact h.same (by simp only [St.note]; rw [upd_other hi]) (runEvents_other (by simp only [runOf]; rintro ⟨h5, _⟩; cases h5; exact hi rfl))
  | @list r' m hp =>
    by_cases hi : r = r'
    · subst hi
      unfold RunKnown at h ⊢
      simp only [St.spawn, St.note] at h ⊢
      rw [hp] at h ⊢
      obtain ⟨ms, h⟩ := h
      refine ⟨ms ++ [m], ?_⟩
      rw [runEvents_other (by simp [actor]), runEvents_snoc, if_pos (by simp [runOf, actor]), h]
      simp
    · exact h.same rfl (by
        simp only [St.spawn, St.note]
        rw [runEvents_other (by simp [actor]), runEvents_other (by simp only [runOf]; rintro ⟨h5, _⟩; cases h5; exact hi rfl)])
  | @find r' c hp =>
    by_cases hi : r = r'
    · subst hi
      unfold RunKnown at h ⊢
      simp only [St.spawn, St.note] at h ⊢
      rw [hp] at h ⊢
      obtain ⟨ms, cs, h⟩ := h
      refine ⟨ms, cs ++ [c], ?_⟩
      rw [runEvents_other (by simp [actor]), runEvents_snoc, if_pos (by simp [runOf, actor]), h]
      simp
    · exact h.same rfl (by
        simp only [St.spawn, St.note]
        rw [runEvents_other (by simp [actor]), runEvents_other (by simp only [runOf]; rintro ⟨h5, _⟩; cases h5; exact hi rfl)])
  | @listEnd r' hp =>
    refine phase _ _ _ rfl rfl (by simp) fun hi => ?_
    subst hi
    unfold RunKnown at h ⊢
    rw [hp] at h
    simp only [upd_self]
    obtain ⟨ms, h⟩ := h
    exact ⟨ms, [], by rw [runEvents_snoc, if_pos (by simp [runOf, actor]), h]; rfl⟩
  | @listFail r' hp =>
    refine phase _ _ _ rfl rfl (by simp) fun hi => ?_
    subst hi
    unfold RunKnown at h ⊢
    rw [hp] at h
    simp only [upd_self]
    obtain ⟨ms, h⟩ := h
    rw [runEvents_snoc, if_pos (by simp [runOf, actor]), h]
    exact .listFailed ms
  | @findEnd r' hp =>
    refine phase _ _ _ rfl rfl (by simp) fun hi => ?_
    subst hi
    unfold RunKnown at h ⊢
    rw [hp] at h
    simp only [upd_self]
    obtain ⟨ms, cs, h⟩ := h
    rw [runEvents_snoc, if_pos (by simp [runOf, actor]), h]
    exact .finished ms cs
  | @findFail r' hp =>
    refine phase _ _ _ rfl rfl (by simp) fun hi => ?_
    subst hi
    unfold RunKnown at h ⊢
    rw [hp] at h
    simp only [upd_self]
    obtain ⟨ms, cs, h⟩ := h
    rw [runEvents_snoc, if_pos (by simp [runOf, actor]), h]
    exact .findFailed ms cs
  | @crash r' hp =>
    have hev : runEvents r (s.log ++ [⟨s.now, .crash r'⟩]) = runEvents r s.log := by
      rw [runEvents_snoc, if_neg (by simp), List.append_nil]
    by_cases hi : r = r'
    · subst hi
      have := h.soFar
      unfold RunKnown
      simp only [St.note, upd_self]
      rw [hev]; exact this
    · exact h.same (by simp only [St.note]; rw [upd_other hi]) hev
  | spawn =>
    refine h.same rfl ?_
    simp only [St.spawn, St.note]
    rw [runEvents_other (by simp [actor]), runEvents_other (by simp [actor])]
  | _ => exact h.same rfl (runEvents_other (by simp [actor]))

/-! ### Crashes -/

def Dead (s : St) : Prop := ∀ r, Has s.log (.crash r) → (s.runs r).phase = .crashed ∧ ∀ i t, s.task i = some t → t.run ≠ r

/-- Nothing of a run that has crashed. -/
def Silent (pre : List Entry) (e : Entry) : Prop := ∀ r, Has pre (.crash r) → runOf e.ev = some r → e.ev = .crash r

theorem has_snoc {l : List Entry} {t : Nat} {e e' : Ev} (h : Has (l ++ [⟨t, e⟩]) e') : Has l e' ∨ e = e' := by
  obtain ⟨x, h1, h2⟩ := h
  rcases List.mem_append.1 h1 with h1 | h1
  · exact .inl ⟨x, h1, h2⟩
  · rw [List.mem_singleton.1 h1] at h2; exact .inr h2

theorem Happens.silent {s : St} (h : Happens s) : Dead s ∧ Ordered Silent s.log := by
  refine h.induct (P := fun s => Dead s ∧ Ordered Silent s.log) ⟨fun r h => ?_, Ordered.nil⟩ ?_
  · obtain ⟨_, h, _⟩ := h; cases h
  · rintro s act s' _ ⟨hd, ho⟩ hs
    -- an event that is no crash, of a run that has not crashed
    have alive : ∀ {r : Nat}, (s.runs r).phase ≠ .crashed → ¬ Has s.log (.crash r) := fun h1 h2 => h1 (hd _ h2).1
    have alive' : ∀ {i : Nat} {t : Task}, s.task i = some t → ¬ Has s.log (.crash t.run) := fun h1 h2 => (hd _ h2).2 _ _ h1 rfl
    have sil : ∀ {e : Ev} {r : Nat}, ¬ Has s.log (.crash r) → (∀ r', runOf e = some r' → r' = r) → Silent s.log ⟨s.now, e⟩ := by
      intro e r h1 h2 r' h3 h4
      rw [h2 _ h4] at h3; exact absurd h3 h1
    have run : ∀ (r' : Nat) (v : Run) (e : Ev), (∀ r, e ≠ .crash r) → ¬ Has s.log (.crash r') →
        Dead ({ s with runs := upd s.runs r' v }.note e) := by
      intro r' v e he hr r hc
      rcases has_snoc hc with hc | hc
      · have hi : r ≠ r' := by rintro rfl; exact hr hc
        simp only [St.note]
        rw [upd_other hi]
        exact hd r hc
      · exact absurd hc (he _)
    have tsk : ∀ (i : Nat) (v : Option Task) (e : Ev) (t : Task), (∀ r, e ≠ .crash r) → s.task i = some t → (∀ t', v = some t' → t'.run = t.run) →
        Dead ({ s with task := upd s.task i v }.note e) := by
      intro i v e t he ht hv r hc
      rcases has_snoc hc with hc | hc
      · obtain ⟨h1, h2⟩ := hd r hc
        refine ⟨h1, fun j t' hj => ?_⟩
        simp only [St.note] at hj
        by_cases hi : j = i
        · subst hi; rw [upd_self] at hj; rw [hv _ hj]; exact h2 _ _ ht
        · rw [upd_other hi] at hj; exact h2 _ _ hj
      · exact absurd hc (he _)
    have spw : ∀ {s1 : St} {r : Nat} {o : Op}, Dead s1 → ¬ Has s1.log (.crash r) → Dead (s1.spawn r o) := by
      intro s1 r o h1 h2 r' hc
      rcases has_snoc hc with hc | hc
      · obtain ⟨h3, h4⟩ := h1 r' hc
        refine ⟨h3, fun j t hj => ?_⟩
        simp only [St.spawn, St.note] at hj
        by_cases hi : j = s1.tids
        · subst hi; rw [upd_self] at hj; cases hj; rintro rfl; exact h2 hc
        · rw [upd_other hi] at hj; exact h4 _ _ hj
      · cases hc
    have no : ∀ {l : List Entry} {t r : Nat} {e : Ev}, ¬ Has l (.crash r) → (∀ r, e ≠ .crash r) → ¬ Has (l ++ [⟨t, e⟩]) (.crash r) := by
      intro l t r e h1 h2 h3
      rcases has_snoc h3 with h3 | h3
      · exact h1 h3
      · exact h2 _ h3
    cases hs with
    | tick => exact ⟨hd, ho⟩
    | enqueue =>
      refine ⟨fun r hc => ?_, ho.snoc fun r _ h => nomatch h⟩
      rcases has_snoc hc with hc | hc
      · exact hd r hc
      · cases hc
    | @start r hp =>
      have ha := alive (r := r) (by rw [hp]; simp)
      exact ⟨run _ _ _ (by simp) ha, ho.snoc (sil ha (by simp [runOf]))⟩
    | @listEnd r hp =>
      have ha := alive (r := r) (by rw [hp]; simp)
      exact ⟨run _ _ _ (by simp) ha, ho.snoc (sil ha (by simp [runOf]))⟩
    | @listFail r hp =>
      have ha := alive (r := r) (by rw [hp]; simp)
      exact ⟨run _ _ _ (by simp) ha, ho.snoc (sil ha (by simp [runOf]))⟩
    | @findEnd r hp =>
      have ha := alive (r := r) (by rw [hp]; simp)
      exact ⟨run _ _ _ (by simp) ha, ho.snoc (sil ha (by simp [runOf]))⟩
    | @findFail r hp =>
      have ha := alive (r := r) (by rw [hp]; simp)
      exact ⟨run _ _ _ (by simp) ha, ho.snoc (sil ha (by simp [runOf]))⟩
    | @list r m hp =>
      have ha := alive (r := r) (by rw [hp]; simp)
      refine ⟨spw ?_ (no ha (by simp)), (ho.snoc (sil ha (by simp [runOf]))).snoc ?_⟩
      · intro r' hc
        rcases has_snoc hc with hc | hc
        · exact hd r' hc
        · cases hc
      · intro r' h1 h2
        cases h2
        exact absurd h1 (no ha (by simp))
    | @find r m hp =>
      have ha := alive (r := r) (by rw [hp]; simp)
      refine ⟨spw ?_ (no ha (by simp)), (ho.snoc (sil ha (by simp [runOf]))).snoc ?_⟩
      · intro r' hc
        rcases has_snoc hc with hc | hc
        · exact hd r' hc
        · cases hc
      · intro r' h1 h2
        cases h2
        exact absurd h1 (no ha (by simp))
    | @answer tid r o a _ ht _ =>
      exact ⟨tsk _ _ _ _ (by simp) ht (by simp), ho.snoc (sil (alive' ht) (by simp [runOf]))⟩
    | @finish tid r o a ht _ =>
      exact ⟨tsk _ _ _ _ (by simp) ht (by simp), ho.snoc (sil (alive' ht) (by simp [runOf]))⟩
    | @goOn tid r o a _ ht _ =>
      exact ⟨tsk _ _ _ _ (by simp) ht (by simp), ho.snoc (sil (alive' ht) (by simp [runOf]))⟩
    | @spawn tid r o a _ ht _ =>
      refine ⟨spw (tsk _ _ _ _ (by simp) ht (by simp)) (no (alive' ht) (by simp)), (ho.snoc (sil (alive' ht) (by simp [runOf]))).snoc ?_⟩
      intro r' h1 h2
      cases h2
      exact absurd h1 (no (alive' ht) (by simp))
    | @die tid t ht =>
      exact ⟨tsk _ _ _ _ (by simp) ht (by simp), ho.snoc (sil (alive' ht) (by simp [runOf]))⟩
    | @crash r hp =>
      refine ⟨fun r' hc => ?_, ho.snoc fun r' _ h => ?_⟩
      · have hnone : ∀ i t, survivors s r i = some t → s.task i = some t ∧ t.run ≠ r := by
          intro i t h
          simp only [survivors] at h
          split at h
          · split at h
            · cases h
            · cases h; exact ⟨‹_›, ‹_›⟩
          · cases h
        by_cases hi : r' = r
        · subst hi
          simp only [St.note, upd_self]
          exact ⟨trivial, fun i t h => (hnone i t h).2⟩
        · rcases has_snoc hc with hc | hc
          · simp only [St.note]
            rw [upd_other hi]
            exact ⟨(hd r' hc).1, fun i t h => (hd r' hc).2 i t (hnone i t h).1⟩
          · cases hc; exact absurd rfl hi
      · cases h; rfl

/-! ### The queue with a storage is a case -/

theorem effect_typed {s s1 : Queue.St} {o : Op} {a : Ans} {eff : Bool} (h : Queue.Effect s o a eff s1) : typed o a = true := by
  cases h <;> first
    | rfl
    | (rename_i h; rcases h with rfl | rfl <;> rfl)
    | (rename_i h; rcases h with rfl | ⟨rfl, _⟩ <;> rfl)
    | (cases o <;> rfl)

theorem step_covers {s s' : Queue.St} {act : Act} (h : Queue.step s act = some s') : step (forget s) act = some (forget s') := by
  have h := Queue.step_cases h
  cases h with
  | tick => rfl
  | enqueue => rfl
  | start hp => simp only [step, forget, hp, if_true]; rfl
  | list hp => simp only [step, forget, hp, if_true]; rfl
  | listEnd hp => simp only [step, forget, hp, if_true]; rfl
  | listFail hp => simp only [step, forget, hp, if_true]; rfl
  | find hp => simp only [step, forget, hp, if_true]; rfl
  | findEnd hp => simp only [step, forget, hp, if_true]; rfl
  | findFail hp => simp only [step, forget, hp, if_true]; rfl
  | answer ht he =>
    obtain ⟨e1, e2, e3, e4, e5⟩ := he.same
    simp only [step, forget, ht, effect_typed he, if_true, Queue.St.note, St.note, e1, e2, e3, e4, e5]
  | finish ht hn => simp only [step, forget, ht, St.proceed, hn]; rfl
  | goOn ht hn => simp only [step, forget, ht, St.proceed, hn]; rfl
  | spawn ht hn => simp only [step, forget, ht, St.proceed, hn]; rfl
  | crash hp => exact if_pos hp
  | die ht => simp only [step, forget, ht]; rfl

/-! ### Counting -/

/-- The sum of `f` below `n`. -/
def sumTo (f : Nat → Nat) : Nat → Nat
  | 0 => 0
  | n + 1 => sumTo f n + f n

theorem sumTo_le {f g : Nat → Nat} (h : ∀ i, f i ≤ g i) (n : Nat) : sumTo f n ≤ sumTo g n := by
  induction n with
  | zero => exact Nat.le_refl _
  | succ n ih => have := h n; simp only [sumTo]; omega

theorem sumTo_congr {f g : Nat → Nat} {n : Nat} (h : ∀ i, i < n → f i = g i) : sumTo f n = sumTo g n := by
  induction n with
  | zero => rfl
  | succ n ih => simp only [sumTo]; rw [ih fun i hi => h i (by omega), h n (by omega)]

theorem sumTo_bump {f g : Nat → Nat} {n k : Nat} (hk : k < n) (h1 : f k = g k + 1) (h2 : ∀ i, i ≠ k → f i = g i) :
    sumTo f n = sumTo g n + 1 := by
  induction n with
  | zero => omega
  | succ n ih =>
    simp only [sumTo]
    by_cases hkn : k = n
    · subst hkn
      rw [sumTo_congr (g := g) fun i hi => h2 i (by omega), h1]; omega
    · rw [ih (by omega), h2 n (by omega)]; omega

theorem sumTo_const (c n : Nat) : sumTo (fun _ => c) n = n * c := by
  induction n with
  | zero => simp [sumTo]
  | succ n ih => rw [sumTo, ih, Nat.succ_mul]

def countOf (p : Ev → Bool) (l : List Ev) : Nat := (l.filter p).length

theorem times_sum {p : Ev → Bool} (hp : ∀ e, p e = true → (actor e).isSome) {n : Nat} {log : List Entry}
    (hn : ∀ i, n ≤ i → eventsOf i log = []) : times p log = sumTo (fun i => countOf p (eventsOf i log)) n := by
  induction log with
  | nil =>
    have h := sumTo_const 0 n
    rw [Nat.mul_zero] at h
    exact h.symm
  | cons e log ih =>
    have cons : ∀ i, eventsOf i (e :: log) = (if actor e.ev = some i then [e.ev] else []) ++ eventsOf i log := fun i => by
      rw [← List.singleton_append, eventsOf_append, ← eventsOf_one]
    have hn' : ∀ i, n ≤ i → eventsOf i log = [] := fun i hi => by
      have := hn i hi; rw [cons] at this; exact (List.append_eq_nil_iff.1 this).2
    have ht : times p (e :: log) = (if p e.ev then 1 else 0) + times p log := by
      simp only [times, List.filter_cons]; split <;> simp; omega
    rw [ht, ih hn']
    by_cases hpe : p e.ev = true
    · obtain ⟨k, hk⟩ := Option.isSome_iff_exists.1 (hp _ hpe)
      have hkn : k < n := by
        refine Nat.lt_of_not_le fun h => ?_
        have := hn k h
        rw [cons, if_pos hk] at this; simp at this
      rw [if_pos hpe, sumTo_bump (f := fun i => countOf p (eventsOf i (e :: log))) (g := fun i => countOf p (eventsOf i log)) hkn]
      · omega
      · simp only [cons, if_pos hk, countOf, List.filter_append, List.filter_cons, hpe, if_true, List.filter_nil, List.length_append,
          List.length_cons, List.length_nil]; omega
      · intro i hi
        simp only [cons]
        rw [if_neg (by rw [hk]; simp only [Option.some.injEq]; exact fun h => hi h.symm), List.nil_append]
    · rw [if_neg hpe, Nat.zero_add]
      refine sumTo_congr fun i _ => ?_
      simp only [cons, countOf, List.filter_append, List.length_append]
      split <;> simp [hpe]

def isSpawn : Ev → Bool
  | .spawned _ _ _ => true
  | _ => false

theorem times_append (p : Ev → Bool) (l l' : List Entry) : times p (l ++ l') = times p l + times p l' := by
  simp [times]

/-- Each task was spawned for a handle, or as a retry. -/
theorem Happens.tasks {s : St} (h : Happens s) : s.tids = times isYield s.log + times isSpawn s.log := by
  refine h.induct (P := fun s => s.tids = times isYield s.log + times isSpawn s.log) rfl ?_
  intro s act s' _ ih hs
  cases hs with
  | list | find | spawn =>
    simp only [St.spawn, St.note, times_append, ih]
    simp [times, isYield, isSpawn]; omega
  | tick => exact ih
  | _ => simp only [St.note, times_append, ih]; simp [times, isYield, isSpawn]

theorem countOf_append (p : Ev → Bool) (l l' : List Ev) : countOf p (l ++ l') = countOf p l + countOf p l' := by
  simp [countOf]

theorem Chain.noSpawn {r i o l} (h : Chain r i o l) : countOf isSpawn l = 0 := by
  induction h with
  | start => rfl
  | delay => rfl
  | on _ _ _ ih => rw [countOf_append, ih]; rfl

theorem Chain.refused {r i c l} (h : Chain r i (.sendCancel c) l) : 1 ≤ countOf isRefusal l := by
  cases h with
  | @on o a _ l h1 h2 h3 =>
    cases o <;> cases a <;> simp [next, sendQueuedMail] at h3
    rename_i c' b
    rw [countOf_append]
    have : countOf isRefusal [.answer r i (.transportSend c' b) .err, .call r i (.sendCancel c)] = 1 := rfl
    omega

/-- A task spawns a retry only after a refusal. -/
theorem Happens.retries {s : St} (h : Happens s) (i : Nat) : countOf isSpawn (eventsOf i s.log) ≤ countOf isRefusal (eventsOf i s.log) := by
  refine h.induct (P := fun s => ∀ i, countOf isSpawn (eventsOf i s.log) ≤ countOf isRefusal (eventsOf i s.log)) (fun i => Nat.le_refl _) ?_ i
  intro s act s' hh ih hs i
  have one : ∀ {l : List Entry} {t : Nat} {e : Ev}, isSpawn e = false → countOf isSpawn (eventsOf i l) ≤ countOf isRefusal (eventsOf i l) →
      countOf isSpawn (eventsOf i (l ++ [⟨t, e⟩])) ≤ countOf isRefusal (eventsOf i (l ++ [⟨t, e⟩])) := by
    intro l t e he h
    rw [eventsOf_snoc, countOf_append, countOf_append]
    have : countOf isSpawn (if actor e = some i then [e] else []) = 0 := by split <;> simp [countOf, he]
    omega
  cases hs with
  | tick => exact ih i
  | list => exact one rfl (one rfl (ih i))
  | find => exact one rfl (one rfl (ih i))
  | @spawn tid r o a o' ht hn =>
    refine one rfl ?_
    by_cases hi : tid = i
    · subst hi
      simp only [St.note]
      rw [eventsOf_own rfl, countOf_append, countOf_append]
      have hu := ((hh.known tid).some ht).2
      dsimp only at hu
      generalize eventsOf tid s.log = l at hu
      cases hu with
      | answered hc hty =>
        have h1 := hc.noSpawn
        have h2 : ∃ c, o = .sendCancel c := by cases o <;> cases a <;> simp [next] at hn; exact ⟨_, rfl⟩
        obtain ⟨c, rfl⟩ := h2
        have h3 := hc.refused
        rw [countOf_append, countOf_append, h1]
        have h4 : countOf isSpawn [Ev.answer r tid (.sendCancel c) a] = 0 := rfl
        have h5 : countOf isSpawn [Ev.spawned r tid s.tids] = 1 := rfl
        omega
    · simp only [St.note]
      rw [eventsOf_other (by simp only [actor, ne_eq, Option.some.injEq]; exact hi)]
      exact ih i
  | _ => exact one rfl (ih i)

/-! ### The end of a task -/

/-- How many steps a task can still take. -/
def rank : Op → Option Ans → Nat
  | .delay _ _, a => if a.isSome then 11 else 12
  | .cancelFound _, a => if a.isSome then 9 else 10
  | .sendStart _, a => if a.isSome then 7 else 8
  | .getMail _, a => if a.isSome then 5 else 6
  | .transportSend _ _, a => if a.isSome then 3 else 4
  | .sendDone _, a => if a.isSome then 1 else 2
  | .sendCancel _, a => if a.isSome then 1 else 2

def rankAt (s : St) (i : Nat) : Nat :=
  match s.task i with
  | some t => rank t.op t.ans
  | none => 0

theorem rank_pos (o : Op) (a : Option Ans) : 1 ≤ rank o a := by cases o <;> simp only [rank] <;> split <;> omega

theorem rank_le (o : Op) (a : Option Ans) : rank o a ≤ 12 := by cases o <;> simp only [rank] <;> split <;> omega

theorem rank_next {o o' : Op} {a : Ans} (h : next o a = .goOn o') : rank o' none < rank o (some a) := by
  cases o <;> cases a <;> simp [next, sendQueuedMail] at h <;> subst h <;> simp [rank]

theorem rank_step {s s' : St} {act : Act} (h : Step s act s') {i : Nat} (hi : i < s.tids) :
    i < s'.tids ∧ rankAt s' i + (if isStepOf i act = true then 1 else 0) ≤ rankAt s i := by
  have new : ∀ {s1 : St} {r : Nat} {o : Op}, i < s1.tids → rankAt (s1.spawn r o) i = rankAt s1 i ∧ i < (s1.spawn r o).tids := by
    intro s1 r o h
    refine ⟨?_, Nat.lt_succ_of_lt h⟩
    simp only [rankAt, St.spawn, St.note]
    rw [upd_other (Nat.ne_of_lt h)]
  have own : ∀ {tid : Nat} {t : Task} {v : Option Task} {e : Ev}, s.task tid = some t →
      (match v with | some t' => rank t'.op t'.ans | none => 0) + 1 ≤ rank t.op t.ans →
      rankAt ({ s with task := upd s.task tid v }.note e) i + (if tid = i then 1 else 0) ≤ rankAt s i := by
    intro tid t v e ht hv
    simp only [rankAt, St.note]
    by_cases hti : tid = i
    · subst hti
      rw [upd_self, ht, if_pos rfl]; exact hv
    · rw [upd_other (fun h => hti h.symm), if_neg hti]; exact Nat.le_refl _
  cases h with
  | list => obtain ⟨h1, h2⟩ := new (s1 := s.note _) (r := _) (o := _) hi; exact ⟨h2, Nat.le_of_eq h1⟩
  | find => obtain ⟨h1, h2⟩ := new (s1 := s.note _) (r := _) (o := _) hi; exact ⟨h2, Nat.le_of_eq h1⟩
  | @answer tid r o a eff ht hty =>
    refine ⟨hi, ?_⟩
    have := own (v := some ⟨r, o, some a⟩) (e := .answer r tid o a) ht (by cases o <;> simp [rank])
    simpa [isStepOf] using this
  | @finish tid r o a ht hn =>
    refine ⟨hi, ?_⟩
    have := own (v := none) (e := .ended r tid) ht (by dsimp only; have := rank_pos o (some a); omega)
    simpa [isStepOf] using this
  | @goOn tid r o a o' ht hn =>
    refine ⟨hi, ?_⟩
    have := own (v := some ⟨r, o', none⟩) (e := .call r tid o') ht (rank_next hn)
    simpa [isStepOf] using this
  | @spawn tid r o a o' ht hn =>
    have h1 := own (v := none) (e := .spawned r tid s.tids) ht (by dsimp only; have := rank_pos o (some a); omega)
    obtain ⟨h2, h3⟩ := new (s1 := { s with task := upd s.task tid none }.note (.spawned r tid s.tids)) (r := r) (o := o') hi
    refine ⟨h3, ?_⟩
    rw [h2]
    simpa [isStepOf] using h1
  | @crash r hp =>
    refine ⟨hi, ?_⟩
    simp only [rankAt, St.note, survivors]
    cases ht : s.task i with
    | none => exact Nat.le_refl _
    | some t =>
      dsimp only
      split
      · rename_i h; split at h <;> cases h; exact Nat.le_refl _
      · exact Nat.zero_le _
  | @die tid t ht =>
    refine ⟨hi, ?_⟩
    have := own (v := none) (e := .died t.run tid t.op) ht (by dsimp only; have := rank_pos t.op t.ans; omega)
    exact Nat.le_trans (Nat.add_le_add_left (by split <;> simp [isStepOf] at *) _) this
  | _ => exact ⟨hi, Nat.le_refl _⟩

theorem rank_exec {acts : List Act} {s s' : St} (h : exec s acts = some s') {i : Nat} (hi : i < s.tids) :
    rankAt s' i + (acts.filter (isStepOf i)).length ≤ rankAt s i := by
  induction acts generalizing s with
  | nil => cases h; exact Nat.le_refl _
  | cons a as ih =>
    simp only [exec] at h
    cases h1 : step s a with
    | none => rw [h1] at h; cases h
    | some s1 =>
      rw [h1] at h
      obtain ⟨h2, h3⟩ := rank_step (step_cases h1) hi
      have h4 := ih h h2
      rw [List.filter_cons]
      split <;> rename_i hs
      · rw [if_pos hs] at h3; simp only [List.length_cons]; omega
      · rw [if_neg hs] at h3; omega

theorem endless_down {σ : Nat → St} {a : Nat → Act} (h : Endless σ a) {i m : Nat} (hi : i < (σ m).tids) (k : Nat) :
    i < (σ (m + k)).tids ∧ rankAt (σ (m + k)) i ≤ rankAt (σ m) i := by
  induction k with
  | zero => exact ⟨hi, Nat.le_refl _⟩
  | succ k ih =>
    obtain ⟨h1, h2⟩ := rank_step (step_cases (h.2 (m + k))) ih.1
    exact ⟨h1, Nat.le_trans (Nat.le_trans (Nat.le_add_right _ _) h2) ih.2⟩

theorem endless_happens {σ : Nat → St} {a : Nat → Act} (h : Endless σ a) (n : Nat) : Happens (σ n) := by
  induction n with
  | zero => exact ⟨[], by rw [h.1]; rfl⟩
  | succ n ih =>
    obtain ⟨acts, ha⟩ := ih
    refine ⟨acts ++ [a n], ?_⟩
    have : ∀ (l : List Act) (s : St), exec s l = some (σ n) → exec s (l ++ [a n]) = some (σ (n + 1)) := by
      intro l
      induction l with
      | nil => intro s hs; cases hs; simp only [List.nil_append, exec, h.2 n]
      | cons b l ihl =>
        intro s hs
        simp only [List.cons_append, exec] at hs ⊢
        cases hb : step s b with
        | none => rw [hb] at hs; cases hs
        | some s1 => rw [hb] at hs; exact ihl s1 hs
    exact this acts init ha

theorem rankAt_zero {s : St} {i : Nat} (h : rankAt s i = 0) : s.task i = none := by
  cases ht : s.task i with
  | none => rfl
  | some t =>
    have h5 : rankAt s i = rank t.op t.ans := by unfold rankAt; rw [ht]
    have := rank_pos t.op t.ans
    omega

theorem endless_ends {σ : Nat → St} {a : Nat → Act} (h : Endless σ a) {i : Nat} (hs : Served σ a i) (k m : Nat)
    (hi : i < (σ m).tids) (hr : rankAt (σ m) i ≤ k) : ∃ n, m ≤ n ∧ (σ n).task i = none := by
  induction k generalizing m with
  | zero => exact ⟨m, Nat.le_refl _, rankAt_zero (Nat.le_zero.1 hr)⟩
  | succ k ih =>
    by_cases ht : (σ m).task i = none
    · exact ⟨m, Nat.le_refl _, ht⟩
    · obtain ⟨n, hn, h1 | h1⟩ := hs m ht
      · obtain ⟨d, rfl⟩ := Nat.le.dest hn
        obtain ⟨h2, h3⟩ := endless_down h hi d
        obtain ⟨h4, h5⟩ := rank_step (step_cases (h.2 (m + d))) h2
        rw [if_pos h1] at h5
        obtain ⟨n', h6, h7⟩ := ih (m + d + 1) h4 (by omega)
        exact ⟨n', by omega, h7⟩
      · exact ⟨n, hn, h1⟩

end Verif.FreeQ
