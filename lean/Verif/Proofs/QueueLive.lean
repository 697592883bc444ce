import Verif.Proofs.Queue
import Verif.Spec.QueueFair
/-
Eventual delivery: the argument behind C77 and C78.
-/
namespace Verif.Queue

/-- A task that will do something for the mail `m`, which is at the given place. -/
inductive Caring (m : MailId) : Loc → Task → Prop
  | start {r} : Caring m .queued ⟨r, .sendStart m, none⟩
  | back {r c} : Caring m .queued ⟨r, .sendCancel c, some (.queued m)⟩
  | recovered {r c} : Caring m .queued ⟨r, .cancelFound c, some (.queued m)⟩
  | started {r m' g} : Caring m (.inflight g) ⟨r, .sendStart m', some (.inflight ⟨m, g⟩)⟩
  | fetch {r g} : Caring m (.inflight g) ⟨r, .getMail ⟨m, g⟩, none⟩
  | fetched {r g b} : Caring m (.inflight g) ⟨r, .getMail ⟨m, g⟩, some (.mail b)⟩
  | send {r g b} : Caring m (.inflight g) ⟨r, .transportSend ⟨m, g⟩ b, none⟩
  | accepted {r g b} : Caring m (.inflight g) ⟨r, .transportSend ⟨m, g⟩ b, some .ok⟩
  | refused {r g b} : Caring m (.inflight g) ⟨r, .transportSend ⟨m, g⟩ b, some .err⟩
  | finish {r g} : Caring m (.inflight g) ⟨r, .sendDone ⟨m, g⟩, none⟩
  | cancel {r g} : Caring m (.inflight g) ⟨r, .sendCancel ⟨m, g⟩, none⟩
  | wait {r g t} : Caring m (.inflight g) ⟨r, .delay t ⟨m, g⟩, none⟩
  | waited {r g t} : Caring m (.inflight g) ⟨r, .delay t ⟨m, g⟩, some .ok⟩
  | recover {r g} : Caring m (.inflight g) ⟨r, .cancelFound ⟨m, g⟩, none⟩

/-- How far the task is from changing the place of the mail. -/
def rank (t : Task) : Nat :=
  match t.op, t.ans with
  | .sendStart _, none => 1
  | .sendCancel _, some _ => 2
  | .cancelFound _, some _ => 2
  | .sendStart _, some _ => 8
  | .getMail _, none => 7
  | .getMail _, some _ => 6
  | .transportSend _ _, none => 5
  | .transportSend _ _, some _ => 4
  | .sendDone _, _ => 3
  | .sendCancel _, none => 3
  | .delay _ _, none => 5
  | .delay _ _, some _ => 4
  | .cancelFound _, none => 3

/-- Somebody takes care of the mail, or it is gone. -/
def Care (m : MailId) (s : St) : Prop := s.store m = .gone ∨ ∃ i t, s.task i = some t ∧ Caring m (s.store m) t

/-- What an answer does to the mail `m`, seen from its place. -/
inductive Moves (m : MailId) : Loc → Task → Loc → Prop
  | take {r g} : Moves m .queued ⟨r, .sendStart m, some (.inflight ⟨m, g⟩)⟩ (.inflight g)
  | done {r g} : Moves m (.inflight g) ⟨r, .sendDone ⟨m, g⟩, some .ok⟩ .gone
  | cancel {r g} : Moves m (.inflight g) ⟨r, .sendCancel ⟨m, g⟩, some (.queued m)⟩ .queued
  | recover {r g} : Moves m (.inflight g) ⟨r, .cancelFound ⟨m, g⟩, some (.queued m)⟩ .queued

theorem about_eq (o : Op) : o.about = o.mail := by cases o <;> rfl

/-- An answer leaves the mail where it is, or moves it, in the four ways. -/
theorem Effect.moves {s s1 : St} {o : Op} {a : Ans} {eff : Bool} {i r : Nat} (h : Effect s o a eff s1) (m : MailId)
    (hp : Reliable m s (.answer i a eff)) (ht : s.task i = some ⟨r, o, none⟩) :
    s1.store m = s.store m ∨ Moves m (s.store m) ⟨r, o, some a⟩ (s1.store m) := by
  have noErr : a = .err → o.about = m → (∀ c b, o ≠ .transportSend c b) → ¬ Stale s o → False := by
    rintro rfl h1 h2 h3
    rcases hp.2.2 i eff r o rfl ht h1 with ⟨c, b, h⟩ | h
    · exact h2 c b h
    · exact h3 h
  cases h with
  | @take m' _ _ h1 h2 =>
    by_cases hm : m' = m
    · subst hm
      rcases h2 with rfl | rfl
      · right
        simp only [St.take, upd_same, h1]
        exact .take
      · exact (noErr rfl rfl (by simp) (by simp [Stale, h1])).elim
    · left; simp only [St.take]; rw [upd_ne _ _ (Ne.symm hm)]
  | @done c _ _ h1 h2 =>
    by_cases hm : c.mail = m
    · obtain ⟨m', g⟩ := c
      subst hm
      dsimp only at *
      rcases h2 with rfl | rfl
      · right
        simp only [upd_same, h1]
        exact .done
      · exact (noErr rfl rfl (by simp) (by simp [Stale, h1])).elim
    · left; dsimp only; rw [upd_ne _ _ (Ne.symm hm)]
  | @cancelled c _ _ h1 h2 =>
    by_cases hm : c.mail = m
    · obtain ⟨m', g⟩ := c
      subst hm
      dsimp only at *
      rcases h2 with rfl | rfl
      · right
        simp only [upd_same, h1]
        exact .cancel
      · exact (noErr rfl rfl (by simp) (by simp [Stale, h1])).elim
    · left; dsimp only; rw [upd_ne _ _ (Ne.symm hm)]
  | @recovered c _ _ h1 h2 =>
    by_cases hm : c.mail = m
    · obtain ⟨m', g⟩ := c
      subst hm
      dsimp only at *
      rcases h2 with rfl | ⟨rfl, rfl⟩
      · right
        simp only [upd_same, h1]
        exact .recover
      · exact (noErr rfl rfl (by simp) (by simp [Stale, h1])).elim
    · left; dsimp only; rw [upd_ne _ _ (Ne.symm hm)]
  | _ => exact .inl rfl

theorem Moves.care {m : MailId} {l l' : Loc} {t : Task} (h : Moves m l t l') : l' = .gone ∨ Caring m l' t := by
  cases h
  · exact .inr .started
  · exact .inl rfl
  · exact .inr .back
  · exact .inr .recovered

/-- One action seen from a task that cares, when the mail stays where it is: the task stays as it is, or it, or the one it
spawns, is nearer. -/
theorem Step.advance {s s' : St} {act : Act} (h : Step s act s') (hr : Reach Always s) {m : MailId} (hp : Reliable m s act)
    {i : Nat} {t : Task} (ht : s.task i = some t) (hc : Caring m (s.store m) t) (hs : s'.store m = s.store m) :
    s'.task i = some t ∨ ∃ j t', s'.task j = some t' ∧ Caring m (s.store m) t' ∧ rank t' < rank t := by
  have hlt := (hr.basic.task i t ht).tid
  cases h with
  | list => exact .inl (by simp only [St.spawn, St.note]; rw [upd_ne _ _ (by omega)]; exact ht)
  | find => exact .inl (by simp only [St.spawn, St.note]; rw [upd_ne _ _ (by omega)]; exact ht)
  | @answer j r o a eff s1 h3 he =>
    obtain ⟨e1, _⟩ := he.same
    by_cases hij : i = j
    · subst hij
      right
      rw [h3] at ht
      cases ht
      simp only [St.note] at hs
      have noErr : a = .err → o.about = m → (∀ c b, o ≠ .transportSend c b) → ¬ Stale s o → False := by
        rintro rfl h1 h2 h3'
        rcases hp.2.2 i eff r o rfl h3 h1 with ⟨c, b, h⟩ | h
        · exact h2 c b h
        · exact h3' h
      refine ⟨i, ⟨r, o, some a⟩, by simp [St.note], ?_⟩
      generalize hl : s.store m = l at hc hs
      cases he with
      | take h1 h2 => cases hc; simp [St.take] at hs
      | fetched => cases hc; exact ⟨.fetched, by simp [rank]⟩
      | sent h2 =>
        cases hc
        rcases h2 with rfl | rfl
        · exact ⟨.accepted, by simp [rank]⟩
        · exact ⟨.refused, by simp [rank]⟩
      | done h1 h2 => cases hc; simp at hs
      | cancelled h1 h2 => cases hc; simp at hs
      | recovered h1 h2 => cases hc; simp at hs
      | waited h1 => cases hc; exact ⟨.waited, by simp [rank]⟩
      | failed h1 =>
        exfalso
        refine noErr rfl ?_ h1 ?_
        · cases hc <;> rfl
        · cases hc <;> simp [Stale, hl]
    · exact .inl (by simp only [St.note]; rw [upd_ne _ _ hij, e1]; exact ht)
  | @finish j r o a h3 h4 =>
    by_cases hij : i = j
    · subst hij
      rw [h3] at ht
      cases ht
      generalize s.store m = l at hc
      cases hc <;> simp [Queue.next] at h4
    · exact .inl (by simp only [St.note]; rw [upd_ne _ _ hij]; exact ht)
  | @goOn j r o a o' h3 h4 =>
    by_cases hij : i = j
    · subst hij
      rw [h3] at ht
      cases ht
      refine .inr ⟨i, ⟨r, o', none⟩, by simp [St.note], ?_⟩
      generalize s.store m = l at hc
      cases hc <;> simp only [Queue.next, Next.goOn.injEq, reduceCtorEq, sendQueuedMail] at h4 <;> subst h4
      · exact ⟨.start, by simp [rank]⟩
      · exact ⟨.fetch, by simp [rank]⟩
      · exact ⟨.send, by simp [rank]⟩
      · exact ⟨.finish, by simp [rank]⟩
      · exact ⟨.cancel, by simp [rank]⟩
      · exact ⟨.recover, by simp [rank]⟩
    · exact .inl (by simp only [St.note]; rw [upd_ne _ _ hij]; exact ht)
  | @spawn j r o a o' h3 h4 =>
    by_cases hij : i = j
    · subst hij
      rw [h3] at ht
      cases ht
      refine .inr ⟨s.tids, ⟨r, o', none⟩, by simp [St.note, St.spawn], ?_⟩
      generalize s.store m = l at hc
      cases hc <;> simp only [Queue.next, Next.spawn.injEq, reduceCtorEq, sendQueuedMail] at h4
      subst h4
      exact ⟨.start, by simp [rank]⟩
    · exact .inl (by simp only [St.spawn, St.note]; rw [upd_ne _ _ (by omega), upd_ne _ _ hij]; exact ht)
  | @die j t' h3 =>
    by_cases hij : i = j
    · subst hij
      rw [h3] at ht
      cases ht
      refine absurd ?_ (hp.2.1 i t.run t.op t.ans rfl h3)
      have hq := hr.past i t h3
      generalize s.store m = l at hc
      cases hc with
      | back => exact (hq.back _ (.inl rfl) _ rfl).symm
      | recovered => exact (hq.back _ (.inr rfl) _ rfl).symm
      | started => exact hq.claim _ _ rfl rfl
      | _ => rfl
    · exact .inl (by simp only [St.note]; rw [upd_ne _ _ hij]; exact ht)
  | @crash r h3 => exact absurd rfl (hp.1 r)
  | _ => exact .inl ht

/-- What an action does to the mail `m`. -/
theorem Step.place {s s' : St} {act : Act} (h : Step s act s') {m : MailId} (hp : Reliable m s act)
    (ha : s.store m ≠ .absent) : s'.store m = s.store m ∨
      ∃ i r o a, s.task i = some ⟨r, o, none⟩ ∧ (∃ eff, act = .answer i a eff) ∧ s'.task i = some ⟨r, o, some a⟩ ∧
        Moves m (s.store m) ⟨r, o, some a⟩ (s'.store m) := by
  cases h with
  | @enqueue m' h1 =>
    left; simp only [St.note]; rw [upd_ne]; rintro rfl; exact ha h1
  | @answer j r o a eff s1 h3 he =>
    rcases he.moves m hp h3 with h | h
    · exact .inl h
    · exact .inr ⟨j, r, o, a, h3, ⟨eff, rfl⟩, by simp [St.note], h⟩
  | _ => exact .inl rfl

/-- The task that moves the mail was caring for it. -/
theorem Moves.cared {m : MailId} {l l' : Loc} {r : Nat} {o : Op} {a : Ans} (h : Moves m l ⟨r, o, some a⟩ l') :
    Caring m l ⟨r, o, none⟩ := by
  cases h
  · exact .start
  · exact .finish
  · exact .cancel
  · exact .recover

theorem Step.care {s s' : St} {act : Act} (h : Step s act s') (hr : Reach Always s) {m : MailId} (hp : Reliable m s act)
    (hc : Care m s) : Care m s' := by
  have ha : s.store m ≠ .absent := by
    rcases hc with h | ⟨i, t, _, h⟩
    · rw [h]; simp
    · intro h'; rw [h'] at h; cases h
  rcases h.place hp ha with e | ⟨i, r, o, a, h1, h2, h3, h4⟩
  · rcases hc with hc | ⟨i, t, h1, h2⟩
    · exact .inl (e.trans hc)
    · refine .inr ?_
      rw [e]
      rcases h.advance hr hp h1 h2 e with h3 | ⟨j, t', h3, h4, _⟩
      · exact ⟨i, t, h3, h2⟩
      · exact ⟨j, t', h3, h4⟩
  · rcases h4.care with h5 | h5
    · exact .inl h5
    · exact .inr ⟨i, _, h3, h5⟩

/-! ### Counting the tasks that may bring the mail back into the queue -/

/-- The task may yet bring the mail back into the queue without a further refusal. -/
def backer (m : MailId) : Option Task → Bool
  | some ⟨_, .delay _ c, none⟩ => c.mail == m
  | some ⟨_, .delay _ c, some .ok⟩ => c.mail == m
  | some ⟨_, .cancelFound c, none⟩ => c.mail == m
  | some ⟨_, .transportSend c _, some .err⟩ => c.mail == m
  | some ⟨_, .sendCancel c, none⟩ => c.mail == m
  | _ => false

def count (m : MailId) (f : Nat → Option Task) : Nat → Nat
  | 0 => 0
  | n + 1 => count m f n + (backer m (f n)).toNat

theorem count_congr {m : MailId} {f g : Nat → Option Task} : ∀ {n : Nat}, (∀ i, i < n → f i = g i) →
    count m f n = count m g n
  | 0, _ => rfl
  | n + 1, h => by
    rw [count, count, count_congr (fun i hi => h i (by omega)), h n (by omega)]

theorem count_upd {m : MailId} {f : Nat → Option Task} {k : Nat} {v : Option Task} : ∀ {n : Nat}, k < n →
    count m (upd f k v) n + (backer m (f k)).toNat = count m f n + (backer m v).toNat
  | 0, h => by omega
  | n + 1, h => by
    rw [count, count]
    by_cases hk : k = n
    · subst hk
      rw [upd_same, count_congr (g := f) (fun i hi => upd_ne _ _ (by omega))]
      omega
    · have := count_upd (m := m) (f := f) (v := v) (n := n) (by omega : k < n)
      rw [upd_ne _ _ (Ne.symm hk)]
      omega

/-- An action that neither refuses nor finds the mail adds no such task, and there is one less each time the mail comes back
into the queue. -/
theorem Step.fewer {s s' : St} {act : Act} (h : Step s act s') (hb : Basic s) {m : MailId} (hp : Reliable m s act)
    (hr : ¬ Refuses m s act) (hf : ¬ Finds m act) :
    count m s'.task s'.tids ≤ count m s.task s.tids ∧
      (s'.store m = .queued → s.store m ≠ .queued → s.store m ≠ .absent →
        count m s'.task s'.tids < count m s.task s.tids) := by
  have same : ∀ {n : Nat} {l : Loc}, n ≤ count m s.task s.tids → l = s.store m → n ≤ count m s.task s.tids ∧
      (l = .queued → s.store m ≠ .queued → s.store m ≠ .absent → n < count m s.task s.tids) := by
    rintro n l h rfl
    exact ⟨h, fun h1 h2 => absurd h1 h2⟩
  have grow : ∀ (f : Nat → Option Task) (t : Task), backer m (some t) = false →
      count m (upd f s.tids (some t)) (s.tids + 1) = count m f s.tids := by
    intro f t ht
    rw [count, upd_same, ht, count_congr (g := f) (fun i hi => upd_ne _ _ (by omega))]
    rfl
  cases h with
  | list => exact same (by simp only [St.spawn, St.note]; rw [grow _ _ rfl]; exact Nat.le_refl _) rfl
  | @find r c τ h1 h2 =>
    refine same ?_ rfl
    simp only [St.spawn, St.note]
    rw [grow _ _ (by
      simp only [backer, beq_eq_false_iff_ne]
      exact fun h => hf ⟨r, c, rfl, h⟩)]
    exact Nat.le_refl _
  | @enqueue m' h1 =>
    refine ⟨Nat.le_refl _, fun h2 h3 h4 => ?_⟩
    simp only [St.note] at h2
    by_cases hm : m' = m
    · subst hm; exact absurd h1 h4
    · rw [upd_ne _ _ (Ne.symm hm)] at h2; exact absurd h2 h3
  | @answer j r o a eff s1 h3 he =>
    obtain ⟨e1, e2, e3, e4, e5⟩ := he.same
    have hlt := (hb.task _ _ h3).tid
    have hu := count_upd (m := m) (f := s.task) (v := some ⟨r, o, some a⟩) (n := s.tids) (k := j) hlt
    rw [h3] at hu
    have hmv := he.moves m hp h3
    simp only [St.note]
    rw [e1, e2]
    rcases hmv with hm | hm
    · refine same ?_ hm
      have : backer m (some ⟨r, o, some a⟩) = true → backer m (some ⟨r, o, none⟩) = true := by
        intro hbk
        cases he with
        | sent h2 =>
          rcases h2 with rfl | rfl
          · simp [backer] at hbk
          · simp only [backer, beq_iff_eq] at hbk
            exact absurd ⟨j, eff, r, _, _, rfl, h3, hbk⟩ hr
        | waited => exact hbk
        | failed h2 => cases o <;> simp [backer] at hbk; exact absurd rfl (h2 _ _)
        | take h1 h2 => simp [backer] at hbk
        | fetched => simp [backer] at hbk
        | done h1 h2 => simp [backer] at hbk
        | cancelled h1 h2 => simp [backer] at hbk
        | recovered h1 h2 => simp [backer] at hbk
      cases hx : backer m (some ⟨r, o, some a⟩) <;> cases hy : backer m (some ⟨r, o, none⟩) <;>
        rw [hx, hy] at hu <;> simp_all <;> omega
    · generalize s.store m = l at hm
      generalize s1.store m = l' at hm
      cases hm <;> simp [backer] at hu ⊢ <;> omega
  | @finish j r o a h3 h4 =>
    have hlt := (hb.task _ _ h3).tid
    have hu := count_upd (m := m) (f := s.task) (v := none) (n := s.tids) (k := j) hlt
    refine same ?_ rfl
    simp only [St.note]
    simp only [show backer m none = false from rfl, Bool.toNat_false] at hu
    omega
  | @goOn j r o a o' h3 h4 =>
    have hlt := (hb.task _ _ h3).tid
    have hu := count_upd (m := m) (f := s.task) (v := some ⟨r, o', none⟩) (n := s.tids) (k := j) hlt
    refine same ?_ rfl
    simp only [St.note]
    rw [h3] at hu
    have : backer m (some ⟨r, o', none⟩) = true → backer m (some ⟨r, o, some a⟩) = true := by
      intro hbk
      cases next_cases h4 <;> simp [backer] at hbk ⊢ <;> exact hbk
    cases hx : backer m (some ⟨r, o, some a⟩) <;> cases hy : backer m (some ⟨r, o', none⟩) <;>
      rw [hx, hy] at hu <;> simp_all <;> omega
  | @spawn j r o a o' h3 h4 =>
    have hlt := (hb.task _ _ h3).tid
    have hu := count_upd (m := m) (f := s.task) (v := none) (n := s.tids) (k := j) hlt
    refine same ?_ rfl
    simp only [St.spawn, St.note]
    rw [grow _ _ (by cases next_cases h4; rfl)]
    simp only [show backer m none = false from rfl, Bool.toNat_false] at hu
    omega
  | @die j t' h3 =>
    have hlt := (hb.task _ _ h3).tid
    have hu := count_upd (m := m) (f := s.task) (v := none) (n := s.tids) (k := j) hlt
    refine same ?_ rfl
    simp only [St.note]
    simp only [show backer m none = false from rfl, Bool.toNat_false] at hu
    omega
  | @crash r h3 => exact absurd rfl (hp.1 r)
  | _ => exact same (Nat.le_refl _) rfl

/-! ### Infinite executions -/

theorem Execution.reach (E : Execution) : ∀ n, Reach Always (E.st n)
  | 0 => by rw [E.first]; exact .init
  | n + 1 => .step (E.reach n) trivial (E.next n)

theorem Execution.steps (E : Execution) (n : Nat) : Step (E.st n) (E.act n) (E.st (n + 1)) := step_cases (E.next n)

theorem Execution.now_mono (E : Execution) {n k : Nat} (h : n ≤ k) : (E.st n).now ≤ (E.st k).now := by
  induction h with
  | refl => exact Nat.le_refl _
  | step _ ih => exact Nat.le_trans ih (E.steps _).now

/-- The last moment before something changes. -/
theorem last_before {p : Nat → Prop} {n k : Nat} (h : n ≤ k) (h1 : p n) (h2 : ¬ p k) : ∃ j, n ≤ j ∧ j < k ∧
    (∀ x, n ≤ x → x ≤ j → p x) ∧ ¬ p (j + 1) := by
  have : (∀ x, n ≤ x → x ≤ k → p x) ∨ ∃ j, n ≤ j ∧ j < k ∧ (∀ x, n ≤ x → x ≤ j → p x) ∧ ¬ p (j + 1) := by
    clear h2
    induction h with
    | refl => exact .inl fun x a b => by rw [show x = n by omega]; exact h1
    | @step k hk ih =>
      rcases ih with ih | ⟨j, a, b, c, e⟩
      · by_cases hp : p (k + 1)
        · refine .inl fun x a b => ?_
          by_cases hx : x = k + 1
          · rw [hx]; exact hp
          · exact ih x a (by simp only [Nat.succ_eq_add_one] at b; omega)
        · exact .inr ⟨k, hk, Nat.lt_succ_self k, ih, hp⟩
      · exact .inr ⟨j, a, Nat.lt_succ_of_lt b, c, e⟩
  exact this.resolve_left fun hall => h2 (hall k h (Nat.le_refl k))

/-- An operation of a task that cares can succeed. -/
theorem Caring.answerable {m : MailId} {s : St} {i r : Nat} {o : Op} (ht : s.task i = some ⟨r, o, none⟩)
    (h : Caring m (s.store m) ⟨r, o, none⟩) (hd : ∀ t c, o = .delay t c → t ≤ s.now) :
    ∃ a s', a ≠ .err ∧ step s (.answer i a false) = some s' := by
  have key : ∀ a s1, effect s o a false = some s1 → a ≠ .err → ∃ a s', a ≠ .err ∧ step s (.answer i a false) = some s' := by
    intro a s1 h1 h2
    exact ⟨a, _, h2, by simp only [step, ht, h1]; rfl⟩
  generalize hl : s.store m = l at h
  cases h with
  | start => exact key (.inflight ⟨m, s.gens⟩) (s.take m) (by simp [effect, hl]) (by simp)
  | fetch => exact key (.mail m) s (by simp [effect]) (by simp)
  | send => exact key .ok s (by simp [effect]) (by simp)
  | finish => exact key .ok _ (by simp only [effect, hl, if_true]; rfl) (by simp)
  | cancel => exact key (.queued m) _ (by simp only [effect, hl, true_and, if_true]; rfl) (by simp)
  | wait => exact key .ok s (by simp [effect, hd _ _ rfl]) (by simp)
  | recover => exact key (.queued m) _ (by simp only [effect, hl, true_and, if_true]; rfl) (by simp)

section
variable {E : Execution} {m : MailId} {n0 : Nat}

theorem care_forever (hrel : ∀ k, n0 ≤ k → Reliable m (E.st k) (E.act k)) {n k : Nat} (hn : n0 ≤ n) (hk : n ≤ k)
    (hc : Care m (E.st n)) : Care m (E.st k) := by
  induction hk with
  | refl => exact hc
  | @step k hk ih => exact (E.steps k).care (E.reach k) (hrel k (Nat.le_trans hn hk)) ih

/-- A task that cares does not stay as it is for ever, if the mail stays where it is. -/
theorem no_rest (hf : Fair E) {n i : Nat} {t : Task} {l : Loc} (hs : ∀ k, n ≤ k → (E.st k).store m = l)
    (hc : Caring m l t) (ht : ∀ k, n ≤ k → (E.st k).task i = some t) : False := by
  obtain ⟨r, o, a⟩ := t
  cases a with
  | some a =>
    obtain ⟨k, h1, h2⟩ := hf.proceeds n i r o a (ht n (Nat.le_refl n))
    exact h2 (ht k h1)
  | none =>
    obtain ⟨T, hT⟩ : ∃ T, ∀ t c, o = .delay t c → t ≤ T := by
      by_cases h : ∃ t c, o = Op.delay t c
      · obtain ⟨t, c, rfl⟩ := h
        exact ⟨t, fun t' c' e => by cases e; exact Nat.le_refl _⟩
      · exact ⟨0, fun t c e => absurd ⟨t, c, e⟩ h⟩
    obtain ⟨k0, hk0⟩ := hf.time T
    obtain ⟨k, h1, h2⟩ := hf.answers (max n k0) i r o (ht _ (by omega)) fun k hk =>
      Caring.answerable (m := m) (ht k (by omega)) (by rw [hs k (by omega)]; exact hc)
        fun t c e => Nat.le_trans (hT t c e) (Nat.le_trans hk0 (E.now_mono (by omega)))
    exact h2 (ht k (by omega))

/-- A mail somebody cares for does not stay where it is for ever. -/
theorem no_halt (hf : Fair E) (hrel : ∀ k, n0 ≤ k → Reliable m (E.st k) (E.act k)) {l : Loc} : ∀ (R : Nat) {n i : Nat} {t : Task},
    n0 ≤ n → (∀ k, n ≤ k → (E.st k).store m = l) → rank t ≤ R → (E.st n).task i = some t → Caring m l t → False
  | R, n, i, t, hn, hs, hR, ht, hc => by
    obtain ⟨k, hk1, hk2⟩ : ∃ k, n ≤ k ∧ (E.st k).task i ≠ some t :=
      Classical.byContradiction fun h => no_rest hf hs hc fun k hk => Classical.byContradiction fun h' => h ⟨k, hk, h'⟩
    obtain ⟨j, h1, h2, h3, h4⟩ := last_before (p := fun k => (E.st k).task i = some t) hk1 ht hk2
    rcases (E.steps j).advance (E.reach j) (hrel j (by omega)) (h3 j h1 (Nat.le_refl j))
      (by rw [hs j h1]; exact hc) (by rw [hs j h1, hs (j + 1) (by omega)]) with h5 | ⟨i', t', h5, h6, h7⟩
    · exact h4 h5
    · rw [hs j h1] at h6
      cases R with
      | zero => omega
      | succ R => exact no_halt hf hrel R (by omega) (fun k hk => hs k (by omega)) (by omega) h5 h6

/-- So it moves, and is cared for where it gets. -/
theorem moves_on (hf : Fair E) (hrel : ∀ k, n0 ≤ k → Reliable m (E.st k) (E.act k)) {n : Nat} (hn : n0 ≤ n)
    (hc : Care m (E.st n)) (hg : (E.st n).store m ≠ .gone) : ∃ j, n ≤ j ∧
      (∀ k, n ≤ k → k ≤ j → (E.st k).store m = (E.st n).store m) ∧ (E.st (j + 1)).store m ≠ (E.st n).store m := by
  rcases hc with hc | ⟨i, t, h1, h2⟩
  · exact absurd hc hg
  · obtain ⟨k, hk1, hk2⟩ : ∃ k, n ≤ k ∧ (E.st k).store m ≠ (E.st n).store m :=
      Classical.byContradiction fun h => no_halt hf hrel (l := (E.st n).store m) (rank t) hn
        (fun k hk => Classical.byContradiction fun h' => h ⟨k, hk, h'⟩) (Nat.le_refl _) h1 h2
    obtain ⟨j, h1, h2, h3, h4⟩ := last_before (p := fun k => (E.st k).store m = (E.st n).store m) hk1 rfl hk2
    exact ⟨j, h1, h3, h4⟩

/-- No more such tasks as time goes on. -/
theorem fewer_forever (hrel : ∀ k, n0 ≤ k → Reliable m (E.st k) (E.act k)) {n1 : Nat} (h01 : n0 ≤ n1)
    (hN : ∀ k, n1 ≤ k → ¬ Refuses m (E.st k) (E.act k) ∧ ¬ Finds m (E.act k)) {n k : Nat} (hn : n1 ≤ n) (hk : n ≤ k) :
    count m (E.st k).task (E.st k).tids ≤ count m (E.st n).task (E.st n).tids := by
  induction hk with
  | refl => exact Nat.le_refl _
  | @step k hk ih =>
    have hk' : n ≤ k := hk
    exact Nat.le_trans ((E.steps k).fewer (E.reach k).basic (hrel k (by omega)) (hN k (by omega)).1 (hN k (by omega)).2).1 ih

/-- A mail somebody cares for is gone in the end. -/
theorem delivered (hf : Fair E) (hrel : ∀ k, n0 ≤ k → Reliable m (E.st k) (E.act k)) {n1 : Nat} (h01 : n0 ≤ n1)
    (hN : ∀ k, n1 ≤ k → ¬ Refuses m (E.st k) (E.act k) ∧ ¬ Finds m (E.act k)) : ∀ (C : Nat) {n : Nat}, n1 ≤ n →
    Care m (E.st n) → count m (E.st n).task (E.st n).tids ≤ C → ∃ k, n ≤ k ∧ (E.st k).store m = .gone := by
  -- one round: from the in-flight area either to the end or back with fewer tasks
  intro C
  induction C using Nat.strongRecOn with
  | ind C ih =>
    intro n hn hc hC
    -- a mail in flight
    have flight : ∀ {n : Nat} {g : Nat}, n1 ≤ n → Care m (E.st n) → (E.st n).store m = .inflight g →
        count m (E.st n).task (E.st n).tids ≤ C → ∃ k, n ≤ k ∧ (E.st k).store m = .gone := by
      intro n g hn hc hl hC
      obtain ⟨j, h1, h2, h3⟩ := moves_on hf hrel (by omega) hc (by rw [hl]; simp)
      have h2j := h2 j h1 (Nat.le_refl j)
      rw [hl] at h2j h3
      rcases (E.steps j).place (m := m) (hrel j (by omega)) (by rw [h2j]; simp) with e | ⟨i, r, o, a, _, _, _, h4⟩
      · exact absurd (e.trans h2j) h3
      · rw [h2j] at h4
        generalize hl' : (E.st (j + 1)).store m = l' at h4 h3
        have back : l' = .queued → ∃ k, n ≤ k ∧ (E.st k).store m = .gone := by
          rintro rfl
          have h5 := ((E.steps j).fewer (E.reach j).basic (hrel j (by omega)) (hN j (by omega)).1 (hN j (by omega)).2).2 hl'
            (by rw [h2j]; simp) (by rw [h2j]; simp)
          have h6 := fewer_forever hrel h01 hN hn h1
          obtain ⟨k, h7, h8⟩ := ih _ (Nat.lt_of_lt_of_le h5 (Nat.le_trans h6 hC)) (n := j + 1) (by omega)
            (care_forever hrel (by omega) (by omega) hc) (Nat.le_refl _)
          exact ⟨k, by omega, h8⟩
        cases h4 with
        | done => exact ⟨j + 1, by omega, hl'⟩
        | cancel => exact back rfl
        | recover => exact back rfl
    by_cases hg : (E.st n).store m = .gone
    · exact ⟨n, Nat.le_refl n, hg⟩
    · obtain ⟨j, h1, h2, h3⟩ := moves_on hf hrel (by omega) hc hg
      have h2j := h2 j h1 (Nat.le_refl j)
      have ha : (E.st n).store m ≠ .absent := by
        rcases hc with h | ⟨i, t, _, h⟩
        · exact absurd h hg
        · intro h'; rw [h'] at h; cases h
      rcases (E.steps j).place (m := m) (hrel j (by omega)) (by rw [h2j]; exact ha) with e | ⟨i, r, o, a, _, _, _, h4⟩
      · exact absurd (e.trans h2j) h3
      · have hcj := care_forever hrel (by omega) (show n ≤ j + 1 by omega) hc
        have h6 := fewer_forever hrel h01 hN hn (show n ≤ j + 1 by omega)
        generalize hl : (E.st j).store m = l at h4
        generalize hl' : (E.st (j + 1)).store m = l' at h4
        cases h4 with
        | take =>
          obtain ⟨k, h7, h8⟩ := flight (n := j + 1) (by omega) hcj hl' (by omega)
          exact ⟨k, by omega, h8⟩
        | done => exact ⟨j + 1, by omega, hl'⟩
        | cancel =>
          exact flight hn hc (by rw [← h2j, hl]) hC
        | recover =>
          exact flight hn hc (by rw [← h2j, hl]) hC

/-- Without care the mail stays where it is. -/
theorem stays (hrel : ∀ k, n0 ≤ k → Reliable m (E.st k) (E.act k)) {n k : Nat} (hn : n0 ≤ n) (hk : n ≤ k)
    (ha : (E.st n).store m ≠ .absent) (hnc : ¬ Care m (E.st k)) : (E.st k).store m = (E.st n).store m := by
  induction hk with
  | refl => rfl
  | @step k hk ih =>
    have hk' : n ≤ k := hk
    have hnc' : ¬ Care m (E.st k) := fun h => hnc (care_forever hrel (by omega) (Nat.le_succ k) h)
    have ihk := ih hnc'
    rcases (E.steps k).place (m := m) (hrel k (by omega)) (by rw [ihk]; exact ha) with e | ⟨i, r, o, a, h1, _, _, h4⟩
    · exact e.trans ihk
    · exact absurd (.inr ⟨i, _, h1, h4.cared⟩) hnc'

end

end Verif.Queue
