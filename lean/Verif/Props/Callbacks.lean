import Verif.Proofs.Callbacks
import Verif.Props.Task
import Verif.Props.Await
/-
C120: callbacks that take their time, change things bit by bit, panic, or never return.
-/
namespace Verif
open Spec Server Callbacks
variable {L : IpLib} {S U : Type}

/-- C120. At every point of a session, with callbacks that take their time, panic, or never return, it is where the session with
callbacks that do everything in one go is at some point: the same place in the code, the same history, the same output, the same
input left. Outside of callbacks (and unless the session itself has panicked) all the rest is the same too; inside a callback, or
after it has panicked, configuration and connection data are what one of its polls has made of what they are there. -/
theorem c120_any_point (D : Slow L S U) (C : Config L S U) (h : AmountsTo D C) (P : S × U → S × U → Prop) (hP : Effects D P)
    (incoming : List (SrcEv Bytes)) (outgoing : BSink) (s : S) (u : U) (n : Nat) :
    ∃ m, m ≤ n ∧ SamePlace (after D incoming outgoing s u n).1 (Task.after C incoming outgoing s u m).1 ∧
      (after D incoming outgoing s u n).2.trace = (Task.after C incoming outgoing s u m).2.trace ∧
      (after D incoming outgoing s u n).2.writer = (Task.after C incoming outgoing s u m).2.writer ∧
      (after D incoming outgoing s u n).2.reader = (Task.after C incoming outgoing s u m).2.reader ∧
      P ((Task.after C incoming outgoing s u m).2.cfg, (Task.after C incoming outgoing s u m).2.conn)
        ((after D incoming outgoing s u n).2.cfg, (after D incoming outgoing s u n).2.conn) ∧
      (¬ InCallback (after D incoming outgoing s u n).1 → (∀ p, (after D incoming outgoing s u n).1 ≠ .over (.panic p)) →
        (after D incoming outgoing s u n).2 = (Task.after C incoming outgoing s u m).2) := by
  obtain ⟨m, hm, hr⟩ := rel_after h hP incoming outgoing s u n
  refine ⟨m, hm, ?_⟩
  generalize after D incoming outgoing s u n = x at hr ⊢
  generalize Task.after C incoming outgoing s u m = y at hr ⊢
  cases hr with
  | read => exact ⟨rfl, rfl, rfl, rfl, hP.same _, fun _ _ => rfl⟩
  | send => exact ⟨⟨rfl, rfl, rfl⟩, rfl, rfl, rfl, hP.same _, fun _ _ => rfl⟩
  | over => exact ⟨rfl, rfl, rfl, rfl, hP.same _, fun _ _ => rfl⟩
  | newMail _ hk => exact ⟨rfl, rfl, rfl, rfl, hk, fun h => absurd trivial h⟩
  | filterFrom _ hk => exact ⟨rfl, rfl, rfl, rfl, hk, fun h => absurd trivial h⟩
  | filterTo _ _ hk => exact ⟨⟨rfl, rfl⟩, rfl, rfl, rfl, hk, fun h => absurd trivial h⟩
  | filterData _ hk => exact ⟨rfl, rfl, rfl, rfl, hk, fun h => absurd trivial h⟩
  | handle _ hk => exact ⟨⟨rfl, rfl⟩, rfl, rfl, rfl, hk, fun h => absurd trivial h⟩
  | failed hn hk => exact ⟨rfl, hn.2.2, hn.2.1, hn.1, hk, fun _ h => absurd rfl (h _)⟩
  | unwound hp hn hk => exact ⟨hp, hn.2.2, hn.2.1, hn.1, hk, fun h => absurd trivial h⟩

theorem effects_any (D : Slow L S U) : Effects D (fun _ _ => True) :=
  ⟨fun _ => trivial, fun _ _ _ => trivial, fun _ _ _ _ => trivial, fun _ _ _ _ _ => trivial, fun _ _ _ _ => trivial,
    fun _ _ _ _ _ => trivial⟩

/-- C120. A session whose callbacks take their time ends as `interact` does with callbacks that do everything in one go. -/
theorem c120_result (D : Slow L S U) (C : Config L S U) (h : AmountsTo D C) (incoming : List (SrcEv Bytes)) (outgoing : BSink)
    (s : S) (u : U) (n : Nat) (r : Res Unit) (w : World L S U) (hn : after D incoming outgoing s u n = (.over r, w)) :
    r ≠ .running ∧ ∃ fuel w', interact C fuel incoming outgoing s u = (r, w') ∧ w.trace = w'.trace ∧ w.writer = w'.writer ∧
      w.reader = w'.reader ∧ ((∀ p, r ≠ .panic p) → w = w') := by
  obtain ⟨m, _, h1, h2, h3, h4, _, h5⟩ := c120_any_point D C h _ (effects_any D) incoming outgoing s u n
  rw [hn] at h1 h2 h3 h4 h5
  rcases hm : Task.after C incoming outgoing s u m with ⟨pc, w'⟩
  rw [hm] at h1 h2 h3 h4 h5
  have : pc = .over r := by
    cases pc <;> first | exact h1.elim | exact congrArg _ (Eq.symm h1)
  subst this
  obtain ⟨hr, fuel, hf⟩ := ((c101_same C incoming outgoing s u).1 r w').1 ⟨m, hm⟩
  exact ⟨hr, fuel, w', hf, h2, h3, h4, fun hp => h5 (fun h => h) (fun p hp' => hp p (by cases hp'; rfl))⟩

/-- C120. If all callbacks answer in the end and no mail handler polls for ever, the session ends. -/
theorem c120_returns (D : Slow L S U) (C : Config L S U) (h : AmountsTo D C) (hA : AllAnswer D)
    (hR : ∀ s u m, Returns (C.handleMail s u m)) (incoming : List (SrcEv Bytes)) (outgoing : BSink) (s : S) (u : U) :
    ∃ n r w, after D incoming outgoing s u n = (.over r, w) := by
  obtain ⟨n0, ⟨r, w⟩, h1, h2⟩ := c53_terminates C hR incoming outgoing s u
  obtain ⟨m, hm⟩ := ((c101_same C incoming outgoing s u).1 r w).2 ⟨h1, n0, h2 n0 (Nat.le_refl _)⟩
  obtain ⟨n, hn, hu⟩ := rel_all h (effects_any D) hA incoming outgoing s u m
  rw [hm] at hn
  rcases hx : after D incoming outgoing s u n with ⟨pc, w'⟩
  rw [hx] at hn hu
  refine ⟨n, r, w', ?_⟩
  rw [hx]
  cases hn with
  | over => rfl
  | failed => rfl
  | unwound => exact absurd rfl hu

/-- C120. If all callbacks answer in the end, the session gets wherever the session with callbacks that do everything in one go
gets: it is not held up, only slowed down. -/
theorem c120_every_point (D : Slow L S U) (C : Config L S U) (h : AmountsTo D C) (hA : AllAnswer D)
    (incoming : List (SrcEv Bytes)) (outgoing : BSink) (s : S) (u : U) (m : Nat) :
    ∃ n, SamePlace (after D incoming outgoing s u n).1 (Task.after C incoming outgoing s u m).1 ∧
      (after D incoming outgoing s u n).1 ≠ .unwound ∧
      (after D incoming outgoing s u n).2.trace = (Task.after C incoming outgoing s u m).2.trace ∧
      (after D incoming outgoing s u n).2.writer = (Task.after C incoming outgoing s u m).2.writer := by
  obtain ⟨n, hr, hu⟩ := rel_all h (effects_any D) hA incoming outgoing s u m
  refine ⟨n, ?_⟩
  generalize after D incoming outgoing s u n = x at hr hu ⊢
  generalize Task.after C incoming outgoing s u m = y at hr ⊢
  cases hr with
  | read => exact ⟨rfl, hu, rfl, rfl⟩
  | send => exact ⟨⟨rfl, rfl, rfl⟩, hu, rfl, rfl⟩
  | over => exact ⟨rfl, hu, rfl, rfl⟩
  | newMail _ hk => exact ⟨rfl, hu, rfl, rfl⟩
  | filterFrom _ hk => exact ⟨rfl, hu, rfl, rfl⟩
  | filterTo _ _ hk => exact ⟨⟨rfl, rfl⟩, hu, rfl, rfl⟩
  | filterData _ hk => exact ⟨rfl, hu, rfl, rfl⟩
  | handle _ hk => exact ⟨⟨rfl, rfl⟩, hu, rfl, rfl⟩
  | failed hn hk => exact ⟨rfl, hu, hn.2.2, hn.2.1⟩
  | unwound hp hn hk => exact absurd rfl hu

theorem Callbacks.steps_unwound (D : Slow L S U) (k : Nat) (w : World L S U) : steps D k (.unwound, w) = (.unwound, w) := by
  induction k with
  | zero => rfl
  | succ k ih => exact ih

/-- C120. A callback that panics takes the session with it: nothing is read, written or called any more, and the client gets no
reply to its command. A session ends this way only if a callback panics. -/
theorem c120_unwound (D : Slow L S U) (incoming : List (SrcEv Bytes)) (outgoing : BSink) (s : S) (u : U) (n : Nat)
    (hn : (after D incoming outgoing s u (n + 1)).1 = .unwound) (hb : (after D incoming outgoing s u n).1 ≠ .unwound) :
    InCallback (after D incoming outgoing s u n).1 ∧
    (after D incoming outgoing s u (n + 1)).2.trace = (after D incoming outgoing s u n).2.trace ∧
    (after D incoming outgoing s u (n + 1)).2.writer = (after D incoming outgoing s u n).2.writer ∧
    (∀ k, after D incoming outgoing s u (n + 1 + k) = after D incoming outgoing s u (n + 1)) := by
  have hs : after D incoming outgoing s u (n + 1) = step D (after D incoming outgoing s u n) := steps_succ _ _ _
  refine ⟨?_, ?_, ?_, ?_⟩
  · rw [hs] at hn
    have := step_unwound hn
    revert this
    cases (after D incoming outgoing s u n).1 <;> simp [Waits, InCallback]
  all_goals
    rw [hs] at hn ⊢
  case refine_4 =>
    intro k
    rw [after, steps_add, show steps D (n + 1) _ = _ from hs]
    generalize step D (after D incoming outgoing s u n) = x at hn ⊢
    obtain ⟨pc, w⟩ := x
    cases hn
    exact steps_unwound D k w
  all_goals
    have hw := step_unwound hn
    generalize after D incoming outgoing s u n = x at hn hw hb ⊢
    obtain ⟨pc, w⟩ := x
    cases pc with
    | unwound => exact absurd rfl hb
    | newMail f s n => simp only [step]; split <;> simp_all [Waits]
    | filterFrom f s u n => simp only [step]; split <;> simp_all [Waits]
    | filterTo t m s u n => simp only [step]; split <;> simp_all [Waits]
    | filterData m s u n => simp only [step]; split <;> simp_all [Waits]
    | handle m s u hi n d => simp only [step]; split <;> simp_all [Waits]
    | _ => exact hw.elim

/-- C120. In a callback that never answers the session stays for ever: nothing is read, written or called any more. -/
theorem c120_stuck (D : Slow L S U) (incoming : List (SrcEv Bytes)) (outgoing : BSink) (s : S) (u : U) (n k : Nat)
    (h : Stuck D (after D incoming outgoing s u n).1) :
    Stuck D (after D incoming outgoing s u (n + k)).1 ∧
    (after D incoming outgoing s u (n + k)).2.trace = (after D incoming outgoing s u n).2.trace ∧
    (after D incoming outgoing s u (n + k)).2.writer = (after D incoming outgoing s u n).2.writer ∧
    input (after D incoming outgoing s u (n + k)) = input (after D incoming outgoing s u n) := by
  induction k with
  | zero => exact ⟨h, rfl, rfl, rfl⟩
  | succ k ih =>
    obtain ⟨h1, h2, h3, h4⟩ := ih
    have hs : after D incoming outgoing s u (n + (k + 1)) = step D (after D incoming outgoing s u (n + k)) := steps_succ _ _ _
    rw [hs, ← h2, ← h3, ← h4]
    generalize after D incoming outgoing s u (n + k) = x at h1
    obtain ⟨pc, w⟩ := x
    have key : ∀ {σ α : Type} {f : Nat → σ × Ans α} {j : Nat}, (f j).2 = .pending → ∃ x, f j = (x, .pending) :=
      fun h => ⟨_, Prod.ext rfl h⟩
    cases pc with
    | newMail f s n => obtain ⟨x, hx⟩ := key (h1 n); simp only [step, hx]; exact ⟨h1, by simp [input]⟩
    | filterFrom f s u n => obtain ⟨x, hx⟩ := key (h1 n); simp only [step, hx]; exact ⟨h1, by simp [input]⟩
    | filterTo t m s u n => obtain ⟨x, hx⟩ := key (h1 n); simp only [step, hx]; exact ⟨h1, by simp [input]⟩
    | filterData m s u n => obtain ⟨x, hx⟩ := key (h1 n); simp only [step, hx]; exact ⟨h1, by simp [input]⟩
    | handle m s u hi n d => obtain ⟨x, hx⟩ := key (h1 n); simp only [step, hx]; exact ⟨h1, by simp [input]⟩
    | _ => exact h1.elim

/-- C120. Suppose the callbacks, even in the middle of their work, take nothing out of the mailbox. Then at every point of a
session, whatever the callbacks are doing, and after any of them has panicked, the mailbox holds all the mails that were
acknowledged to the client, with the texts the client has sent, in this order. -/
theorem c120_mailbox (D : Slow L S U) (C : Config L S U) (h : AmountsTo D C) (V : Verdict L S U) (box : S → List (Stored L))
    (hV : ∀ s u m, WholeMessage (C.handleMail s u m) (V s u m)) (hb : Keeps C V box)
    (hP : Effects D (fun a b => box a.1 <+: box b.1))
    (incoming : List (SrcEv Bytes)) (outgoing : BSink) (s : S) (u : U) (n : Nat) :
    ∃ stored, box s ++ stored <+: box (after D incoming outgoing s u n).2.cfg ∧ Sent L (evBytes incoming) stored ∧
      acknowledgedMails (after D incoming outgoing s u n).2.trace <+: stored.map (·.1) := by
  obtain ⟨m, _, _, h2, _, _, h6, _⟩ := c120_any_point D C h _ hP incoming outgoing s u n
  obtain ⟨stored, h7, h8, h9, h10⟩ := c103_mailbox C V box hV hb incoming outgoing s u m
  refine ⟨stored, h7 ▸ h6, h9, ?_⟩
  rw [h2]
  rcases h10 with h10 | ⟨x, _, _, h10, _⟩
  · rw [h10]; exact List.prefix_refl _
  · rw [h10]; exact List.prefix_append _ _

/-! ### Every configuration, and every one with callbacks that take their time -/

theorem answersAt_unique {σ α : Type} {f : Nat → σ × Ans α} {n n' : Nat} {x x' : σ} {a a' : α} (h : AnswersAt f n x a)
    (h' : AnswersAt f n' x' a') : x = x' ∧ a = a' := by
  have : n = n' := by
    rcases Nat.lt_trichotomy n n' with h1 | h1 | h1
    · have := h'.2 n h1; rw [h.1] at this; cases this
    · exact h1
    · have := h.2 n' h1; rw [h'.1] at this; cases this
  subst this
  have := h.1.symm.trans h'.1
  cases this
  exact ⟨rfl, rfl⟩

open Classical in
/-- What a future leaves behind and answers in the end, if it does. -/
noncomputable def Callbacks.final {σ α : Type} (f : Nat → σ × Ans α) : Option (σ × α) :=
  if h : ∃ p : σ × α, ∃ n, AnswersAt f n p.1 p.2 then some h.choose else none

theorem Callbacks.final_eq {σ α : Type} {f : Nat → σ × Ans α} {n : Nat} {x : σ} {a : α} (h : AnswersAt f n x a) :
    final f = some (x, a) := by
  have he : ∃ p : σ × α, ∃ n, AnswersAt f n p.1 p.2 := ⟨(x, a), n, h⟩
  unfold final
  rw [dif_pos he]
  obtain ⟨_, hc⟩ := he.choose_spec
  obtain ⟨h1, h2⟩ := answersAt_unique hc h
  exact congrArg some (Prod.ext h1 h2)

/-- C120. Whatever the callbacks do over time, there are callbacks that do the same in one go. -/
theorem c120_exists (D : Slow L S U) : ∃ C, AmountsTo D C := by
  classical
  refine ⟨{ D.replies with
    newMail := fun s => match final (D.newMail s) with | some (s', _) => s' | none => s
    filterFrom := fun s u f => match final (D.filterFrom s u f) with | some ((s', u'), (d, f')) => (d, f', s', u') | none => (.accept, f, s, u)
    filterTo := fun s u t m => match final (D.filterTo s u t m) with
      | some ((s', u', m'), (d, t')) => (d, t', m', s', u') | none => (.accept, t, m, s, u)
    filterData := fun s u m => match final (D.filterData s u m) with | some ((s', u'), (d, m')) => (d, m', s', u') | none => (.accept, m, s, u)
    handleMail := fun s u m h => match final (D.handleMail s u m h) with
      | some (_, .poll) => .poll | some (_, .complete) => .complete | some ((s', u'), .done d) => .done d s' u' | none => .poll }, ?_⟩
  constructor
  · intro s n s' a h; simp only [final_eq h]
  · intro s u f n s' u' d f' h; simp only [final_eq h]
  · intro s u t m n s' u' m' d t' h; simp only [final_eq h]
  · intro s u m n s' u' d m' h; simp only [final_eq h]
  · intro s u m h n x hx; simp only [final_eq hx]
  · intro s u m h n x hx; simp only [final_eq hx]
  · intro s u m h n s' u' d hx; simp only [final_eq hx]
  · intro s; exact ⟨rfl, rfl, rfl, rfl, rfl, rfl, rfl, rfl, rfl, rfl, rfl⟩

/-- C120. And for every configuration of callbacks that do everything in one go there is one whose callbacks do nothing for `k`
polls, and the same at the next one. -/
theorem c120_delayed (C : Config L S U) (k : Nat) : ∃ D : Slow L S U, AmountsTo D C ∧ AllAnswer D ∧ Effects D (fun a b => a = b ∨
      (∃ s, a.1 = s ∧ b = (C.newMail s, a.2)) ∨ (∃ f, b = (C.filterFrom a.1 a.2 f).2.2) ∨ (∃ t m, b = (C.filterTo a.1 a.2 t m).2.2.2) ∨
      (∃ m, b = (C.filterData a.1 a.2 m).2.2) ∨ ∃ m h d, C.handleMail a.1 a.2 m h = .done d b.1 b.2) ∧
    (∀ s n, n < k → D.newMail s n = (s, .pending)) ∧ (∀ s u f n, n < k → D.filterFrom s u f n = ((s, u), .pending)) ∧
    (∀ s u t m n, n < k → D.filterTo s u t m n = ((s, u, m), .pending)) ∧ (∀ s u m n, n < k → D.filterData s u m n = ((s, u), .pending)) ∧
    (∀ s u m h n, n < k → D.handleMail s u m h n = ((s, u), .pending)) := by
  refine ⟨{ newMail := fun s n => if n < k then (s, .pending) else (C.newMail s, .ready ())
            filterFrom := fun s u f n => if n < k then ((s, u), .pending) else
              match C.filterFrom s u f with | (d, f', s', u') => ((s', u'), .ready (d, f'))
            filterTo := fun s u t m n => if n < k then ((s, u, m), .pending) else
              match C.filterTo s u t m with | (d, t', m', s', u') => ((s', u', m'), .ready (d, t'))
            filterData := fun s u m n => if n < k then ((s, u), .pending) else
              match C.filterData s u m with | (d, m', s', u') => ((s', u'), .ready (d, m'))
            handleMail := fun s u m h n => if n < k then ((s, u), .pending) else match C.handleMail s u m h with
              | .poll => ((s, u), .ready .poll) | .complete => ((s, u), .ready .complete) | .done d s' u' => ((s', u'), .ready (.done d))
            replies := C }, ⟨?_, ?_, ?_, ?_, ?_, ?_, ?_, ?_⟩, ⟨?_, ?_, ?_, ?_, ?_⟩, ⟨?_, ?_, ?_, ?_, ?_, ?_⟩,
            fun s n h => if_pos h, fun s u f n h => if_pos h, fun s u t m n h => if_pos h, fun s u m n h => if_pos h,
            fun s u m h n hn => if_pos hn⟩
  · rintro s n s' a ⟨h, _⟩
    dsimp only at h
    split at h <;> cases h
    rfl
  · rintro s u f n s' u' d f' ⟨h, _⟩
    rcases hc : C.filterFrom s u f with ⟨a, b, c, e⟩
    dsimp only at h
    split at h
    · cases h
    · simp [hc] at h
      simp [h]
  · rintro s u t m n s' u' m' d t' ⟨h, _⟩
    rcases hc : C.filterTo s u t m with ⟨a, b, c, e, f⟩
    dsimp only at h
    split at h
    · cases h
    · simp [hc] at h
      simp [h]
  · rintro s u m n s' u' d m' ⟨h, _⟩
    rcases hc : C.filterData s u m with ⟨a, b, c, e⟩
    dsimp only at h
    split at h
    · cases h
    · simp [hc] at h
      simp [h]
  · rintro s u m h n x ⟨hx, _⟩
    dsimp only at hx
    split at hx
    · cases hx
    · cases hc : C.handleMail s u m h <;> simp_all
  · rintro s u m h n x ⟨hx, _⟩
    dsimp only at hx
    split at hx
    · cases hx
    · cases hc : C.handleMail s u m h <;> simp_all
  · rintro s u m h n s' u' d ⟨hx, _⟩
    dsimp only at hx
    split at hx
    · cases hx
    · cases hc : C.handleMail s u m h <;> simp_all
  · intro s; exact ⟨rfl, rfl, rfl, rfl, rfl, rfl, rfl, rfl, rfl, rfl, rfl⟩
  · intro s; exact ⟨k, _, _, if_neg (Nat.lt_irrefl k), fun n h => by simp [h]⟩
  · intro s u f; exact ⟨k, _, _, if_neg (Nat.lt_irrefl k), fun n h => by simp [h]⟩
  · intro s u t m; exact ⟨k, _, _, if_neg (Nat.lt_irrefl k), fun n h => by simp [h]⟩
  · intro s u m; exact ⟨k, _, _, if_neg (Nat.lt_irrefl k), fun n h => by simp [h]⟩
  · intro s u m h
    cases hc : C.handleMail s u m h <;>
      exact ⟨k, _, _, by dsimp only; rw [if_neg (Nat.lt_irrefl k)]; simp only [hc]; rfl, fun n h => by simp [h]⟩
  · intro x; exact .inl rfl
  · intro s u n
    dsimp only
    split
    · exact .inl rfl
    · exact .inr (.inl ⟨s, rfl, rfl⟩)
  · intro s u f n
    dsimp only
    split
    · exact .inl rfl
    · exact .inr (.inr (.inl ⟨f, rfl⟩))
  · intro s u t m n
    dsimp only
    split
    · exact .inl rfl
    · exact .inr (.inr (.inr (.inl ⟨t, m, rfl⟩)))
  · intro s u m n
    dsimp only
    split
    · exact .inl rfl
    · exact .inr (.inr (.inr (.inr (.inl ⟨m, rfl⟩))))
  · intro s u m h n
    dsimp only
    split
    · exact .inl rfl
    · cases hc : C.handleMail s u m h with
      | poll => exact .inl rfl
      | complete => exact .inl rfl
      | done d s' u' => exact .inr (.inr (.inr (.inr (.inr ⟨m, h, d, hc⟩))))

/-! ### A session -/

/-- The configuration of the project's tests, with a `new_mail` that takes three polls, a `filter_to` that empties the envelope
before it answers and panics at its second poll for recipients called `panic`, and a mail handler that stores a mail one poll
before it says so. -/
def slowTest : Slow exampleIp (MailBox exampleIp) Unit where
  newMail s n := (s, if n < 2 then .pending else .ready ())
  filterFrom s _ f _ := ((s, ()), .ready (if isBadSender f then .reject ⟨⟨550⟩, b!"User 'bad' banned"⟩ else .accept, f))
  filterTo s _ e m n :=
    if n = 0 then ((s, (), ⟨none, []⟩), .pending)
    else if e.localpartFn = some b!"panic" then ((s, (), ⟨none, []⟩), .panicked)
    else ((s, (), m), .ready (if e.localpartFn = some b!"baz" then .reject ⟨⟨550⟩, b!"No user 'baz'"⟩ else .accept, e))
  filterData s _ m _ := ((s, ()), .ready (.accept, m))
  handleMail s _ m h n :=
    match testHandle s m h with
    | .poll => ((s, ()), .ready .poll)
    | .complete => ((s, ()), .ready .complete)
    | .done d s' _ => ((s', ()), if n = 0 then .pending else .ready (.done d))
  replies := testConfig exampleIp

/-- C120: the hypotheses of the theorems hold. -/
theorem c120_example_amounts : AmountsTo slowTest (testConfig exampleIp) ∧
    Effects slowTest (fun a b => testBox a.1 <+: testBox b.1) := by
  refine ⟨⟨?_, ?_, ?_, ?_, ?_, ?_, ?_, ?_⟩, ⟨?_, ?_, ?_, ?_, ?_, ?_⟩⟩
  · rintro s n s' a ⟨h, _⟩; exact (Prod.mk.inj h).1
  · rintro s u f n s' u' d f' ⟨h, _⟩
    simp only [slowTest, Prod.mk.injEq, Ans.ready.injEq] at h
    obtain ⟨⟨rfl, _⟩, rfl, rfl⟩ := h
    rfl
  · rintro s u t m n s' u' m' d t' ⟨h, _⟩
    simp only [slowTest] at h
    split at h
    · cases h
    · split at h
      · cases h
      · simp only [Prod.mk.injEq, Ans.ready.injEq] at h
        obtain ⟨⟨rfl, _, rfl⟩, rfl, rfl⟩ := h
        rfl
  · rintro s u m n s' u' d m' ⟨h, _⟩
    simp only [slowTest, Prod.mk.injEq, Ans.ready.injEq] at h
    simp only [testConfig, Required.toConfig, ← h.1.1, ← h.2.1, h.2.2]
  · rintro s u m h n x ⟨hx, _⟩
    simp only [slowTest] at hx
    show testHandle s m h = _
    cases hc : testHandle s m h <;> rw [hc] at hx
    · cases hx
    · dsimp only at hx; split at hx <;> cases hx
  · rintro s u m h n x ⟨hx, _⟩
    simp only [slowTest] at hx
    show testHandle s m h = _
    cases hc : testHandle s m h <;> rw [hc] at hx
    · cases hx
    · dsimp only at hx; split at hx <;> cases hx
  · rintro s u m h n s' u' d ⟨hx, _⟩
    simp only [slowTest] at hx
    show testHandle s m h = _
    cases hc : testHandle s m h <;> rw [hc] at hx
    · cases hx
    · cases hx
    · dsimp only at hx; split at hx <;> cases hx; rfl
  · intro s; exact ⟨rfl, rfl, rfl, rfl, rfl, rfl, rfl, rfl, rfl, rfl, rfl⟩
  · intro x; exact List.prefix_refl _
  · intro s u k; exact List.prefix_refl _
  · intro s u f k; exact List.prefix_refl _
  · intro s u t m k
    simp only [slowTest]
    split
    · exact List.prefix_refl _
    · split <;> exact List.prefix_refl _
  · intro s u m k; exact List.prefix_refl _
  · intro s u m h k
    simp only [slowTest]
    cases hc : testHandle s m h with
    | poll => exact List.prefix_refl _
    | complete => exact List.prefix_refl _
    | done d s' u' =>
      have : s' = s ∨ ∃ x, s' = s ++ [x] := by
        unfold testHandle at hc
        split at hc
        · cases hc; exact .inl rfl
        · split at hc <;> cases hc
          · exact .inl rfl
          · exact .inr ⟨_, rfl⟩
        · cases hc
        · cases hc
      rcases this with rfl | ⟨x, rfl⟩
      · exact List.prefix_refl _
      · exact ⟨_, (List.map_append ..).symm⟩

def slowInput : Bytes := b!"MAIL FROM:<a@b.c>\r\nRCPT TO:<d@e.f>\r\nDATA\r\nhi\r\n.\r\nMAIL FROM:<>\r\nRCPT TO:<panic@x.y>\r\nQUIT\r\n"

/-- C120: a session. After the 21st answer the mail is not stored, after the 22nd it is, while `handle_mail` has not returned; the
session is dead from the 35th on, when `filter_to` panics, with the mail stored and acknowledged, and without a reply to the second
RCPT, or to QUIT. -/
theorem c120_example :
    (after slowTest [.pkt slowInput] ⟨[], []⟩ [] () 21).2.cfg.length = 0 ∧
    (after slowTest [.pkt slowInput] ⟨[], []⟩ [] () 22).2.cfg.length = 1 ∧
    acceptedMails (after slowTest [.pkt slowInput] ⟨[], []⟩ [] () 22).2.trace = [] ∧
    (after slowTest [.pkt slowInput] ⟨[], []⟩ [] () 34).1 matches .filterTo .. ∧
    (after slowTest [.pkt slowInput] ⟨[], []⟩ [] () 35).1 matches .unwound ∧
    (acknowledgedMails (after slowTest [.pkt slowInput] ⟨[], []⟩ [] () 35).2.trace).length = 1 ∧
    (repliesOf (after slowTest [.pkt slowInput] ⟨[], []⟩ [] () 35).2.trace).map (·.1.code) = [220, 250, 250, 354, 250, 250] := by
  decide +kernel

/-- C120: a session with a filter that never answers. -/
theorem c120_example_stuck : Stuck { slowTest with filterFrom := fun s u _ _ => ((s, u), .pending) }
    (after { slowTest with filterFrom := fun s u _ _ => ((s, u), .pending) } [.pkt slowInput] ⟨[], []⟩ [] () 6).1 := by
  have : (after { slowTest with filterFrom := fun s u _ _ => ((s, u), .pending) } [.pkt slowInput] ⟨[], []⟩ [] () 6).1 matches
      .filterFrom .. := by decide +kernel
  revert this
  generalize (after _ [.pkt slowInput] ⟨[], []⟩ [] () 6).1 = pc
  cases pc <;> simp [Stuck]

end Verif
