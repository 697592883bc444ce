import Verif.Proofs.Polls
import Verif.Props.SinkPoll
import Verif.Props.Prompt
/-
C114: how a session is polled.
-/
namespace Verif
open Spec Server SinkPoll Ex
variable {σ : Type} {L : IpLib} {S U : Type}

private theorem over_stays {R : RawSink σ} {C : Config L S U} {incoming : List (SrcEv Bytes)} {st : σ} {s : S} {u : U} {n : Nat} {r : Res Unit}
    (h : (Live.after R C incoming st s u n).pc = .over r) : (Live.after R C incoming st s u (n + 1)).pc = .over r := by
  rw [Live.after]
  generalize Live.after R C incoming st s u n = x at h
  simp only [Live.step, h, Task.step]

/-- C114. When the session suspends, then in that very step its connection or its sink answered `Pending`, and was called last: the
session will be woken. -/
theorem c114_woken (R : RawSink σ) (C : Config L S U) (incoming : List (SrcEv Bytes)) (st : σ) (s : S) (u : U) (n : Nat)
    (h : Suspends R (Live.after R C incoming st s u n)) :
    (∃ t, (connectionOf (Live.after R C incoming st s u n)).evs = t ++ .pending :: (connectionOf (Live.after R C incoming st s u (n + 1))).evs) ∨
    (Live.after R C incoming st s u (n + 1)).log.getLast? = some (.ready .pending) ∨
    (Live.after R C incoming st s u (n + 1)).log.getLast? = some (.flush .pending) := by
  have hw := c112_woken R C incoming st s u n
  rw [Live.after] at hw ⊢
  generalize Live.after R C incoming st s u n = x at h hw
  obtain ⟨pc, w, b, wr⟩ := x
  cases pc with
  | read buf =>
    left
    simp only [Suspends] at h
    have e : w.reader.pollNext = (.pending, w.reader.pollNext.2) := Prod.ext h rfl
    refine ⟨[], ?_⟩
    simp only [Live.step, Task.step]
    rw [e]
    simp only [connectionOf, List.nil_append]
    exact (Prep.pollNext_pending e).1
  | send r left a =>
    right
    simp only [Suspends] at h
    apply hw
    · refine ⟨⟨r, left, a, rfl⟩, ?_⟩
      simp only [Live.step]
      rcases hq : SendAll.poll R r.1 ⟨b, left, wr⟩ with ⟨a', y⟩
      rw [hq] at h
      cases h
      exact ⟨r, y.left, a, rfl⟩
    · simp only [Live.step]
      rcases hq : SendAll.poll R r.1 ⟨b, left, wr⟩ with ⟨a', y⟩
      rw [hq] at h
      cases h
      rfl
  | handle act hh d =>
    left
    obtain ⟨ha, h⟩ := h
    simp only [Live.step, Task.step]
    rw [ha]
    simp only [connectionOf]
    exact c82_pending_from_source d _ (Prod.ext h rfl)
  | newMail f => exact h.elim
  | filterFrom f => exact h.elim
  | filterTo t m => exact h.elim
  | filterData m => exact h.elim
  | over r => exact h.elim

/-- C114. The session answers `Pending` exactly as often as its connection and its sink have. -/
theorem c114_one_to_one (R : RawSink σ) (C : Config L S U) (incoming : List (SrcEv Bytes)) (st : σ) (s : S) (u : U) (n : Nat)
    (hp : ∀ p, (Live.after R C incoming st s u n).pc ≠ .over (.panic p)) :
    suspensions R C incoming st s u n + pendingsIn (connectionOf (Live.after R C incoming st s u n)).src =
      pendingsIn incoming + pendingsOut (Live.after R C incoming st s u n).log := by
  induction n with
  | zero =>
    simp only [suspensions, Live.after, Live.init, Live.log, pendingsOut, List.countP_nil, Nat.zero_add, Nat.add_zero]
    unfold connectionOf Task.init Task.reply
    split <;> rename_i h <;> split at h <;> simp_all [start, Prep.new]
  | succ n ih =>
    have hp' : ∀ p, (Live.after R C incoming st s u n).pc ≠ .over (.panic p) := fun p h => hp p (over_stays h)
    have ih := ih hp'
    have hc := Polls.count_step (R := R) (C := C) (Live.after R C incoming st s u n) hp
    have e : Live.after R C incoming st s u (n + 1) = (Live.after R C incoming st s u n).step R C := rfl
    rw [← e] at hc
    by_cases h : Suspends R (Live.after R C incoming st s u n)
    · have := hc.1 h
      simp only [suspensions, if_pos h]
      omega
    · have := hc.2 h
      simp only [suspensions, if_neg h]
      omega

/-- What a session on a writer that never fails reaches in `N` steps bounds how far it can get without having ended. -/
private theorem short {C : Config L S U} {incoming : List (SrcEv Bytes)} {s : S} {u : U} {N N' : Nat} {res : Res Unit} {w : World L S U}
    (hN : Task.after C incoming ⟨[], []⟩ s u N = (.over res, w)) {x : Live L S U σ} (h : Sound C incoming s u N' x)
    (ho : ∀ r, x.pc ≠ .over r) : N' < N := by
  apply Classical.byContradiction
  intro hlt
  have stay : ∀ k, N ≤ k → Task.steps C k (Task.init C incoming ⟨[], []⟩ s u) = (.over res, w) := by
    intro k hk
    obtain ⟨j, rfl⟩ := Nat.exists_eq_add_of_le hk
    rw [Task.steps_add, show Task.steps C N _ = _ from hN, Task.steps_over]
  have no : ∀ {pc' : Task.PC L S U} {o}, Covers C incoming s u N' true pc' x.w o → (∀ r, pc' ≠ .over r) → False := by
    rintro pc' o ⟨k, q, hk, hq, e⟩ hp
    have e := e []
    rw [List.append_nil] at e
    have := ok_steps (C := C) k (Task.init C incoming ⟨[], q⟩ s u) (hq rfl)
    rw [e] at this
    have h2 := stay k (by omega)
    have h3 : Task.steps C k (Task.init C incoming ⟨[], []⟩ s u) = (pc', _) := this
    rw [h2] at h3
    exact hp res (congrArg Prod.fst h3).symm
  obtain ⟨pc, w', b, wr⟩ := x
  cases pc with
  | over r => exact ho r rfl
  | send r left a =>
    cases b with
    | none => exact no h.2.2 (by simp)
    | some l => obtain ⟨t, _, h⟩ := h; exact no h.2.2 (by simp)
  | _ => exact no h.2.2.2 (by simp)

/-- C114. If the mail handlers return, there is a bound, for all sinks, on what a session does apart from suspending: it never spins, every
poll of it comes to an end, and it is over after the bound and as many polls as its connection and its sink answer `Pending`. -/
theorem c114_bounded (C : Config L S U) (hR : ∀ s u m, Returns (C.handleMail s u m)) (incoming : List (SrcEv Bytes)) (s : S) (u : U) :
    ∃ N, ∀ (σ : Type) (R : RawSink σ) (st : σ) (n : Nat),
      (∃ r, (Live.after R C incoming st s u n).pc = .over r) ∨ n ≤ N + suspensions R C incoming st s u n := by
  obtain ⟨n0, ⟨res, w⟩, h1, h2⟩ := c53_terminates C hR incoming ⟨[], []⟩ s u
  obtain ⟨N, hN⟩ := ((c101_same C incoming ⟨[], []⟩ s u).1 res w).2 ⟨h1, n0, h2 n0 (Nat.le_refl _)⟩
  refine ⟨N, fun σ R st n => ?_⟩
  by_cases ho : ∃ r, (Live.after R C incoming st s u n).pc = .over r
  · exact .inl ho
  · right
    have key : ∀ n, (∀ r, (Live.after R C incoming st s u n).pc ≠ .over r) →
        ∃ k, n ≤ k + suspensions R C incoming st s u n ∧ Sound C incoming s u k (Live.after R C incoming st s u n) := by
      intro n
      induction n with
      | zero => intro _; exact ⟨0, by simp, sound_after R C incoming st s u 0⟩
      | succ n ih =>
        intro ho
        have ho' : ∀ r, (Live.after R C incoming st s u n).pc ≠ .over r := fun r h => ho r (over_stays h)
        obtain ⟨k, hk, hS⟩ := ih ho'
        by_cases hs : Suspends R (Live.after R C incoming st s u n)
        · refine ⟨k, ?_, sound_step hS⟩
          simp only [suspensions, if_pos hs]; omega
        · rcases Polls.progress (R := R) hS hs ho' with h | ⟨r, h⟩
          · refine ⟨k + 1, ?_, h⟩
            simp only [suspensions, if_neg hs]; omega
          · exact absurd h (ho r)
    obtain ⟨k, hk, hS⟩ := key n (fun r h => ho ⟨r, h⟩)
    have := short hN hS (fun r h => ho ⟨r, h⟩)
    omega

/-- C114. So a session ends unless its sink answers `Pending` for ever. -/
theorem c114_ends (C : Config L S U) (hR : ∀ s u m, Returns (C.handleMail s u m)) (incoming : List (SrcEv Bytes)) (s : S) (u : U) :
    ∃ N, ∀ (σ : Type) (R : RawSink σ) (st : σ) (n : Nat),
      N + pendingsIn incoming + pendingsOut (Live.after R C incoming st s u n).log < n →
      ∃ r, (Live.after R C incoming st s u n).pc = .over r := by
  obtain ⟨N, h⟩ := c114_bounded C hR incoming s u
  refine ⟨N, fun σ R st n hn => ?_⟩
  rcases h σ R st n with h | h
  · exact h
  · apply Classical.byContradiction
    intro ho
    have := c114_one_to_one R C incoming st s u n (fun p h => ho ⟨_, h⟩)
    omega

/-- C114. The other side of it: a session suspends for nothing else. If neither connection nor sink ever answer `Pending`, all of the
session is one poll, however long it is, and nothing else runs on its thread meanwhile. -/
theorem c114_never_yields (R : RawSink σ) (hr : ∀ st, (R.pollReady st).1 ≠ .pending) (hf : ∀ st, (R.pollFlush st).1 ≠ .pending)
    (C : Config L S U) (incoming : List (SrcEv Bytes)) (hin : SrcEv.pending ∉ incoming) (st : σ) (s : S) (u : U) (n : Nat)
    (hp : ∀ p, (Live.after R C incoming st s u n).pc ≠ .over (.panic p)) : suspensions R C incoming st s u n = 0 := by
  have h := c114_one_to_one R C incoming st s u n hp
  have h1 : pendingsIn incoming = 0 := by
    simp only [pendingsIn, List.countP_eq_zero, decide_eq_true_eq]
    intro e he hq
    exact hin (hq ▸ he)
  have h2 : ∀ n, pendingsOut (Live.after R C incoming st s u n).log = 0 := by
    intro n
    induction n with
    | zero => rfl
    | succ n ih =>
      rw [Live.after]
      generalize Live.after R C incoming st s u n = x at ih
      have rdy : ∀ y : With σ, (y.pollReady R).1 ≠ .pending := by
        intro y
        have hq := (Polls.with_poll_out (R := R) y).2
        unfold With.pollReady
        split
        · rw [ne_eq, Polls.res_pending]; exact hr _
        · rename_i e; rw [e] at hq; exact hq
      have fl : ∀ y : With σ, (y.pollFlush R).1 ≠ .pending := by
        intro y
        have hq := (Polls.with_poll_out (R := R) y).2
        unfold With.pollFlush
        split
        · rw [ne_eq, Polls.res_pending]; exact hf _
        · rename_i e; rw [e] at hq; exact hq
      have tr : ∀ l left (y : With σ), (trySend R l left y).1 ≠ .pending := by
        intro l left y
        have hq := rdy y
        unfold trySend
        split <;> rename_i e <;> rw [e] at hq
        · simp only [With.startSend]; split <;> simp
        · exact absurd rfl hq
        · exact hq
      have lp : ∀ code left (y : With σ), (sendAllLoop R code left y).1 ≠ .pending := by
        intro code left
        induction left with
        | nil => intro y; exact fl y
        | cons t ts ih =>
          intro y
          unfold sendAllLoop
          split
          · simp
          · rename_i l _
            have hq := tr l ts y
            split
            · exact ih _
            · rename_i e; rw [e] at hq; exact hq
      have pl : ∀ code (y : SendAll σ), (SendAll.poll R code y).1 ≠ .pending := by
        intro code y
        unfold SendAll.poll
        split
        · exact lp _ _ _
        · rename_i l _
          have hq := tr l y.left y.writer
          split
          · exact lp _ _ _
          · rename_i e; rw [e] at hq; exact hq
      obtain ⟨pc, w, b, wr⟩ := x
      cases pc with
      | send r left a =>
        have h1 := Polls.poll_out (R := R) r.1 ⟨b, left, wr⟩
        rw [Polls.one_of_ne (pl _ _)] at h1
        simp only [Live.step, Live.log] at ih ⊢
        rw [ih] at h1
        rcases hq : SendAll.poll R r.1 ⟨b, left, wr⟩ with ⟨_ | _ | _ | p, y⟩ <;> rw [hq] at h1 <;> exact h1
      | _ => exact ih
  rw [h1, h2 n] at h
  omega

/-! ### An example -/

open Classical in
/-- C114: the session of `c112_example` suspends first because there is no room, then because the greeting is not flushed. -/
theorem c114_example :
    suspensions lazySink (testConfig exampleIp) [.pkt oneMail] true [] () 3 = 2 := by
  have h := c114_one_to_one lazySink (testConfig exampleIp) [.pkt oneMail] true [] () 3 (by
    have : waitsFor (Live.after lazySink (testConfig exampleIp) [.pkt oneMail] true [] () 3).pc = 3 := c112_example_waits.2.2.2.1
    intro p h
    rw [h] at this
    simp [waitsFor] at this)
  have h1 : pendingsOut (Live.after lazySink (testConfig exampleIp) [.pkt oneMail] true [] () 3).log = 2 := by decide +kernel
  have h2 : pendingsIn (connectionOf (Live.after lazySink (testConfig exampleIp) [.pkt oneMail] true [] () 3)).src = 0 := by decide +kernel
  have h3 : pendingsIn [.pkt oneMail] = 0 := rfl
  omega

end Verif
