import Verif.Proofs.QueueFutures
import Verif.Spec.Queue

/-!
# C123: the futures of the queue, poll by poll

`sendQueuedMail m` and `recover startup c` are the expressions of send_queued_mail.rs and run.rs, built of the combinators of futures 0.1
(`Model/QueueFutures.lean`): what evaluating them does, and the future they give. The theorems hold for every way an executor polls
the futures, and every answer of the operations that their types allow (`Fits`).
-/

namespace Verif
open Queue QFut

/-- However it is polled, a delivery does what `next`, the transition system of the queue, says, starting with `send_start`. -/
theorem c123_delivery (m : MailId) (polls : List (List (Option Ans)))
    (hfits : ∀ o a, .polled o (some a) ∈ (QFut.sendQueuedMail m).trace polls → Fits o a) :
    (QFut.sendQueuedMail m).1 = [.call (.sendStart m)] ∧
    ∃ stand, Life (.sendStart m) polls ((QFut.sendQueuedMail m).2.polls polls).1 stand ∧
      ((QFut.sendQueuedMail m).2.polls polls).2.Agrees stand := by
  rw [sendQueuedMail_eq] at hfits ⊢
  obtain ⟨st, h1, h2⟩ := polls_spec polls (.sendStart m) (fun o a es h1 h2 => hfits o a (by
    simp only [Built.trace, List.mem_append, List.mem_flatten]
    exact .inr ⟨es, h1, h2⟩))
  exact ⟨rfl, st, h1, h2.agrees⟩

/-- Likewise for the recovery of a mail: it starts with a wait until an hour after `run` was called. -/
theorem c123_recovery (startup : Nat) (c : Claim) (polls : List (List (Option Ans)))
    (hfits : ∀ o a, .polled o (some a) ∈ (recover startup c).trace polls → Fits o a) :
    (recover startup c).1 = [.call (.delay (startup + 3600) c)] ∧
    ∃ stand, Life (.delay (startup + 3600) c) polls ((recover startup c).2.polls polls).1 stand ∧
      ((recover startup c).2.polls polls).2.Agrees stand := by
  rw [recover_eq] at hfits ⊢
  obtain ⟨st, h1, h2⟩ := polls_spec polls (.delay (startup + 3600) c) (fun o a es h1 h2 => hfits o a (by
    simp only [Built.trace, List.mem_append, List.mem_flatten]
    exact .inr ⟨es, h1, h2⟩))
  exact ⟨rfl, st, h1, h2.agrees⟩

/-- A poll of `Life` that does not end the task ends with a poll of the operation the task waits for, which was not ready, and none
before it was `NotReady`: the task will be woken. -/
theorem c123_no_lost_wakeup {o o' : Op} {as : List (Option Ans)} {es : List PEv} (h : OnePoll o as es (.waiting o')) :
    ∃ es', es = es' ++ [.polled o' none] ∧ ∀ o'', .polled o'' none ∉ es' := by
  generalize hst : Stand.waiting o' = st at h
  induction h with
  | noAnswer => cases hst; exact ⟨[], rfl, by simp⟩
  | notReady => cases hst; exact ⟨[], rfl, by simp⟩
  | over => cases hst
  | retry => cases hst
  | goOn hn _ ih =>
    obtain ⟨es', rfl, h⟩ := ih hst
    exact ⟨_ :: _ :: es', rfl, by simpa using h⟩

/-- What a task is: a delivery, or the recovery of a mail. -/
private theorem trace_tr {b : Built} (hb : (∃ m, b = QFut.sendQueuedMail m) ∨ ∃ startup c, b = recover startup c)
    {polls : List (List (Option Ans))} (hfits : ∀ o a, .polled o (some a) ∈ b.trace polls → Fits o a) :
    ∃ o es, b.trace polls = .did (.call o) :: es ∧ Tr o es := by
  rcases hb with ⟨m, rfl⟩ | ⟨t, c, rfl⟩
  · obtain ⟨h0, st, h1, _⟩ := c123_delivery m polls hfits
    exact ⟨_, _, by rw [Built.trace, h0]; rfl, h1.tr⟩
  · obtain ⟨h0, st, h1, _⟩ := c123_recovery t c polls hfits
    exact ⟨_, _, by rw [Built.trace, h0]; rfl, h1.tr⟩

/-- However a task is polled: no operation is called twice, and one that has answered is neither polled nor called afterwards. -/
theorem c123_never_again {b : Built} (hb : (∃ m, b = QFut.sendQueuedMail m) ∨ ∃ startup c, b = recover startup c)
    {polls : List (List (Option Ans))} (hfits : ∀ o a, .polled o (some a) ∈ b.trace polls → Fits o a)
    {pre post : List PEv} {o : Op} :
    (∀ a, b.trace polls = pre ++ .polled o (some a) :: post → (∀ x, .polled o x ∉ post) ∧ .did (.call o) ∉ post) ∧
    (b.trace polls = pre ++ .did (.call o) :: post → .did (.call o) ∉ post) := by
  obtain ⟨o0, es, h, ht⟩ := trace_tr hb hfits
  have hp : (PEv.did (.call o0) :: es).Pairwise Fresh :=
    .cons (fun e he => ⟨fun _ _ h => (nomatch h), fun o' h1 h2 => by
      cases h1
      subst h2
      have := (ht.ranked o0 _ he rfl).2 rfl
      omega⟩) ht.fresh
  rw [h]
  refine ⟨fun a hs => ?_, fun hs => ?_⟩ <;> rw [hs, List.pairwise_append] at hp <;> have hp := (List.pairwise_cons.1 hp.2.1).1
  · exact ⟨fun x hx => (hp _ hx).1 o a rfl rfl, fun hx => (hp _ hx).1 o a rfl rfl⟩
  · exact fun hx => (hp _ hx).2 o rfl rfl

/-- Operations are polled only after they were called, and called one after the other: when one is called, all called before have
answered. -/
theorem c123_one_by_one {b : Built} (hb : (∃ m, b = QFut.sendQueuedMail m) ∨ ∃ startup c, b = recover startup c)
    {polls : List (List (Option Ans))} (hfits : ∀ o a, .polled o (some a) ∈ b.trace polls → Fits o a)
    {pre post : List PEv} {o : Op} :
    (∀ x, b.trace polls = pre ++ .polled o x :: post → .did (.call o) ∈ pre) ∧
    (b.trace polls = pre ++ .did (.call o) :: post → ∀ o', .did (.call o') ∈ pre → ∃ a, .polled o' (some a) ∈ pre) := by
  obtain ⟨o0, es, h, ht⟩ := trace_tr hb hfits
  rw [h]
  refine ⟨fun x hs => ?_, fun hs o' ho' => ?_⟩
  · rcases pre with _ | ⟨e, pre⟩ <;> simp at hs
    obtain ⟨rfl, hs⟩ := hs
    rcases ht.called pre o x post hs with rfl | h1
    · simp
    · simp [h1]
  · rcases pre with _ | ⟨e, pre⟩
    · simp at ho'
    · simp at hs
      obtain ⟨rfl, hs⟩ := hs
      obtain ⟨⟨a, h1⟩, h2⟩ := ht.oneByOne pre o post hs
      rcases List.mem_cons.1 ho' with ho' | ho'
      · cases ho'; exact ⟨a, by simp [h1]⟩
      · obtain ⟨a, h3⟩ := h2 o' ho'
        exact ⟨a, by simp [h3]⟩

/-- A task spawns nothing but a retry, as its last deed, immediately after `send_cancel` answered, of the mail `send_cancel` gave back. -/
theorem c123_retries {b : Built} (hb : (∃ m, b = QFut.sendQueuedMail m) ∨ ∃ startup c, b = recover startup c)
    {polls : List (List (Option Ans))} (hfits : ∀ o a, .polled o (some a) ∈ b.trace polls → Fits o a)
    {pre post : List PEv} {e : Eff} (he : ∀ o, e ≠ .call o) (h : b.trace polls = pre ++ .did e :: post) :
    post = [] ∧ ∃ c m pre', e = .spawnSend m ∧ pre = pre' ++ [.polled (.sendCancel c) (some (.queued m))] := by
  obtain ⟨o0, es, h0, ht⟩ := trace_tr hb hfits
  rw [h0] at h
  rcases pre with _ | ⟨e', pre⟩ <;> simp at h
  · exact absurd h.1.symm (he _)
  · obtain ⟨h1, c, m, pre', h2, h3⟩ := ht.retries pre e post h.2 he
    exact ⟨h1, c, m, e' :: pre', h2, by rw [h3]; rfl⟩

/-- When the executor polls does not matter: what any future does, and how it ends, depends only on the answers, in their order. -/
theorem c123_any_polling (f : Fut) (p : List Ans) (ps : List (List Ans)) :
    seen (f.polls ((p :: ps).map (·.map some))).1.flatten = seen (f.poll ((p :: ps).flatten.map some)).1 ∧
    (f.polls ((p :: ps).map (·.map some))).2 = (f.poll ((p :: ps).flatten.map some)).2.1 :=
  polls_split ps f p

/-- In any execution of the transition system (C57 on), interleaved with whatever else happens: what the record tells of a delivery is
what its future does when polled with the answers the task got, and the task is gone when the future is ready. -/
theorem c123_refines {s s' : St} {acts : List Act} {i r : Nat} {m : MailId} (hr : Reach Always s)
    (ht : s.task i = some ⟨r, .sendStart m, none⟩) (he : exec s acts = some s')
    (hcrash : .crash r ∉ acts) (hdie : .die i ∉ acts) (hgone : ∀ t, s'.task i = some t → t.ans = none) :
    ∃ new, s'.log = s.log ++ new ∧
      told i (new.map (·.ev)) = seen ((QFut.sendQueuedMail m).2.poll ((heard i acts).map some)).1 ∧
      (s'.task i = none ↔ ∃ v, ((QFut.sendQueuedMail m).2.poll ((heard i acts).map some)).2.1 = .ready v) := by
  obtain ⟨new, h1, h2⟩ := exec_view acts (hr.basic.task i _ ht).tid he hcrash hdie (fun t h => by
    rw [ht] at h; cases h; exact ⟨rfl, fun _ h => nomatch h⟩)
  rw [ht] at h2
  obtain ⟨h3, h4⟩ := h2 hgone
  refine ⟨new, h1, h3, ?_⟩
  rw [sendQueuedMail_eq]
  simp only [Option.toList, List.nil_append] at h4
  split at h4
  · rename_i v hv
    simp [hv, h4]
  · rename_i f hf
    obtain ⟨o', _, h5⟩ := h4
    simp [hf, h5]

/-- Likewise for the recovery of a mail. -/
theorem c123_recovery_refines {s s' : St} {acts : List Act} {i r startup : Nat} {c : Claim} (hr : Reach Always s)
    (ht : s.task i = some ⟨r, .delay (startup + 3600) c, none⟩) (he : exec s acts = some s')
    (hcrash : .crash r ∉ acts) (hdie : .die i ∉ acts) (hgone : ∀ t, s'.task i = some t → t.ans = none) :
    ∃ new, s'.log = s.log ++ new ∧
      told i (new.map (·.ev)) = seen ((recover startup c).2.poll ((heard i acts).map some)).1 ∧
      (s'.task i = none ↔ ∃ v, ((recover startup c).2.poll ((heard i acts).map some)).2.1 = .ready v) := by
  obtain ⟨new, h1, h2⟩ := exec_view acts (hr.basic.task i _ ht).tid he hcrash hdie (fun t h => by
    rw [ht] at h; cases h; exact ⟨rfl, fun _ h => nomatch h⟩)
  rw [ht] at h2
  obtain ⟨h3, h4⟩ := h2 hgone
  refine ⟨new, h1, h3, ?_⟩
  rw [recover_eq]
  simp only [Option.toList, List.nil_append] at h4
  split at h4
  · rename_i v hv
    simp [hv, h4]
  · rename_i f hf
    obtain ⟨o', _, h5⟩ := h4
    simp [hf, h5]

/-- However it is polled, `run` spawns a delivery for each mail listed, in order, before it polls `list_queue` again; then it calls
`find_inflight`, and spawns a recovery for each mail found; it is `Ok` when both have ended, an error at the first error, and after their
end or an error the streams are not polled again. -/
theorem c123_run (startup : Nat) (polls : List (List (SAns MailId) × List (SAns Claim))) :
    ∃ stand, RunLife startup .listing polls (RunFut.new.polls startup polls).1 stand ∧ (RunFut.new.polls startup polls).2.Agrees stand := by
  obtain ⟨st, h1, h2⟩ := runPolls_spec startup polls .listing (fun _ h => nomatch h)
  exact ⟨st, h1, h2.agrees⟩

/-- In any execution of the transition system, what the record tells of a `run` is what its future does when its streams answer as they
do, and the phase is what the future answers. -/
theorem c123_run_refines {s s' : St} {acts : List Act} {r : Nat} (hl : (s.runs r).phase = .listing) (he : exec s acts = some s')
    (hcrash : .crash r ∉ acts) :
    ∃ new, s'.log = s.log ++ new ∧
      rtold r (new.map (·.ev)) = rseen (RunFut.new.poll (s.runs r).startup (lists r acts) (finds r acts)).1 ∧
      match (RunFut.new.poll (s.runs r).startup (lists r acts) (finds r acts)).2 with
      | .notReady (.first _) => (s'.runs r).phase = .listing
      | .notReady (.second _) => (s'.runs r).phase = .finding
      | .ready => (s'.runs r).phase = .finished
      | .err => (s'.runs r).phase = .failed := by
  obtain ⟨new, h1, h2⟩ := exec_rview acts he hcrash (by simp [hl]) rfl
  rw [hl] at h2
  obtain ⟨h3, h4⟩ := h2
  refine ⟨new, h1, h3, ?_⟩
  change PhaseIs (RunFut.poll _ RunFut.new _ _).2 _ at h4
  generalize (s'.runs r).phase = ph at h4 ⊢
  generalize (RunFut.poll (s.runs r).startup RunFut.new (lists r acts) (finds r acts)).2 = out at h4 ⊢
  rcases out with (f | f) | _ | _ <;> cases ph <;> simp_all [PhaseIs]

/-! ### Examples -/

/-- A delivery in three polls: `get_mail` and the transport are not ready at first, the transport refuses, and a retry is spawned. -/
example : (QFut.sendQueuedMail 7).trace
    [[some (.inflight ⟨7, 0⟩), none], [some (.mail 7)], [some .err, some (.queued 7)]] =
    [.did (.call (.sendStart 7)), .polled (.sendStart 7) (some (.inflight ⟨7, 0⟩)), .did (.call (.getMail ⟨7, 0⟩)),
      .polled (.getMail ⟨7, 0⟩) none,
      .polled (.getMail ⟨7, 0⟩) (some (.mail 7)), .did (.call (.transportSend ⟨7, 0⟩ 7)), .polled (.transportSend ⟨7, 0⟩ 7) none,
      .polled (.transportSend ⟨7, 0⟩ 7) (some .err), .did (.call (.sendCancel ⟨7, 0⟩)),
      .polled (.sendCancel ⟨7, 0⟩) (some (.queued 7)), .did (.spawnSend 7)] := by decide

/-- Its answers fit. -/
example : ∀ o a, .polled o (some a) ∈ (QFut.sendQueuedMail 7).trace
    [[some (.inflight ⟨7, 0⟩), none], [some (.mail 7)], [some .err, some (.queued 7)]] → Fits o a := by
  intro o a h
  simp [Built.trace, QFut.sendQueuedMail, call, Fut.polls, Fut.poll, Fut.andThen, Fut.then_, Fut.map, Val.of] at h
  rcases h with ⟨rfl, rfl⟩ | ⟨rfl, rfl⟩ | ⟨rfl, rfl⟩ | ⟨rfl, rfl⟩ <;> constructor

/-- A recovery that waits, and then delivers. -/
example : ((recover 5 ⟨7, 0⟩).2.polls
    [[none], [some .ok, some (.queued 7), some (.inflight ⟨7, 1⟩), some (.mail 7), some .ok, some .ok]]).1 =
    [[.polled (.delay 3605 ⟨7, 0⟩) none],
     [.polled (.delay 3605 ⟨7, 0⟩) (some .ok), .did (.call (.cancelFound ⟨7, 0⟩)), .polled (.cancelFound ⟨7, 0⟩) (some (.queued 7)),
      .did (.call (.sendStart 7)), .polled (.sendStart 7) (some (.inflight ⟨7, 1⟩)), .did (.call (.getMail ⟨7, 1⟩)),
      .polled (.getMail ⟨7, 1⟩) (some (.mail 7)), .did (.call (.transportSend ⟨7, 1⟩ 7)),
      .polled (.transportSend ⟨7, 1⟩ 7) (some .ok), .did (.call (.sendDone ⟨7, 1⟩)), .polled (.sendDone ⟨7, 1⟩) (some .ok)]] := by decide

/-- `run`, polled three times. -/
example : (RunFut.new.polls 5 [([.item 7], []), ([.item 8, .ended], [.item ⟨9, 0⟩]), ([], [.ended])]).1 =
    [[.polledList (.item 7), .did (.spawnSend 7), .polledList .notReady],
     [.polledList (.item 8), .did (.spawnSend 8), .polledList .ended, .calledFind, .polledFind (.item ⟨9, 0⟩),
      .did (.spawnRecover 3605 ⟨9, 0⟩), .polledFind .notReady],
     [.polledFind .ended]] := by decide

/-- A reachable state in which a delivery has been spawned, and an execution from there in which it fails and is retried, while the
listing goes on. -/
example : ∃ s s', Reach Always s ∧ s.task 0 = some ⟨0, .sendStart 7, none⟩ ∧ (s.runs 0).phase = .listing ∧
    exec s [.answer 0 (.inflight ⟨7, 0⟩) false, .tick 3, .proceed 0, .enqueue 8, .answer 0 (.mail 7) false, .list 0 8, .proceed 0,
      .answer 0 .err true, .proceed 0, .listEnd 0, .answer 0 (.queued 7) false, .proceed 0] = some s' ∧ s'.task 0 = none ∧
    told 0 (s'.log.drop s.log.length |>.map (·.ev)) =
      [.polled (.sendStart 7) (some (.inflight ⟨7, 0⟩)), .did (.call (.getMail ⟨7, 0⟩)),
      .polled (.getMail ⟨7, 0⟩) (some (.mail 7)), .did (.call (.transportSend ⟨7, 0⟩ 7)),
      .polled (.transportSend ⟨7, 0⟩ 7) (some .err), .did (.call (.sendCancel ⟨7, 0⟩)),
      .polled (.sendCancel ⟨7, 0⟩) (some (.queued 7)), .did (.spawnSend 7)] := by
  have h : ∃ s, exec Queue.init [.enqueue 7, .start 0, .list 0 7] = some s := ⟨_, rfl⟩
  obtain ⟨s, hs⟩ := h
  have hr := exec_reach (P := Always) .init (fun _ _ => trivial) hs
  simp [exec, step, Queue.init, upd, St.note, St.spawn, Queue.sendQueuedMail] at hs
  refine ⟨s, ?_⟩
  subst hs
  exact ⟨_, hr, rfl, rfl, rfl, rfl, rfl⟩

end Verif
