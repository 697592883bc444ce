import Verif.Proofs.Around
import Verif.Props.Env
import Verif.Props.SinkPoll
/-
C126: the session in an environment that does what it likes, down to the single calls to the sink.
-/
namespace Verif
open Spec Around
variable {L : IpLib}

private theorem lines_bad {code : ReplyCode} {t : Bytes} {ts : List Bytes} {e : BuildErr}
    (h : ReplyLine.build code (if ts.isEmpty then .yes else .no) t = .error e) : replyLines code (t :: ts) = none := by
  cases ts with
  | nil =>
    have h : ReplyLine.build code .yes t = .error e := h
    simp only [replyLines, h]; rfl
  | cons t' ts =>
    have h : ReplyLine.build code .no t = .error e := h
    simp only [replyLines, h]; rfl

private theorem lines_bad_later {code : ReplyCode} {t t' : Bytes} {ts : List Bytes} (h : replyLines code (t' :: ts) = none) :
    replyLines code (t :: t' :: ts) = none := by
  rw [replyLines, h]
  · split <;> rfl
  · simp

private theorem same_time_moved {W : Surroundings L} {write : Nat → Env.WriterAns} {words : Hook → Reply} {x e : Env.State L}
    {y : Task.State L Nat Unit} (h1 : SameStand x.pc e.pc ∨ x.pc = .over (.panic .buildUnwrap) ∧ ∃ r left a, e.pc = .send r left a ∧ ¬ Sendable r)
    (h2 : e.reader = x.reader) (h3 : e.mail = x.mail) (h4 : e.trace = x.trace) (h : SameTime (withWriter W write) words e y) :
    SameTime W.others words x y := by
  obtain ⟨k1, k2, k3, t, k4, k5⟩ := h
  obtain ⟨pc, r, m, o, tr⟩ := x
  obtain ⟨pc', r', m', o', tr'⟩ := e
  dsimp only at h1 h2 h3 h4 k1 k2 k5
  subst h2 h3 h4
  rcases h1 with h1 | ⟨rfl, rp, left, a, rfl, _⟩
  · cases h1 with
    | same => exact ⟨k1, k2, k3, t, k4, k5⟩
    | send rp left left' a =>
      refine ⟨?_, fun _ _ => k2 (by simp) (by simp), fun _ => k3 trivial, t, k4, ?_⟩
      · obtain ⟨pc, w⟩ := y
        cases pc <;> exact k1
      · rcases k5 with k5 | ⟨h, _⟩
        · exact .inl k5
        · cases h
  · refine ⟨?_, fun _ _ => k2 (by simp) (by simp), fun h => h.elim, t, k4, ?_⟩
    · obtain ⟨pc, w⟩ := y
      cases pc <;> first | trivial | exact (k1 : False).elim
    · rcases k5 with k5 | ⟨h, _⟩
      · exact .inl k5
      · cases h

/-- C126. Whatever a sink does, call by call, and all the rest of the environment: step by step the session is one whose writer takes whole
lines, in the same environment otherwise (C125): the same place, the same reader, transaction and record, and the sink has been given what
that writer has. Only if a reply has a text that cannot be sent, so that the server panics, it may do so a line earlier than there. -/
theorem c126_same (W : Surroundings L) : ∃ write, ∀ n,
    (SameStand (after W n).x.pc (Env.after (withWriter W write) [] n).pc ∨
      (after W n).x.pc = .over (.panic .buildUnwrap) ∧ ∃ r left a, (Env.after (withWriter W write) [] n).pc = .send r left a ∧ ¬ Sendable r) ∧
    (Env.after (withWriter W write) [] n).reader = (after W n).x.reader ∧
    (Env.after (withWriter W write) [] n).mail = (after W n).x.mail ∧
    (Env.after (withWriter W write) [] n).trace = (after W n).x.trace ∧
    ∃ more, (Env.after (withWriter W write) [] n).out = handed (after W n).log ++ more ∧
      (more ≠ [] → more.length = 1 ∧ (after W n).x.pc = .over (.panic .buildUnwrap)) := by
  refine ⟨writer W, fun n => ?_⟩
  have h := rel_after W n
  have hd := Env.due_after (E := withWriter W (writer W)) [] n
  generalize after W n = s at h
  generalize Env.after (withWriter W (writer W)) [] n = e at h hd
  cases h with
  | send ht => exact ⟨.inl (.send _ _ _ _), rfl, rfl, rfl, [], (List.append_nil _).symm, fun h => absurd rfl h⟩
  | other hp => exact ⟨.inl (.same _), rfl, rfl, rfl, [], (List.append_nil _).symm, fun h => absurd rfl h⟩
  | @doomed q r m o out tr b h log hx =>
    have one : ∀ {more : List Bytes}, more.length ≤ 1 → more ≠ [] → more.length = 1 := by
      intro more h1 h2
      cases more with
      | nil => exact absurd rfl h2
      | cons a l => simp at h1 ⊢; exact h1
    cases q with
    | over e =>
      cases e with
      | panic p =>
        cases p with
        | buildUnwrap =>
          obtain ⟨more, h1, h2⟩ := hx
          exact ⟨.inl (.same _), rfl, rfl, rfl, more, h2, fun h => ⟨one h1 h, rfl⟩⟩
        | _ => exact hx.elim
      | _ => exact hx.elim
    | send rp cs a =>
      cases cs with
      | nil => exact hx.elim
      | cons t cs =>
        have hs : ¬ Sendable rp := by
          unfold Env.Due at hd
          obtain ⟨_, _, h2, _⟩ := hd
          intro hs
          rcases hx with ⟨l, t', cs', rfl, hl, ⟨e, he⟩, _⟩ | ⟨⟨e, he⟩, _⟩
          · exact h2.1 hs (lines_bad_later (lines_bad he))
          · exact h2.1 hs (lines_bad he)
        rcases hx with ⟨l, t', cs', rfl, hl, he, ho⟩ | ⟨he, more, h1, h2⟩
        · exact ⟨.inr ⟨rfl, _, _, _, rfl, hs⟩, rfl, rfl, rfl, [], by rw [List.append_nil]; exact ho, fun h => absurd rfl h⟩
        · exact ⟨.inr ⟨rfl, _, _, _, rfl, hs⟩, rfl, rfl, rfl, more, h2, fun h => ⟨one h1 h, rfl⟩⟩
    | _ => exact hx.elim

/-- C126. And it is, at every point, where a session of a configuration is that plays back what the callbacks have answered, on the input
that has been read, with a writer that never fails (as in C125). -/
theorem c126_session (W : Surroundings L) (words : Hook → Reply) (hwords : ∀ h, Sendable (words h)) :
    ∃ T : Script L, ∀ n, StaysEnded W.others.source (listened (after W n).x) →
      ∃ k, SameTime W.others words (after W n).x
        (Task.after (played T words) (heard W.others.source 0 (listened (after W n).x)) ⟨[], []⟩ 0 () k) := by
  obtain ⟨write, hs⟩ := c126_same W
  obtain ⟨T, hT⟩ := c125_same (withWriter W write) words hwords []
  refine ⟨T, fun n hn => ?_⟩
  obtain ⟨h1, h2, h3, h4, _⟩ := hs n
  have hl : listened (Env.after (withWriter W write) [] n) = listened (after W n).x := by
    unfold listened Env.State.input
    generalize after W n = s at h1 h2
    generalize Env.after (withWriter W write) [] n = e at h1 h2
    obtain ⟨⟨pc, r, m, o, tr⟩, b, h, log⟩ := s
    obtain ⟨pc', r', m', o', tr'⟩ := e
    dsimp only at h1 h2 ⊢
    subst h2
    rcases h1 with h1 | ⟨rfl, rp, left, a, rfl, _⟩
    · cases h1 <;> rfl
    · rfl
  obtain ⟨k, hk⟩ := hT n (by rw [hl]; exact hn)
  rw [hl] at hk
  exact ⟨k, same_time_moved h1 h2 h3 h4 hk⟩

/-- C126. So what holds of the deeds of all sessions of configurations, at every point, holds here. -/
theorem c126_transfer (P : List (Ev L) → Prop)
    (h : ∀ (C : Config L Nat Unit) (incoming : List (SrcEv Bytes)) (n : Nat),
      P ((Task.after C incoming ⟨[], []⟩ 0 () n).2.trace.filter isDeed))
    (W : Surroundings L) (n : Nat) (hs : StaysEnded W.others.source (listened (after W n).x)) :
    P ((after W n).x.trace.filter isDeed) := by
  obtain ⟨T, hT⟩ := c126_session W (fun _ => (⟨250⟩, [])) (fun _ _ h => by cases h)
  obtain ⟨k, _, _, _, t, ht, h1⟩ := hT n hs
  have : (after W n).x.trace.filter isDeed = t.filter isDeed := by
    rcases h1 with h1 | ⟨_, h1⟩ <;> rw [h1]
    simp [isDeed]
  rw [this, Wording.story_deeds ht]
  exact h _ _ _

/-- C126. The mail handler is called only after the filters have accepted, with the envelope they have left. -/
theorem c126_envelope (W : Surroundings L) (n : Nat) (pre post : List (Ev L)) (m : MailMeta L)
    (ht : (after W n).x.trace = pre ++ .handleMail m :: post) :
    ∃ before sender sender' since envelope r,
      pre = before ++ .filterFrom sender sender' .accept :: since ++ [.filterData envelope m .accept, .reply r] ∧
      (∀ e ∈ since, InTransaction e) ∧ envelope = since.foldl envelopeStep ⟨sender', []⟩ := by
  obtain ⟨write, hs⟩ := c126_same W
  exact c125_envelope (withWriter W write) [] n pre post m ((hs n).2.2.2.1.trans ht)

/-- C126. The sink is used as the trait demands. -/
theorem c126_contract (W : Surroundings L) (n : Nat) : SinkContract (after W n).log := by
  have h := good_after W n
  unfold Good at h
  split at h
  · exact h.1.contract
  · exact h.1
  · exact h.1.contract

/-- C126. What the sink has flushed are the lines of the replies given, at any point. -/
theorem c126_flushed (W : Surroundings L) (n : Nat) :
    flushed (after W n).log = (repliesOf (after W n).x.trace).flatMap Server.wire := by
  have h := good_after W n
  unfold Good at h
  split at h
  · exact h.1.flushed
  · exact h.2.1
  · exact h.1.flushed

/-- C126. Where no reply is being sent, nothing that was given to the sink waits for a flush, and no line is kept from it; in particular not
when the session polls its connection, calls a callback, or is unwinding. -/
theorem c126_nothing_held_back (W : Surroundings L) (n : Nat) (h1 : ∀ r left a, (after W n).x.pc ≠ .send r left a)
    (h2 : (after W n).x.pc ≠ .over .err) (h3 : (after W n).x.pc ≠ .over (.panic .buildUnwrap)) :
    handed (after W n).log = flushed (after W n).log ∧ (after W n).held = none ∧ (after W n).buffered = none := by
  refine ⟨?_, ?_⟩
  · have h := good_after W n
    unfold Good at h
    split at h
    · rename_i hp; exact absurd hp (h1 _ _ _)
    · rename_i e hp
      rcases h.2.2 with rfl | rfl | h
      · exact absurd hp h2
      · exact absurd hp h3
      · exact h
    · exact h.2
  · have h := rel_after W n
    generalize after W n = s at h h1 h3
    generalize Env.after (withWriter W (writer W)) [] n = e at h
    cases h with
    | send => exact absurd rfl (h1 _ _ _)
    | other => exact ⟨rfl, rfl⟩
    | doomed => exact absurd rfl h3

/-- C126. A step makes at most one call, to the sink, or one poll of the connection, and then nothing given to the sink waits for a flush. -/
theorem c126_one_call (W : Surroundings L) (n : Nat) :
    (∃ c, (after W (n + 1)).log = (after W n).log ++ [c] ∧ listened (after W (n + 1)).x = listened (after W n).x ∧
      ∃ r left a, (after W n).x.pc = .send r left a) ∨
    (after W (n + 1)).log = (after W n).log ∧ listened (after W n).x ≤ listened (after W (n + 1)).x ∧
      listened (after W (n + 1)).x ≤ listened (after W n).x + 1 ∧
      (listened (after W (n + 1)).x ≠ listened (after W n).x → handed (after W n).log = flushed (after W n).log ∧
        ((∃ b, (after W n).x.pc = .read b) ∨ ∃ h d, (after W n).x.pc = .polling h d)) := by
  have hg := c126_nothing_held_back W n
  rw [after]
  generalize after W n = s at hg
  obtain ⟨⟨pc, r, m, o, tr⟩, b, h, log⟩ := s
  have key : ∀ (hp : ∀ rp left a, pc ≠ .send rp left a),
      Around.step W (n + 1) ⟨⟨pc, r, m, o, tr⟩, b, h, log⟩ = ⟨Env.step W.others (n + 1) ⟨pc, r, m, o, tr⟩, b, h, log⟩ := by
    intro hp
    cases pc <;> first | rfl | exact absurd rfl (hp _ _ _)
  by_cases hp : ∃ rp left a, pc = .send rp left a
  · obtain ⟨rp, left, a, rfl⟩ := hp
    have hres : ∀ x : Env.State L, listened (Env.resume x a) = x.reader.polls := by intro x; cases a <;> rfl
    simp only [Around.step]
    rcases Sending.next rp.1 ⟨b, h, left⟩ with ⟨_ | l | _ | p, y⟩ <;> dsimp only
    · cases W.pollReady (n + 1) <;> exact .inl ⟨_, rfl, rfl, _, _, _, rfl⟩
    · cases W.startSend (n + 1) <;> exact .inl ⟨_, rfl, rfl, _, _, _, rfl⟩
    · cases W.pollFlush (n + 1)
      · exact .inl ⟨_, rfl, hres _, _, _, _, rfl⟩
      · exact .inl ⟨_, rfl, rfl, _, _, _, rfl⟩
      · exact .inl ⟨_, rfl, rfl, _, _, _, rfl⟩
    · exact .inr ⟨rfl, Nat.le_refl _, by simp [listened, Env.State.input], fun h => absurd rfl h⟩
  · have hp' : ∀ rp left a, pc ≠ .send rp left a := fun rp left a h => hp ⟨rp, left, a, h⟩
    rw [key hp']
    obtain ⟨h1, h2⟩ := Env.step_listened (E := W.others) (n + 1) ⟨pc, r, m, o, tr⟩
    refine .inr ⟨rfl, h1, h2, fun hl => ?_⟩
    have hw := Env.polls_where hl
    refine ⟨(hg hp' ?_ ?_).1, hw⟩ <;> rcases hw with ⟨b, hw⟩ | ⟨_, _, hw⟩ <;> rw [show pc = _ from hw] <;> simp

/-- C126. The session panics of itself only in three cases, as in C125. -/
theorem c126_panics (W : Surroundings L) (n : Nat) (p : Panic) (hn : (after W n).x.pc = .over (.panic p)) :
    ∃ k, k < n ∧
      ((∃ r left a, (after W k).x.pc = .send r left a ∧ ¬ Sendable r) ∨
      (∃ h d, (after W k).x.pc = .handle h d ∧ W.others.handleMail (k + 1) = .ready .complete ∧ h.getLast? ≠ some (.polled (.ready none))) ∨
      (∃ h d dec, (after W k).x.pc = .handle h d ∧ W.others.handleMail (k + 1) = .ready (.done dec) ∧
        ∀ b, h.getLast? ≠ some (.completed b))) := by
  induction n with
  | zero => exact absurd hn (Env.speak_not_over _ _ _ _ _)
  | succ n ih =>
    by_cases he : ∃ q, (after W n).x.pc = .over q
    · obtain ⟨q, he⟩ := he
      have : (after W (n + 1)).x.pc = (after W n).x.pc := by
        rw [after]
        simp only [Around.step, he]
        exact congrArg Env.State.pc (Env.ended_step (E := W.others) (x := (after W n).x) _ (by rw [he]; trivial)) |>.trans he
      rw [this] at hn
      obtain ⟨k, h1, h2⟩ := ih hn
      exact ⟨k, by omega, h2⟩
    · refine ⟨n, by omega, ?_⟩
      have hr := rel_after W n
      have hd := Env.due_after (E := withWriter W (writer W)) [] n
      have hsound := Env.sound_after (E := withWriter W (writer W)) [] n
      rw [after] at hn
      generalize after W n = s at hr hn he
      generalize Env.after (withWriter W (writer W)) [] n = e at hr hd hsound
      cases hr with
      | doomed _ => exact absurd ⟨_, rfl⟩ he
      | @send rp left a b hh cs r m o tr log ht =>
        refine .inl ⟨rp, left, a, rfl, fun hs => ?_⟩
        unfold Env.Due at hd
        obtain ⟨_, _, h2, _⟩ := hd
        have h2 := h2.1 hs
        rcases next_cases ht with ⟨e, y, hx, hc⟩ | ⟨l, b', left', c, cs', hx, rfl, rfl, hb, ht'⟩ | ⟨l, left', c, hx, rfl, hb⟩ | ⟨hx, rfl, rfl⟩
        · rcases hc with ⟨rfl, c, cs', rfl, hb⟩ | ⟨l, c, c', cs', rfl, rfl, hl, hb⟩
          · exact h2 (lines_bad hb)
          · exact h2 (lines_bad_later (lines_bad hb))
        · simp only [Around.step, hx] at hn
          cases hw : W.startSend (n + 1) <;> rw [hw] at hn <;> cases hn
        · simp only [Around.step, hx] at hn
          cases hw : W.pollReady (n + 1) <;> rw [hw] at hn <;> cases hn
        · simp only [Around.step, hx] at hn
          cases hw : W.pollFlush (n + 1) <;> rw [hw] at hn <;> first | cases hn | (cases a <;> cases hn)
      | @other pc r m o tr log hp =>
        have h2 : Around.step W (n + 1) ⟨⟨pc, r, m, o, tr⟩, none, none, log⟩ =
            ⟨Env.step W.others (n + 1) ⟨pc, r, m, o, tr⟩, none, none, log⟩ := by
          cases pc <;> first | rfl | exact absurd rfl (hp _ _ _)
        rw [h2] at hn
        have h3 := step_out (W := W) (f := writer W) (n + 1) ⟨pc, r, m, o, tr⟩ (handed log) hp
        by_cases hend : Env.Ended pc
        · rw [Env.ended_step (n + 1) hend] at hn
          exact absurd ⟨_, hn⟩ he
        · exact Env.panic_step (E := withWriter W (writer W)) (t := n + 1) (x := ⟨pc, r, m, handed log, tr⟩) hd hsound hend
            ((congrArg Env.State.pc h3).trans hn)

/-- C126. The session ends, if what it awaits is answered at some time, its input is finite, and no mail handler works for ever. -/
theorem c126_ends (W : Surroundings L) (hR : Answering W) (N : Nat) (he : ∀ i, N ≤ i → W.others.source i = .ready none)
    (hH : ∀ n, ∃ m, n ≤ m ∧ ¬ HandlerWorks (after W m).x) :
    ∃ n, (after W n).x.pc = .unwound ∨ ∃ r, (after W n).x.pc = .over r := by
  have hR' : Responsive (withWriter W (writer W)) := ⟨writer_answers hR, hR.newMail, hR.filterFrom, hR.filterTo, hR.filterData⟩
  obtain ⟨n, hn⟩ := c125_ends (withWriter W (writer W)) [] hR' N he (fun n => by
    obtain ⟨m, h1, h2⟩ := hH n
    refine ⟨m, h1, fun h => h2 ?_⟩
    have hr := rel_after W m
    generalize after W m = s at hr
    generalize Env.after (withWriter W (writer W)) [] m = e at hr h
    cases hr with
    | send => rcases h with ⟨_, _, h⟩ | ⟨_, _, h⟩ <;> cases h
    | other => exact h
    | doomed hd => rcases h with ⟨_, _, h⟩ | ⟨_, _, h⟩ <;> (dsimp only at h; subst h; exact hd.elim))
  refine ⟨n, ?_⟩
  have hr := rel_after W n
  generalize after W n = s at hr
  generalize Env.after (withWriter W (writer W)) [] n = e at hr hn
  cases hr with
  | send => rcases hn with h | ⟨_, h⟩ <;> cases h
  | other => exact hn
  | doomed _ => exact .inr ⟨_, rfl⟩

/-- C126. The calls are those that `SendAll` and `With` make (Model/SinkPoll.lean), on any sink: with enough of them, as many as a poll
needs, they end as the poll does, with the sink in the same state, after the same calls, and, if it is to be polled again, the same lines
buffered and held. -/
theorem c126_poll {σ : Type} (R : RawSink σ) (code : ReplyCode) (x : SendAll σ) :
    ∃ k y, callByCall R code k ⟨x.buffered, x.writer.state, x.left⟩ x.writer.sink =
        some ((x.poll R code).1, y, (x.poll R code).2.writer.sink) ∧
      ((x.poll R code).1 = .pending → y = ⟨(x.poll R code).2.buffered, (x.poll R code).2.writer.state, (x.poll R code).2.left⟩) := by
  obtain ⟨b, left, w⟩ := x
  cases b with
  | none => exact loop_agrees R code left w
  | some l =>
    obtain ⟨k, y, h⟩ := try_agrees R code (loop_agrees R code left) l w
    exact ⟨k, y, h⟩

theorem Around.over_stays {W : Surroundings L} {n : Nat} (h : (after W n).x.pc = .unwound ∨ ∃ r, (after W n).x.pc = .over r) (k : Nat) :
    after W (n + k) = after W n := by
  induction k with
  | zero => rfl
  | succ k ih =>
    rw [← Nat.add_assoc, after, ih]
    generalize after W n = s at h
    obtain ⟨⟨pc, r, m, o, tr⟩, b, hh, log⟩ := s
    rcases h with h | ⟨r, h⟩ <;> (dsimp only at h; subst h; rfl)

/-- C126. The session unwinds only if the environment panics in that step, without a call to the sink; and when it has unwound or is over,
nothing happens any more. -/
theorem c126_over (W : Surroundings L) :
    (∀ n, (after W (n + 1)).x.pc = .unwound → (after W n).x.pc ≠ .unwound →
      PanicsAt W.others (n + 1) ∧ (after W (n + 1)).log = (after W n).log) ∧
    (∀ n k, ((after W n).x.pc = .unwound ∨ ∃ r, (after W n).x.pc = .over r) → after W (n + k) = after W n) := by
  refine ⟨fun n h hn => ?_, fun n k h => Around.over_stays h k⟩
  rw [after] at h ⊢
  generalize after W n = s at h hn
  obtain ⟨⟨pc, r, m, o, tr⟩, b, hh, log⟩ := s
  by_cases hp : ∃ rp left a, pc = .send rp left a
  · obtain ⟨rp, left, a, rfl⟩ := hp
    exfalso
    simp only [Around.step] at h
    rcases hx : Sending.next rp.1 ⟨b, hh, left⟩ with ⟨_ | l | _ | p, y⟩ <;> rw [hx] at h <;> dsimp only at h
    · cases hw : W.pollReady (n + 1) <;> rw [hw] at h <;> cases h
    · cases hw : W.startSend (n + 1) <;> rw [hw] at h <;> cases h
    · cases hw : W.pollFlush (n + 1) <;> rw [hw] at h <;> first | cases h | (cases a <;> cases h)
    · cases h
  · have key : Around.step W (n + 1) ⟨⟨pc, r, m, o, tr⟩, b, hh, log⟩ = ⟨Env.step W.others (n + 1) ⟨pc, r, m, o, tr⟩, b, hh, log⟩ := by
      cases pc <;> first | rfl | exact absurd ⟨_, _, _, rfl⟩ hp
    rw [key] at h ⊢
    exact ⟨(Env.unwinds h hn).1, rfl⟩

theorem Around.callsSink_iff {s : State L} : callsSink s = true ↔
    ∃ r left a, s.x.pc = .send r left a ∧ ∀ p, (Sending.next r.1 ⟨s.buffered, s.held, left⟩).1 ≠ .panic p := by
  obtain ⟨⟨pc, r, m, o, tr⟩, b, h, log⟩ := s
  cases pc with
  | send rp left a =>
    simp only [callsSink]
    refine ⟨fun h' => ⟨rp, left, a, rfl, fun p hp => ?_⟩, ?_⟩
    · rw [hp] at h'; cases h'
    · rintro ⟨_, _, _, h1, h2⟩
      cases h1
      revert h2
      cases (Sending.next rp.1 ⟨b, h, left⟩).1 <;> intro h2 <;> first | rfl | exact absurd rfl (h2 _)
  | _ => exact ⟨fun h => (nomatch h), fun ⟨_, _, _, h, _⟩ => (nomatch h)⟩

/-- C126. If the sink may panic as well: the session goes as if it did not, up to the first call in which it does; then it unwinds, with
everything else as it was, and nothing happens any more. -/
theorem c126_sink_panics (W : Surroundings L) (bursts : Nat → Bool) (n : Nat) :
    let spared := fun k => bursts (k + 1) = true → ∀ r left a, (after W k).x.pc = .send r left a →
        ∃ p, (Sending.next r.1 ⟨(after W k).buffered, (after W k).held, left⟩).1 = .panic p
    (afterOr W bursts n = after W n ∧ ∀ k, k < n → spared k) ∨
    ∃ k, k < n ∧ (∀ j, j < k → spared j) ∧ bursts (k + 1) = true ∧
      (∃ r left a, (after W k).x.pc = .send r left a ∧
        ∀ p, (Sending.next r.1 ⟨(after W k).buffered, (after W k).held, left⟩).1 ≠ .panic p) ∧
      afterOr W bursts n = { after W k with x := { (after W k).x with pc := .unwound } } := by
  intro spared
  induction n with
  | zero => exact .inl ⟨rfl, fun k h => absurd h (Nat.not_lt_zero k)⟩
  | succ n ih =>
    rcases ih with ⟨ih, hk⟩ | ⟨k, h1, h0, h2, h3, ih⟩
    · rw [afterOr, ih, stepOr]
      by_cases hb : (bursts (n + 1) && callsSink (after W n)) = true
      · rw [if_pos hb]
        rw [Bool.and_eq_true] at hb
        exact .inr ⟨n, Nat.lt_succ_self n, hk, hb.1, Around.callsSink_iff.1 hb.2, rfl⟩
      · rw [if_neg hb]
        refine .inl ⟨rfl, fun k h1 h2 r left a hp => ?_⟩
        by_cases hkn : k = n
        · subst hkn
          refine Classical.byContradiction fun hno => hb ?_
          rw [h2, Bool.true_and]
          exact Around.callsSink_iff.2 ⟨r, left, a, hp, fun p hpp => hno ⟨p, hpp⟩⟩
        · exact hk k (by omega) h2 r left a hp
    · refine .inr ⟨k, by omega, h0, h2, h3, ?_⟩
      rw [afterOr, ih, stepOr, if_neg (by simp [callsSink])]
      rfl

/-- C126. So with a sink that panics, too, the sink is used as the trait demands, and has flushed the lines of the replies given. -/
theorem c126_sink_panics_kept (W : Surroundings L) (bursts : Nat → Bool) (n : Nat) :
    SinkContract (afterOr W bursts n).log ∧
    flushed (afterOr W bursts n).log = (repliesOf (afterOr W bursts n).x.trace).flatMap Server.wire := by
  rcases c126_sink_panics W bursts n with ⟨h, _⟩ | ⟨k, _, _, _, _, h⟩ <;> rw [h]
  · exact ⟨c126_contract W n, c126_flushed W n⟩
  · exact ⟨c126_contract W k, c126_flushed W k⟩

/-! ### Examples -/

/-- The environment of `c125_example`, with a sink that has room now and then. -/
def busySink : Surroundings exampleIp where
  others := busy
  pollReady t := if t % 3 = 0 then .pending else .ready
  startSend _ := .ok
  pollFlush t := if t % 3 = 1 then .ready else .pending

/-- C126: its session takes the mail, and dies of the last command; it uses all kinds of calls. -/
theorem c126_example :
    (after busySink 70).x.pc matches .unwound ∧ listened (after busySink 70).x = 2 ∧
    ((after busySink 70).x.trace.filter isDeed).length = 11 ∧ (flushed (after busySink 70).log).length = 5 ∧
    (after busySink 70).log.length = 22 ∧ (after busySink 1).log.length = 1 := by
  decide +kernel

/-- C126: the hypotheses of `c126_session`, `c126_transfer` and `c126_ends` hold of it. -/
theorem c126_example_ends : Answering busySink ∧ (∀ i, 2 ≤ i → busySink.others.source i = .ready none) ∧
    (∀ n, ∃ m, n ≤ m ∧ ¬ HandlerWorks (after busySink m).x) ∧ ∀ k, StaysEnded busySink.others.source k := by
  obtain ⟨⟨_, h2, h3, h4, h5⟩, h6, _⟩ := c125_example_ends
  refine ⟨⟨fun n => ⟨3 * n + 1, by omega, ?_⟩, fun n => ⟨3 * n + 1, by omega, ?_⟩, h2, h3, h4, h5⟩, h6, fun n => ?_, fun k i j hij hj hi => ?_⟩
  · simp only [busySink]; rw [if_neg (by omega)]; simp
  · simp only [busySink]; rw [if_pos (by omega)]; simp
  · refine ⟨70 + n, by omega, ?_⟩
    have h : (after busySink 70).x.pc = .unwound := by
      have h := c126_example.1
      revert h
      cases (after busySink 70).x.pc <;> intro h <;> first | rfl | cases h
    rw [Around.over_stays (.inl h)]
    rintro (⟨_, _, h'⟩ | ⟨_, _, h'⟩) <;> rw [h] at h' <;> cases h'
  · match j with
    | 0 => omega
    | 1 => rw [show i = 0 by omega] at hi; cases hi
    | j + 2 => rfl

/-- C126: a sink that fails when it is given the second line of the banner, though it takes it. -/
theorem c126_example_fails :
    let W : Surroundings exampleIp := { busySink with
      startSend := fun t => if t < 4 then .ok else .errAccepted
      others := { busy with say := fun _ _ => some (⟨220⟩, List.replicate 700 (120 : UInt8)) } }
    (after W 9).x.pc matches .over .err ∧ (handed (after W 9).log).length = 2 ∧ flushed (after W 9).log = [] ∧ (after W 9).log.length = 5 ∧
    repliesOf (after W 9).x.trace = [] := by
  decide +kernel

/-- C126: the case in which the server panics a line earlier: the second line of the banner has a byte that cannot be sent, and is built
before the first is handed over. A writer that takes lines gets the first. -/
theorem c126_example_early :
    let W : Surroundings exampleIp := { busySink with
      others := { busy with say := fun _ _ => some (⟨220⟩, List.replicate 506 (120 : UInt8) ++ [13]) } }
    (after W 5).x.pc matches .over (.panic .buildUnwrap) ∧ (after W 5).log = [.ready .ready] ∧
    (Env.after (withWriter W (fun _ => .ok)) [] 5).pc matches .over (.panic .buildUnwrap) ∧
    (Env.after (withWriter W (fun _ => .ok)) [] 5).out.length = 1 := by
  decide +kernel

/-- C126: a sink that panics in the seventh step, if it is called there, as it is; in the third step it is not. -/
theorem c126_example_bursts :
    (afterOr busySink (fun t => t == 3 || t == 7) 6).log.length = 2 ∧ (afterOr busySink (fun t => t == 3 || t == 7) 6).x.pc matches .send _ _ _ ∧
    (afterOr busySink (fun t => t == 3 || t == 7) 9).x.pc matches .unwound ∧ (afterOr busySink (fun t => t == 3 || t == 7) 9).log.length = 2 := by
  decide +kernel

end Verif
