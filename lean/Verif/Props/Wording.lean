import Verif.Proofs.Wording
import Verif.Props.Task
import Verif.Props.Sequence
import Verif.Props.Callbacks
import Verif.Props.Await
/-
C124: methods that word the replies and do more than that, or panic.
-/
namespace Verif
open Spec Server Wording
variable {L : IpLib} {S U : Type}

/-- C124. Whatever the methods that word the replies do to the configuration, and whether they panic or not: there is a
configuration that goes by nothing but the number of callbacks that have returned, whose replies are any fixed texts that can be sent,
such that the session is at every point where a session of that configuration, with a writer that never fails, is at some point:
the same place in the code, the same connection data, open transaction and input to come, and the same history, a reply given by the
same method. Each callback of that configuration does what the callback of the given configuration does, with what it finds when it
is called. -/
theorem c124_same (E : Wordy L S U) (words : Hook → Reply) (hwords : ∀ h, Sendable (words h)) (incoming : List (SrcEv Bytes))
    (outgoing : BSink) (s : S) (u : U) :
    ∃ g : Nat → S,
      (∀ n, AtCallback (after E incoming outgoing s u n).1 →
        (after E incoming outgoing s u n).2.cfg = g (returns (after E incoming outgoing s u n).2.trace)) ∧
      ∀ n, ∃ m, SameMoment E words (after E incoming outgoing s u n) (Task.after (replay E (fun k _ => g k) words) incoming ⟨[], []⟩ (0, s) u m) := by
  obtain ⟨g, hg⟩ := cfg_exists E incoming outgoing s u
  refine ⟨g, hg, fun n => ?_⟩
  obtain ⟨m, hm⟩ := rel_after (P := fun _ _ => True) (pick := fun k _ => g k) hwords (fun _ _ _ _ => trivial) (fun _ => trivial)
    incoming outgoing s u (fun n hn _ _ => hg n hn) n
  exact ⟨m, rel_point hm⟩

theorem Wording.story_deeds {said : Hook → Reply → Prop} {words : Hook → Reply} {t t' : List (Ev L)} (h : Story said words t t') :
    t.filter isDeed = t'.filter isDeed := by
  induction h with
  | nil => rfl
  | cons k _ ih =>
    cases k with
    | same e _ => rw [List.filter_cons, List.filter_cons, ih]
    | reply r r' _ => simpa [List.filter_cons, isDeed] using ih

/-- C124. So what holds of the deeds of all sessions of configurations whose replies have no effects, at every point, holds at every
point of every session. -/
theorem c124_transfer (P : List (Ev L) → Prop)
    (h : ∀ (C : Config L (Nat × S) U) (incoming : List (SrcEv Bytes)) (s : S) (u : U) (n : Nat),
      P ((Task.after C incoming ⟨[], []⟩ (0, s) u n).2.trace.filter isDeed))
    (E : Wordy L S U) (incoming : List (SrcEv Bytes)) (outgoing : BSink) (s : S) (u : U) (n : Nat) :
    P ((after E incoming outgoing s u n).2.trace.filter isDeed) := by
  obtain ⟨g, _, hg⟩ := c124_same E (fun _ => (⟨250⟩, [])) (fun _ _ h => by cases h) incoming outgoing s u
  obtain ⟨m, _, _, _, _, t, ht, h1⟩ := hg n
  have : (after E incoming outgoing s u n).2.trace.filter isDeed = t.filter isDeed := by
    rcases h1 with h1 | ⟨_, h1⟩ <;> rw [h1]
    simp [isDeed]
  rw [this, story_deeds ht]
  exact h _ _ _ _ _

namespace Wording
variable {said : Hook → Reply → Prop} {words : Hook → Reply}

theorem story_left {t a' b' : List (Ev L)} (h : Story said words t (a' ++ b')) :
    ∃ a b, t = a ++ b ∧ Story said words a a' ∧ Story said words b b' := by
  induction a' generalizing t with
  | nil => exact ⟨[], t, rfl, .nil, h⟩
  | cons e a' ih =>
    cases h with
    | cons k h =>
      obtain ⟨a, b, rfl, h1, h2⟩ := ih h
      exact ⟨_ :: a, b, rfl, .cons k h1, h2⟩

theorem story_right {t' a b : List (Ev L)} (h : Story said words (a ++ b) t') :
    ∃ a' b', t' = a' ++ b' ∧ Story said words a a' ∧ Story said words b b' := by
  induction a generalizing t' with
  | nil => exact ⟨[], t', rfl, .nil, h⟩
  | cons e a ih =>
    cases h with
    | cons k h =>
      obtain ⟨a', b', rfl, h1, h2⟩ := ih h
      exact ⟨_ :: a', b', rfl, .cons k h1, h2⟩

theorem story_transaction {t t' : List (Ev L)} (h : Story said words t t') (ht : ∀ e ∈ t', InTransaction e) : ∀ e ∈ t, InTransaction e := by
  induction h with
  | nil => exact ht
  | @cons e e' t t' k _ ih =>
    intro x hx
    rcases List.mem_cons.1 hx with rfl | hx
    · have := ht e' (List.mem_cons_self ..)
      cases k with
      | same => exact this
      | reply => trivial
    · exact ih (fun e he => ht e (List.mem_cons_of_mem _ he)) x hx

theorem story_envelope {t t' : List (Ev L)} (h : Story said words t t') (m : MailMeta L) : t.foldl envelopeStep m = t'.foldl envelopeStep m := by
  induction h generalizing m with
  | nil => rfl
  | cons k _ ih =>
    cases k with
    | same e => exact ih _
    | reply => exact ih _

end Wording

/-- C124. In particular the mail handler is called only after `filter_from`, `filter_to` and `filter_data` have decided about
this transaction, with the envelope they have left. -/
theorem c124_envelope (E : Wordy L S U) (incoming : List (SrcEv Bytes)) (outgoing : BSink) (s : S) (u : U) (n : Nat)
    (pre post : List (Ev L)) (m : MailMeta L) (ht : (after E incoming outgoing s u n).2.trace = pre ++ .handleMail m :: post) :
    ∃ before sender sender' since envelope r,
      pre = before ++ .filterFrom sender sender' .accept :: since ++ [.filterData envelope m .accept, .reply r] ∧
      (∀ e ∈ since, InTransaction e) ∧ envelope = since.foldl envelopeStep ⟨sender', []⟩ := by
  obtain ⟨g, _, hg⟩ := c124_same E (fun _ => (⟨250⟩, [])) (fun _ _ h => by cases h) incoming outgoing s u
  obtain ⟨j, _, _, _, _, t, hst, h1⟩ := hg n
  obtain ⟨post', hpost⟩ : ∃ post', t = pre ++ .handleMail m :: post' := by
    rcases h1 with h1 | ⟨_, h1⟩
    · exact ⟨post, by rw [← h1, ht]⟩
    · rw [ht] at h1
      rcases List.eq_nil_or_concat post with rfl | ⟨q, e, rfl⟩
      · have := (List.append_inj' (t₁ := [Ev.handleMail m]) (t₂ := [Ev.writeError]) h1 rfl).2
        cases this
      · refine ⟨q, ?_⟩
        rw [List.concat_eq_append, ← List.cons_append, ← List.append_assoc] at h1
        exact (List.append_inj' h1 rfl).1.symm
  rw [hpost] at hst
  obtain ⟨pre', q', hq, k1, k2⟩ := story_right hst
  cases k2 with
  | cons k2 k3 =>
  cases k2 with
  | same =>
  obtain ⟨rest, hc⟩ := (c101_cut (replay E (fun k _ => g k) fun _ => (⟨250⟩, [])) incoming ⟨[], []⟩ (0, s) u j).1
  rw [hq, List.append_assoc] at hc
  obtain ⟨b', f, f', si', env, s', e1, e2, e3⟩ := c44_replay _ j incoming ⟨[], []⟩ (0, s) u pre' _ m hc.symm
  rw [e1] at k1
  obtain ⟨p1, p2, rfl, k4, k5⟩ := story_left k1
  obtain ⟨b, p3, rfl, k6, k7⟩ := story_left k4
  cases k7 with
  | cons k7 k8 =>
  cases k7 with
  | same =>
  cases k5 with
  | cons k9 k10 =>
  cases k9 with
  | same =>
  cases k10 with
  | cons k11 k12 =>
  cases k12
  cases k11 with
  | same _ hx => cases hx
  | reply r _ _ => exact ⟨b, f, f', _, env, r, rfl, story_transaction k8 e2, by rw [story_envelope k8]; exact e3⟩

theorem Wording.leave_running (k : Nat) (act : List HObs → HAct S U) (n : Nat) (h : List HObs) (d : DStream)
    (hr : runHandler (fun h => HAct.leave k (act h)) n h d = .running) : runHandler act n h d = .running := by
  induction n generalizing h d with
  | zero => rfl
  | succ n ih =>
    simp only [runHandler] at hr ⊢
    cases ha : act h with
    | done dec s u => rw [ha] at hr; cases hr
    | poll => rw [ha] at hr; exact ih _ _ hr
    | complete =>
      rw [ha] at hr
      simp only [HAct.leave] at hr ⊢
      cases hd : d.complete with
      | error p => rw [hd] at hr; cases hr
      | ok o => rw [hd] at hr; exact ih _ _ hr

/-- C124. Whatever these methods do, the session ends, if no mail handler polls for ever. -/
theorem c124_ends (E : Wordy L S U) (hR : ∀ s u m, Returns (E.callbacks.handleMail s u m)) (incoming : List (SrcEv Bytes))
    (outgoing : BSink) (s : S) (u : U) :
    ∃ n, (∃ r w, after E incoming outgoing s u n = (.at (.over r), w)) ∨ ∃ w, after E incoming outgoing s u n = (.unwound, w) := by
  obtain ⟨g, hg⟩ := cfg_exists E incoming outgoing s u
  have hR' : ∀ k u m, Returns ((replay E (fun k _ => g k) fun _ => (⟨250⟩, [])).handleMail k u m) := by
    intro k u m rd
    obtain ⟨n, hn⟩ := hR (g k.1) u m rd
    exact ⟨n, fun h => hn (leave_running (k.1 + 1) _ n _ _ h)⟩
  obtain ⟨n0, ⟨r, w⟩, h1, h2⟩ := c53_terminates _ hR' incoming ⟨[], []⟩ (0, s) u
  obtain ⟨m, hm⟩ := ((c101_same _ incoming ⟨[], []⟩ (0, s) u).1 r w).2 ⟨h1, n0, h2 n0 (Nat.le_refl _)⟩
  obtain ⟨n, hn⟩ := rel_far (P := fun _ _ => True) (pick := fun k _ => g k) (words := fun _ => (⟨250⟩, [])) (fun _ _ h => by cases h)
    (fun _ _ _ _ => trivial) (fun _ => trivial) incoming outgoing s u (fun n hn _ _ => hg n hn) m
  have he : Ended (after E incoming outgoing s u n).1 := by
    rcases hn with hn | ⟨j, hj, hr⟩
    · exact hn
    · obtain ⟨i, rfl⟩ := Nat.exists_eq_add_of_le hj
      have hj' : Task.after (replay E (fun k _ => g k) fun _ => (⟨250⟩, [])) incoming ⟨[], []⟩ (0, s) u (m + i) = (.over r, w) := by
        unfold Task.after at hm ⊢
        rw [Task.steps_add, hm, Task.steps_over]
      rw [hj'] at hr
      have := hr.1
      revert this
      generalize (after E incoming outgoing s u n).1 = p
      intro h
      cases h with
      | over => trivial
  refine ⟨n, ?_⟩
  rcases hx : after E incoming outgoing s u n with ⟨p, v⟩
  rw [hx] at he
  cases p with
  | unwound => exact .inr ⟨v, rfl⟩
  | «at» p => cases p <;> first | exact he.elim | exact .inl ⟨_, _, rfl⟩

/-- C124. As long as the session is not over, what is on the wire is what was there before, then the replies given, and then, if
a reply is being sent, some of its lines. -/
theorem c124_wire (E : Wordy L S U) (incoming : List (SrcEv Bytes)) (outgoing : BSink) (s : S) (u : U) (n : Nat)
    (hn : ∀ r, (after E incoming outgoing s u n).1 ≠ .at (.over r)) :
    ∃ part, (after E incoming outgoing s u n).2.writer.out =
        outgoing.out ++ (repliesOf (after E incoming outgoing s u n).2.trace).flatMap wire ++ part ∧
      (part ≠ [] → ∃ r left a, (after E incoming outgoing s u n).1 = .at (.send r left a) ∧ (Sendable r → part <+: wire r)) := by
  have hi := inv_after (E := E) incoming outgoing s u n
  rcases hx : after E incoming outgoing s u n with ⟨pc, w⟩
  rw [hx] at hi hn
  have plain : Task.Settled outgoing.out w → ∃ part, w.writer.out = outgoing.out ++ (repliesOf w.trace).flatMap wire ++ part ∧
      (part ≠ [] → ∃ r left a, pc = .at (.send r left a) ∧ (Sendable r → part <+: wire r)) := fun h =>
    ⟨[], by rw [List.append_nil, ← outputOf_flat]; exact h, fun h => absurd rfl h⟩
  cases pc with
  | unwound => exact plain hi
  | «at» pc =>
  cases pc with
  | read => exact plain hi.1
  | send r left a =>
    obtain ⟨_, part, h1, h2, h3⟩ := hi
    refine ⟨part, by rw [← outputOf_flat]; exact h1, fun _ => ⟨r, left, a, rfl, fun hs => ?_⟩⟩
    obtain ⟨ls, hls⟩ := Option.ne_none_iff_exists'.1 (h2.1 hs)
    rw [← h3 ls hls]
    exact List.prefix_append _ _
  | newMail => exact plain hi.1
  | filterFrom => exact plain hi.1
  | filterTo => exact plain hi.1
  | filterData => exact plain hi.1
  | handle => exact plain hi.1
  | over r => exact absurd rfl (hn r)

/-- C124. If such a method panics, nothing of the reply it should have given is written, and nothing happens any more: no callback
is called, nothing is read, nothing is written. -/
theorem c124_unwound (E : Wordy L S U) (incoming : List (SrcEv Bytes)) (outgoing : BSink) (s : S) (u : U) (n : Nat)
    (hn : (after E incoming outgoing s u n).1 = .unwound) :
    (after E incoming outgoing s u n).2.writer.out =
      outgoing.out ++ (repliesOf (after E incoming outgoing s u n).2.trace).flatMap wire ∧
    (∀ k, after E incoming outgoing s u (n + k) = after E incoming outgoing s u n) ∧
    (∀ m, n = m + 1 → (after E incoming outgoing s u m).1 ≠ .unwound →
      (after E incoming outgoing s u n).2.writer = (after E incoming outgoing s u m).2.writer) := by
  refine ⟨?_, fun k => ?_, ?_⟩
  · have hi := inv_after (E := E) incoming outgoing s u n
    rcases hx : after E incoming outgoing s u n with ⟨pc, w⟩
    rw [hx] at hi hn
    cases hn
    rw [← outputOf_flat]; exact hi
  · induction k with
    | zero => rfl
    | succ k ih =>
      show step E (after E incoming outgoing s u (n + k)) = _
      rw [ih]
      exact ended_step (by rw [hn]; trivial)
  · rintro m rfl hm
    have hs : after E incoming outgoing s u (m + 1) = step E (after E incoming outgoing s u m) := rfl
    rw [hs] at hn ⊢
    generalize after E incoming outgoing s u m = x at hn hm
    obtain ⟨pc, w⟩ := x
    cases pc with
    | unwound => exact absurd rfl hm
    | «at» pc =>
    cases pc with
    | read b =>
      simp only [step] at hn ⊢
      split at hn
      · cases hn
      · split at hn
        · split at hn
          · exact (dispatch_trace _ _).2
          · cases hn
        · cases hn
      · split at hn <;> cases hn
    | send r left a => cases hn
    | newMail f => cases hn
    | filterFrom f =>
      simp only [step] at hn ⊢
      split
      · exact (speak_trace _ _ _).2
      · rfl
    | filterTo t m =>
      simp only [step] at hn ⊢
      split
      · exact (speak_trace _ _ _).2
      · rfl
    | filterData m =>
      simp only [step] at hn ⊢
      split
      · exact (speak_trace _ _ _).2
      · rfl
    | handle act h d =>
      simp only [step] at hn ⊢
      split
      · rfl
      · split <;> rfl
      · split
        · split
          · exact (speak_trace _ _ _).2
          · rfl
        · rfl
    | over r => rfl

/-- The state and the record of a session that satisfies `P` are kept. -/
theorem Wording.keeps_speak {E : Wordy L S U} {P : S → Prop} (hP : Preserves E P) (h : Hook) (a : Task.After L) {w : World L S U}
    (hw : P w.cfg) : P (speak E h a w).2.cfg := by
  unfold speak
  have := hP.say h w.cfg hw
  split <;> (rename_i e; rw [e] at this; exact this)

/-- The mail handler at work was called with a configuration that satisfies `P`, and so was a method that panicked. -/
def Wording.FromP (E : Wordy L S U) (P : S → Prop) : PC L S U → Prop
  | .at (.handle act _ _) => ∃ s u m, P s ∧ act = E.callbacks.handleMail s u m
  | .unwound => ∃ h s, P s ∧ (E.say h s).1 = none
  | _ => True

theorem Wording.fromP_reply {E : Wordy L S U} {P : S → Prop} (r : Reply) (a : Task.After L) : FromP E P (.at (Task.reply r a)) := by
  obtain ⟨cs, _, hr⟩ := Task.reply_cases (S := S) (U := U) r a
  rw [hr]; trivial

theorem Wording.fromP_speak {E : Wordy L S U} {P : S → Prop} (h : Hook) (a : Task.After L) {w : World L S U} (hw : P w.cfg) :
    FromP E P (speak E h a w).1 := by
  unfold speak
  split
  · exact fromP_reply _ _
  · rename_i e
    exact ⟨h, w.cfg, hw, by rw [e]⟩

theorem Wording.keeps_step {E : Wordy L S U} {P : S → Prop} (hP : Preserves E P) {x : State L S U} (hx : P x.2.cfg) (hf : FromP E P x.1) :
    P (step E x).2.cfg ∧ FromP E P (step E x).1 := by
  obtain ⟨pc, w⟩ := x
  cases pc with
  | unwound => exact ⟨hx, hf⟩
  | «at» pc =>
  cases pc with
  | read b =>
    simp only [step]
    split
    · exact ⟨hx, trivial⟩
    · split
      · split
        · unfold dispatch
          split <;> (try split) <;> (try split)
          all_goals first
            | exact ⟨hx, trivial⟩
            | exact ⟨keeps_speak hP _ _ hx, fromP_speak _ _ hx⟩
        · exact ⟨hx, trivial⟩
      · exact ⟨hx, trivial⟩
    · split
      · exact ⟨hx, trivial⟩
      · exact ⟨hx, trivial⟩
  | send r left a =>
    cases left with
    | nil =>
      simp only [step, Task.step]
      rcases flush_cases w with ⟨wr, h, ho⟩ | ⟨wr, h, ho⟩ <;> simp only [h]
      · cases a with
        | next => exact ⟨hx, trivial⟩
        | setMail => exact ⟨hx, trivial⟩
        | handle m => exact ⟨hx, _, _, _, hx, rfl⟩
      · exact ⟨hx, trivial⟩
    | cons t ts =>
      simp only [step, Task.step]
      cases ReplyLine.build r.1 (if ts.isEmpty then .yes else .no) t with
      | error e => exact ⟨hx, trivial⟩
      | ok l =>
        simp only
        rcases writeLine_cases l w with ⟨wr, h, ho⟩ | ⟨wr, h, ho⟩ <;> simp only [h] <;> exact ⟨hx, trivial⟩
  | newMail f => exact ⟨hP.newMail _ hx, trivial⟩
  | filterFrom f =>
    have := hP.filterFrom w.cfg w.conn f hx
    simp only [step]
    split <;> (rename_i e; rw [e] at this)
    · exact ⟨keeps_speak hP _ _ this, fromP_speak _ _ this⟩
    · exact ⟨this, fromP_reply _ _⟩
  | filterTo t m =>
    have := hP.filterTo w.cfg w.conn t m hx
    simp only [step]
    split <;> (rename_i e; rw [e] at this)
    · exact ⟨keeps_speak hP _ _ this, fromP_speak _ _ this⟩
    · exact ⟨this, fromP_reply _ _⟩
  | filterData m =>
    have := hP.filterData w.cfg w.conn m hx
    simp only [step]
    split <;> (rename_i e; rw [e] at this)
    · exact ⟨keeps_speak hP _ _ this, fromP_speak _ _ this⟩
    · exact ⟨this, fromP_reply _ _⟩
  | handle act h d =>
    obtain ⟨s, u, m, hs, rfl⟩ := hf
    simp only [step]
    split
    · exact ⟨hx, s, u, m, hs, rfl⟩
    · split
      · exact ⟨hx, trivial⟩
      · exact ⟨hx, s, u, m, hs, rfl⟩
    · rename_i dec s' u' e
      have := hP.handleMail s u m h dec s' u' hs e
      split
      · split
        · exact ⟨keeps_speak hP _ _ this, fromP_speak _ _ this⟩
        · exact ⟨this, fromP_reply _ _⟩
      · exact ⟨hx, trivial⟩
  | over r => exact ⟨hx, hf⟩

theorem Wording.keeps_after {E : Wordy L S U} {P : S → Prop} (hP : Preserves E P) (incoming : List (SrcEv Bytes)) (outgoing : BSink)
    (s : S) (u : U) (hs : P s) (n : Nat) :
    P (after E incoming outgoing s u n).2.cfg ∧ FromP E P (after E incoming outgoing s u n).1 := by
  induction n with
  | zero => exact ⟨keeps_speak hP _ _ hs, fromP_speak _ _ hs⟩
  | succ n ih => exact keeps_step hP ih.1 ih.2

/-- C124. What no method of the configuration destroys holds at every point of the session; and the session unwinds only if a
method that words a reply panics in a configuration of which it holds. -/
theorem c124_keeps (E : Wordy L S U) (P : S → Prop) (hP : Preserves E P) (incoming : List (SrcEv Bytes)) (outgoing : BSink)
    (s : S) (u : U) (hs : P s) (n : Nat) :
    P (after E incoming outgoing s u n).2.cfg ∧
    ((after E incoming outgoing s u n).1 = .unwound → ∃ h c, P c ∧ (E.say h c).1 = none) := by
  obtain ⟨h1, h2⟩ := keeps_after hP incoming outgoing s u hs n
  exact ⟨h1, fun h => by rw [h] at h2; exact h2⟩

theorem Wording.pure_speak {E : Wordy L S U} {C : Config L S U} (hE : Effectless E C) (h : Hook) (a : Task.After L) (w : World L S U) :
    speak E h a w = here (Task.reply (says C h w.cfg) a, w) := by
  unfold speak
  rw [hE.say]
  rfl

theorem Wording.pure_step {E : Wordy L S U} {C : Config L S U} (hE : Effectless E C) (x : Task.State L S U) :
    step E (here x) = here (Task.step C x) := by
  obtain ⟨pc, w⟩ := x
  obtain ⟨c1, c2, c3, c4, c5⟩ := hE.callbacks
  cases pc with
  | read b =>
    simp only [step, here, Task.step]
    rcases w.reader.pollNext with ⟨p, s⟩
    cases p with
    | pending => rfl
    | ready o =>
      cases o with
      | none => dsimp only; cases s.prepend b <;> rfl
      | some pkt =>
        dsimp only
        cases findCrlf (b ++ pkt) with
        | none => rfl
        | some pos =>
          dsimp only
          cases s.prepend ((b ++ pkt).drop (pos + 2)) with
          | none => rfl
          | some s' =>
            simp only [dispatch, Task.dispatch]
            cases (Command.parse ((b ++ pkt).take (pos + 2)) : Except ParseErr (Command L)) with
            | error e => exact pure_speak hE .commandUnrecognized _ _
            | ok c =>
              cases c
              case mail f ps => dsimp only; split <;> first | rfl | exact pure_speak hE .alreadyInMail _ _
              case rcpt t ps => dsimp only; cases w.mail <;> first | rfl | exact pure_speak hE .rcptBeforeMail _ _
              case data =>
                dsimp only
                cases w.mail with
                | none => exact pure_speak hE .dataBeforeMail _ _
                | some m => dsimp only; split <;> first | rfl | exact pure_speak hE .dataBeforeRcpt _ _
              all_goals exact pure_speak hE .commandUnimplemented _ _
  | send r left a =>
    cases left with
    | nil =>
      simp only [step, here, Task.step]
      rcases flush_cases w with ⟨wr, h, ho⟩ | ⟨wr, h, ho⟩ <;> simp only [h]
      cases a with
      | next => rfl
      | setMail => rfl
      | handle m => simp only [Task.resume, c5]
    | cons t ts =>
      simp only [step, here, Task.step]
  | newMail f => simp only [step, here, Task.step, c1]
  | filterFrom f =>
    simp only [step, here, Task.step, c2]
    rcases C.filterFrom w.cfg w.conn f with ⟨d, f', s, u⟩
    cases d with
    | accept => exact pure_speak hE .mailOkay _ _
    | reject => rfl
  | filterTo t m =>
    simp only [step, here, Task.step, c3]
    rcases C.filterTo w.cfg w.conn t m with ⟨d, t', m', s, u⟩
    cases d with
    | accept => exact pure_speak hE .rcptOkay _ _
    | reject => rfl
  | filterData m =>
    simp only [step, here, Task.step, c4]
    rcases C.filterData w.cfg w.conn m with ⟨d, m', s, u⟩
    cases d with
    | accept => exact pure_speak hE .dataOkay _ _
    | reject => rfl
  | handle act h d =>
    simp only [step, here, Task.step]
    cases act h with
    | poll => rfl
    | complete => dsimp only; cases d.complete <;> rfl
    | done dec s u =>
      dsimp only
      split
      · cases dec with
        | accept => exact pure_speak hE .mailAccepted _ _
        | reject => rfl
      · rfl
  | over r => rfl

/-- C124. With reply methods that have no effects, the session is the one of the other theorems, answer by answer. -/
theorem c124_pure (E : Wordy L S U) (C : Config L S U) (hE : Effectless E C) (incoming : List (SrcEv Bytes)) (outgoing : BSink)
    (s : S) (u : U) (n : Nat) :
    (after E incoming outgoing s u n).1 = .at (Task.after C incoming outgoing s u n).1 ∧
    (after E incoming outgoing s u n).2 = (Task.after C incoming outgoing s u n).2 := by
  have : after E incoming outgoing s u n = here (Task.after C incoming outgoing s u n) := by
    induction n with
    | zero => exact pure_speak hE .welcomeBanner _ _
    | succ n ih =>
      show step E _ = _
      rw [ih, pure_step hE]
      unfold Task.after
      rw [Task.steps_succ]
  rw [this]
  exact ⟨rfl, rfl⟩

/-! ### The mailbox -/

namespace Wording
variable {said : Hook → Reply → Prop} {words : Hook → Reply}

theorem accepted_skip (e : Ev L) (he : ∀ m, e ≠ .handleMail m) (t : List (Ev L)) : acceptedMails (e :: t) = acceptedMails t := by
  cases e <;> first | rfl | exact absurd rfl (he _)

theorem acknowledged_skip (e : Ev L) (he : ∀ m, e ≠ .handleMail m) (t : List (Ev L)) : acknowledgedMails (e :: t) = acknowledgedMails t := by
  cases e <;> first | rfl | exact absurd rfl (he _)

theorem accepted_pass (m : MailMeta L) (e : Ev L) (he : e ≠ .handled .accept) (t : List (Ev L)) :
    acceptedMails (.handleMail m :: e :: t) = acceptedMails (e :: t) := by
  cases e with
  | handled d => cases d <;> first | rfl | exact absurd rfl he
  | _ => rfl

theorem acknowledged_pass (m : MailMeta L) (e : Ev L) (he : e ≠ .handled .accept) (t : List (Ev L)) :
    acknowledgedMails (.handleMail m :: e :: t) = acknowledgedMails (e :: t) := by
  cases e with
  | handled d => cases d <;> first | rfl | exact absurd rfl he
  | _ => rfl

theorem acknowledged_hold (m : MailMeta L) (e : Ev L) (he : ∀ r, e ≠ .reply r) (t : List (Ev L)) :
    acknowledgedMails (.handleMail m :: .handled .accept :: e :: t) = acknowledgedMails (e :: t) := by
  cases e <;> first | rfl | exact absurd rfl (he _)

theorem story_accepted {t t' : List (Ev L)} (h : Story said words t t') : acceptedMails t = acceptedMails t' := by
  induction h with
  | nil => rfl
  | @cons e e' t t' k h ih =>
    cases k with
    | reply r r' => exact ih
    | same _ he =>
      by_cases hm : ∃ m, e = .handleMail m
      · obtain ⟨m, rfl⟩ := hm
        cases h with
        | nil => rfl
        | @cons f f' t t' k h =>
          cases k with
          | reply r r' => exact ih
          | same _ hf =>
            by_cases ha : f = .handled .accept
            · subst ha
              exact congrArg (m :: ·) ih
            · rw [accepted_pass m f ha, accepted_pass m f ha]; exact ih
      · rw [accepted_skip e (fun m h => hm ⟨m, h⟩), accepted_skip e (fun m h => hm ⟨m, h⟩)]; exact ih

theorem story_acknowledged {t t' : List (Ev L)} (h : Story said words t t') : acknowledgedMails t = acknowledgedMails t' := by
  induction h with
  | nil => rfl
  | @cons e e' t t' k h ih =>
    cases k with
    | reply r r' => exact ih
    | same _ he =>
      by_cases hm : ∃ m, e = .handleMail m
      · obtain ⟨m, rfl⟩ := hm
        cases h with
        | nil => rfl
        | @cons f f' t t' k h =>
          cases k with
          | reply r r' => exact ih
          | same _ hf =>
            by_cases ha : f = .handled .accept
            · subst ha
              cases h with
              | nil => rfl
              | @cons f f' t t' k h =>
                cases k with
                | reply r r' => exact congrArg (m :: ·) ih
                | same _ hf =>
                  have hr : ∀ r, f ≠ .reply r := by rintro r rfl; cases hf
                  rw [acknowledged_hold m f hr, acknowledged_hold m f hr]; exact ih
            · rw [acknowledged_pass m f ha, acknowledged_pass m f ha]; exact ih
      · rw [acknowledged_skip e (fun m h => hm ⟨m, h⟩), acknowledged_skip e (fun m h => hm ⟨m, h⟩)]; exact ih

theorem accepted_failed (t : List (Ev L)) : acceptedMails (t ++ [.writeError]) = acceptedMails t := by
  fun_induction acceptedMails t with
  | case1 => rfl
  | case2 m evs ih => exact congrArg (m :: ·) ih
  | case3 e evs hne ih =>
    by_cases hm : ∃ m, e = .handleMail m
    · obtain ⟨m, rfl⟩ := hm
      cases evs with
      | nil => rfl
      | cons f evs =>
        have hf : f ≠ .handled .accept := by rintro rfl; exact hne m evs rfl rfl
        exact (accepted_pass m f hf _).trans ih
    · exact (accepted_skip e (fun m h => hm ⟨m, h⟩) _).trans ih

theorem acknowledged_failed (t : List (Ev L)) : acknowledgedMails (t ++ [.writeError]) = acknowledgedMails t := by
  fun_induction acknowledgedMails t with
  | case1 => rfl
  | case2 m r evs ih => exact congrArg (m :: ·) ih
  | case3 e evs hne ih =>
    by_cases hm : ∃ m, e = .handleMail m
    · obtain ⟨m, rfl⟩ := hm
      cases evs with
      | nil => rfl
      | cons f evs =>
        by_cases hf : f = .handled .accept
        · subst hf
          cases evs with
          | nil => rfl
          | cons f evs =>
            have hr : ∀ r, f ≠ .reply r := by rintro r rfl; exact hne m r evs rfl rfl
            exact (acknowledged_hold m f hr _).trans ih
        · exact (acknowledged_pass m f hf _).trans ih
    · exact (acknowledged_skip e (fun m h => hm ⟨m, h⟩) _).trans ih

theorem story_no_failure {t t' : List (Ev L)} (h : Story said words t t') : Ev.writeError ∉ t' := by
  induction h with
  | nil => exact List.not_mem_nil
  | cons k _ ih =>
    intro hx
    rcases List.mem_cons.1 hx with hx | hx
    · subst hx
      cases k with
      | same _ h => cases h
    · exact ih hx

end Wording

open Classical in
/-- C124. Acknowledged mail is in the mailbox, at every point of every session whose mail handler reads the whole message, if the
methods that word the replies, whatever else they do, leave the mailbox alone: the mailbox holds what it held and the mails that
were accepted, in order, each with the envelope its handler was given and the text as it was received. Every mail whose acceptance
the client was told is there. At most one is there of which the client was not told, and then its acceptance is the last thing that
happened, but for the error of a writer that would not take the reply. -/
theorem c124_mailbox (E : Wordy L S U) (V : Verdict L S U) (box : S → List (Stored L))
    (hV : ∀ s u m, WholeMessage (E.callbacks.handleMail s u m) (V s u m)) (hb : Keeps E.callbacks V box)
    (hsay : ∀ h s, box (E.say h s).2 = box s)
    (incoming : List (SrcEv Bytes)) (outgoing : BSink) (s : S) (u : U) (n : Nat) :
    ∃ stored, box (after E incoming outgoing s u n).2.cfg = box s ++ stored ∧
      stored.map (·.1) = acceptedMails (after E incoming outgoing s u n).2.trace ∧ Sent L (evBytes incoming) stored ∧
      (stored.map (·.1) = acknowledgedMails (after E incoming outgoing s u n).2.trace ∨
        ∃ m evs e, stored.map (·.1) = acknowledgedMails (after E incoming outgoing s u n).2.trace ++ [m] ∧
          (after E incoming outgoing s u n).2.trace = evs ++ [.handleMail m, .handled .accept] ++ e ∧
          (e = [] ∨ e = [.writeError])) := by
  obtain ⟨g, hg⟩ := cfg_exists E incoming outgoing s u
  let pick : Nat → S → S := fun k c => if box (g k) = box c then g k else c
  have hpick : ∀ k c, box (pick k c) = box c := by
    intro k c
    show box (if box (g k) = box c then g k else c) = box c
    split
    · assumption
    · rfl
  let words : Hook → Reply := fun _ => (⟨250⟩, [])
  have hV' : ∀ k u m, WholeMessage ((replay E pick words).handleMail k u m) (fun text ok =>
      ((V (pick k.1 k.2) u m text ok).1, (k.1 + 1, (V (pick k.1 k.2) u m text ok).2.1), (V (pick k.1 k.2) u m text ok).2.2)) := by
    intro k u m
    have h := hV (pick k.1 k.2) u m
    exact ⟨fun x hx => by simp only [replay, h.reads x hx, HAct.leave], fun x hx => by simp only [replay, h.completes x hx, HAct.leave],
      fun x ok hx => by simp only [replay, h.returns x ok hx, HAct.leave]⟩
  have hb' : Keeps (replay E pick words) (fun k u m text ok =>
      ((V (pick k.1 k.2) u m text ok).1, (k.1 + 1, (V (pick k.1 k.2) u m text ok).2.1), (V (pick k.1 k.2) u m text ok).2.2))
      (fun k => box k.2) := by
    refine ⟨fun k => ?_, fun k u f => ?_, fun k u t m => ?_, fun k u m => ?_, ?_, ?_⟩
    · exact (hb.newMail _).trans (hpick _ _)
    · exact (hb.from_ _ _ _).trans (hpick _ _)
    · exact (hb.to _ _ _ _).trans (hpick _ _)
    · exact (hb.data _ _ _).trans (hpick _ _)
    · intro k u m text ok s' u' h
      rcases hv : V (pick k.1 k.2) u m text ok with ⟨d, s1, u1⟩
      simp only [hv] at h
      cases h
      rw [hb.accept _ _ _ _ _ _ _ hv, hpick]
    · intro k u m text ok r s' u' h
      rcases hv : V (pick k.1 k.2) u m text ok with ⟨d, s1, u1⟩
      simp only [hv] at h
      cases h
      rw [hb.reject _ _ _ _ _ _ _ _ hv, hpick]
  obtain ⟨j, hr⟩ := rel_after (P := fun s c => box s = box c) (pick := pick) (words := words) (E := E) (fun _ _ h => by cases h)
    (fun h s c hc => (hsay h s).trans hc) (fun _ => rfl) incoming outgoing s u
    (fun n hn c hc => by
      rw [hg n hn] at hc ⊢
      exact (if_pos hc).symm) n
  obtain ⟨stored, a1, a2, a3, a4⟩ := c103_mailbox _ _ _ hV' hb' incoming ⟨[], []⟩ (0, s) u j
  have hcfg : box (after E incoming outgoing s u n).2.cfg = box (Task.after (replay E pick words) incoming ⟨[], []⟩ (0, s) u j).2.cfg.2 := by
    rcases hr.2 with h | ⟨_, w, h, _, _, _, _, h2⟩
    · exact h.sync
    · rw [h2]; exact h.sync
  obtain ⟨_, _, _, _, t, ht, h1⟩ := rel_point hr
  have hend : ∃ e, (after E incoming outgoing s u n).2.trace = t ++ e ∧ (e = [] ∨ e = [.writeError]) := by
    rcases h1 with h1 | ⟨_, h1⟩
    · exact ⟨[], by rw [h1, List.append_nil], .inl rfl⟩
    · exact ⟨_, h1, .inr rfl⟩
  obtain ⟨e, he, he'⟩ := hend
  have hacc : acceptedMails (after E incoming outgoing s u n).2.trace =
      acceptedMails (Task.after (replay E pick words) incoming ⟨[], []⟩ (0, s) u j).2.trace := by
    rw [← story_accepted ht, he]
    rcases he' with rfl | rfl
    · rw [List.append_nil]
    · exact accepted_failed t
  have hack : acknowledgedMails (after E incoming outgoing s u n).2.trace =
      acknowledgedMails (Task.after (replay E pick words) incoming ⟨[], []⟩ (0, s) u j).2.trace := by
    rw [← story_acknowledged ht, he]
    rcases he' with rfl | rfl
    · rw [List.append_nil]
    · exact acknowledged_failed t
  refine ⟨stored, by rw [hcfg]; exact a1, by rw [hacc]; exact a2, a3, ?_⟩
  rw [hack]
  rcases a4 with a4 | ⟨m, evs, e1, b1, b2, b3⟩
  · exact .inl a4
  · right
    have hno := story_no_failure ht
    have he1 : e1 = [] := by
      rcases b3 with rfl | rfl
      · rfl
      · exact absurd (by rw [b2]; simp) hno
    subst he1
    rw [List.append_nil] at b2
    rw [b2] at ht
    obtain ⟨p, q, rfl, _, k2⟩ := story_left ht
    refine ⟨m, p, e, b1, ?_, he'⟩
    rw [he]
    congr 2
    cases k2 with
    | cons k2 k3 =>
    cases k2 with
    | same =>
    cases k3 with
    | cons k3 k4 =>
    cases k3 with
    | same =>
    cases k4
    rfl

/-! ### Examples -/

/-- The configuration of the project's tests, with a count of the replies it has worded, which it says in each of them; it has had
enough at the third command it does not recognize. -/
def countingTest : Wordy exampleIp (MailBox exampleIp × Nat × Nat) Unit where
  callbacks :=
    let C := testConfig exampleIp
    { C with
      newMail := fun s => (C.newMail s.1, s.2)
      filterFrom := fun s u f => match C.filterFrom s.1 u f with | (d, f', s', u') => (d, f', (s', s.2), u')
      filterTo := fun s u t m => match C.filterTo s.1 u t m with | (d, t', m', s', u') => (d, t', m', (s', s.2), u')
      filterData := fun s u m => match C.filterData s.1 u m with | (d, m', s', u') => (d, m', (s', s.2), u')
      handleMail := fun s u m h => match C.handleMail s.1 u m h with
        | .poll => .poll | .complete => .complete | .done d s' u' => .done d (s', s.2) u'
      welcomeBanner := fun s => C.welcomeBanner s.1, mailOkay := fun s => C.mailOkay s.1, rcptOkay := fun s => C.rcptOkay s.1
      dataOkay := fun s => C.dataOkay s.1, mailAccepted := fun s => C.mailAccepted s.1, alreadyInMail := fun s => C.alreadyInMail s.1
      rcptBeforeMail := fun s => C.rcptBeforeMail s.1, dataBeforeRcpt := fun s => C.dataBeforeRcpt s.1
      dataBeforeMail := fun s => C.dataBeforeMail s.1, commandUnimplemented := fun s => C.commandUnimplemented s.1
      commandUnrecognized := fun s => C.commandUnrecognized s.1 }
  say h s :=
    if h = .commandUnrecognized then
      (if s.2.2 = 2 then none else some (⟨500⟩, List.replicate (s.2.1 + 1) (120 : UInt8)), s.1, s.2.1 + 1, s.2.2 + 1)
    else (some ((says (testConfig exampleIp) h s.1).1, List.replicate (s.2.1 + 1) (120 : UInt8)), s.1, s.2.1 + 1, s.2.2)

/-- A session with one mail and three commands nobody knows. -/
def countingInput : Bytes := b!"oops\r\nMAIL FROM:<a@b>\r\nRCPT TO:<c@d>\r\noops\r\nDATA\r\nhello\r\n.\r\noops\r\nQUIT\r\n"

/-- C124: a session whose replies differ each time, and that dies of the third command it does not recognize. The mail is accepted, and what
is on the wire are the seven replies. -/
theorem c124_example :
    (after countingTest [.pkt countingInput] ⟨[], []⟩ ([], 0, 0) () 40).1 matches .unwound ∧
    (after countingTest [.pkt countingInput] ⟨[], []⟩ ([], 0, 0) () 40).2.cfg.1.length = 1 ∧
    (after countingTest [.pkt countingInput] ⟨[], []⟩ ([], 0, 0) () 40).2.cfg.2 = (8, 3) ∧
    (repliesOf (after countingTest [.pkt countingInput] ⟨[], []⟩ ([], 0, 0) () 40).2.trace).map (fun r => (r.1.code, r.2.length)) =
      [(220, 1), (500, 2), (250, 3), (250, 4), (500, 5), (354, 6), (250, 7)] ∧
    returns (after countingTest [.pkt countingInput] ⟨[], []⟩ ([], 0, 0) () 40).2.trace = 5 := by
  decide +kernel

/-- C124: the hypotheses of `c124_keeps` hold, of the count of refused commands and replies. -/
theorem c124_example_keeps : Preserves countingTest (fun s => s.2.2 ≤ s.2.1) := by
  refine ⟨?_, ?_, ?_, ?_, ?_, ?_⟩
  · intro h s hs
    simp only [countingTest]
    split <;> simp only <;> omega
  · intro s hs; exact hs
  · intro s u f hs; exact hs
  · intro s u t m hs; exact hs
  · intro s u m hs; exact hs
  · intro s u m h d s' u' hs he
    simp only [countingTest] at he
    split at he <;> cases he
    exact hs

/-- C124: the hypotheses of `c124_mailbox` hold of the example, whose reply methods have effects and panic. -/
theorem c124_example_mailbox :
    (∀ s u m, WholeMessage (countingTest.callbacks.handleMail s u m) (fun text ok =>
      ((testVerdict exampleIp s.1 u m text ok).1, ((testVerdict exampleIp s.1 u m text ok).2.1, s.2),
        (testVerdict exampleIp s.1 u m text ok).2.2))) ∧
    Keeps countingTest.callbacks (fun s u m text ok =>
      ((testVerdict exampleIp s.1 u m text ok).1, ((testVerdict exampleIp s.1 u m text ok).2.1, s.2),
        (testVerdict exampleIp s.1 u m text ok).2.2)) (fun s => testBox s.1) ∧
    (∀ h s, testBox (countingTest.say h s).2.1 = testBox s.1) ∧
    (acknowledgedMails (after countingTest [.pkt countingInput] ⟨[], []⟩ ([], 0, 0) () 40).2.trace).length = 1 := by
  refine ⟨fun s u m => ?_, ⟨fun s => rfl, fun s u f => rfl, fun s u t m => rfl, fun s u m => rfl, ?_, ?_⟩, fun h s => ?_, by decide +kernel⟩
  · have h := test_whole (L := exampleIp) s.1 u m
    exact ⟨fun x hx => by simp only [countingTest, h.reads x hx], fun x hx => by simp only [countingTest, h.completes x hx],
      fun x ok hx => by simp only [countingTest, h.returns x ok hx]⟩
  · intro s u m text ok s' u' h
    rcases hv : testVerdict exampleIp s.1 u m text ok with ⟨d, s1, u1⟩
    simp only [hv] at h
    cases h
    exact c103_example_keeps.accept _ _ _ _ _ _ _ hv
  · intro s u m text ok r s' u' h
    rcases hv : testVerdict exampleIp s.1 u m text ok with ⟨d, s1, u1⟩
    simp only [hv] at h
    cases h
    exact c103_example_keeps.reject _ _ _ _ _ _ _ _ hv
  · simp only [countingTest]
    split <;> rfl

/-- C124: the hypothesis of `c124_ends` holds. -/
theorem c124_example_returns : ∀ s u m, Returns (countingTest.callbacks.handleMail s u m) := by
  intro s u m
  have h := test_whole (L := exampleIp) s.1 u m
  refine Spec.Conforming.returns' ⟨fun x hx => ?_, fun x hx => ?_, fun x ok hx => ?_⟩
  · simp only [countingTest, h.reads x hx]
  · simp only [countingTest, h.completes x hx]
  · exact ⟨_, _, _, by simp only [countingTest, h.returns x ok hx]; rfl⟩

/-- C124: the hypothesis of `c124_pure` holds of every configuration without effects. -/
theorem c124_example_pure (C : Config L S U) : Effectless { callbacks := C, say := fun h s => (some (says C h s), s) } C :=
  ⟨fun _ _ => rfl, ⟨rfl, rfl, rfl, rfl, rfl⟩⟩

end Verif
