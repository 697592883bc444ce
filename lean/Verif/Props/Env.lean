import Verif.Proofs.Env
import Verif.Props.Wording
/-
C125: the session in an environment that does what it likes.
-/
namespace Verif
open Spec Env AnySource
variable {L : IpLib}

/-- C125. Whatever the connection, the writer, the callbacks and the reply methods do, and whenever: what the callbacks have answered
can be written down beforehand, such that the session is at every point where a session of the configuration that plays this script is at
some point, on the input that has been read, with a writer that never fails: the same place in the code, the same open transaction,
the same rest of the input, and the same record, with each reply given on the same occasion. (The connection must stay at its end
once it has reported it; C121 is about others.) -/
theorem c125_same (E : Environment L) (words : Hook → Reply) (hwords : ∀ h, Sendable (words h)) (out : List Bytes) :
    ∃ T : Script L, ∀ n, StaysEnded E.source (listened (after E out n)) →
      ∃ k, SameTime E words (after E out n)
        (Task.after (played T words) (heard E.source 0 (listened (after E out n))) ⟨[], []⟩ 0 () k) := by
  obtain ⟨T, hT⟩ := fits_exists E out
  refine ⟨T, fun n hs => ?_⟩
  obtain ⟨N, h1, h2, h3, h4, _⟩ := split_heard hs
  obtain ⟨k, hk⟩ := rel_after (words := words) h2 hwords out hT n h3
  rw [List.append_nil] at hk
  rw [h4]
  exact ⟨k, rel_same hk h1⟩

/-- C125. So what holds of the deeds of all sessions of configurations, at every point, holds here. -/
theorem c125_transfer (P : List (Ev L) → Prop)
    (h : ∀ (C : Config L Nat Unit) (incoming : List (SrcEv Bytes)) (n : Nat),
      P ((Task.after C incoming ⟨[], []⟩ 0 () n).2.trace.filter isDeed))
    (E : Environment L) (out : List Bytes) (n : Nat) (hs : StaysEnded E.source (listened (after E out n))) :
    P ((after E out n).trace.filter isDeed) := by
  obtain ⟨T, hT⟩ := c125_same E (fun _ => (⟨250⟩, [])) (fun _ _ h => by cases h) out
  obtain ⟨k, _, _, _, t, ht, h1⟩ := hT n hs
  have : (after E out n).trace.filter isDeed = t.filter isDeed := by
    rcases h1 with h1 | ⟨_, h1⟩ <;> rw [h1]
    simp [isDeed]
  rw [this, Wording.story_deeds ht]
  exact h _ _ _

/-- C125. In any environment, whatever its connection does, the mail handler is called only after `filter_from`, `filter_to` and
`filter_data` have decided about this transaction, with the envelope they have left, and after the reply to DATA. -/
theorem c125_envelope (E : Environment L) (out : List Bytes) (n : Nat) (pre post : List (Ev L)) (m : MailMeta L)
    (ht : (after E out n).trace = pre ++ .handleMail m :: post) :
    ∃ before sender sender' since envelope r,
      pre = before ++ .filterFrom sender sender' .accept :: since ++ [.filterData envelope m .accept, .reply r] ∧
      (∀ e ∈ since, InTransaction e) ∧ envelope = since.foldl envelopeStep ⟨sender', []⟩ :=
  (kept_after out n).1 pre post m ht

/-- What is on the wire where a session is not broken off. -/
theorem Env.wire_there {E : Environment L} {out : List Bytes} {n : Nat}
    (hb : ¬ ((after E out n).pc = .over .err ∨ (after E out n).pc = .over (.panic .buildUnwrap))) :
    ∃ part, (after E out n).out = out ++ (repliesOf (after E out n).trace).flatMap Server.wire ++ part ∧
      (part ≠ [] → ∃ r left a, (after E out n).pc = .send r left a ∧ (Sendable r → part <+: Server.wire r)) := by
  have hd := due_after (E := E) out n
  have plain : (after E out n).out = out ++ Server.outputOf (after E out n).trace →
      ∃ part, (after E out n).out = out ++ (repliesOf (after E out n).trace).flatMap Server.wire ++ part ∧
        (part ≠ [] → ∃ r left a, (after E out n).pc = .send r left a ∧ (Sendable r → part <+: Server.wire r)) :=
    fun h => ⟨[], by rw [List.append_nil, ← outputOf_flat]; exact h, fun h => absurd rfl h⟩
  unfold Due at hd
  cases hx : (after E out n).pc with
  | send r left a =>
    rw [hx] at hd
    obtain ⟨part, h1, h2, h3⟩ := hd
    refine ⟨part, by rw [← outputOf_flat]; exact h1, fun _ => ⟨r, left, a, rfl, fun hs => ?_⟩⟩
    obtain ⟨ls, hls⟩ := Option.ne_none_iff_exists'.1 (h2.1 hs)
    rw [← h3 ls hls]
    exact List.prefix_append _ _
  | over e =>
    rw [hx] at hd
    rcases hd with rfl | rfl | hd
    · exact absurd (.inl hx) hb
    · exact absurd (.inr hx) hb
    · rw [hx] at plain; exact plain hd
  | _ => rw [hx] at hd plain; exact plain hd

/-- C125. What is on the wire is what was there before, then the replies given, and then, if a reply is being sent, or the session has
ended in one, some of its lines. -/
theorem c125_wire (E : Environment L) (out : List Bytes) (n : Nat) :
    ∃ part, (after E out n).out = out ++ (repliesOf (after E out n).trace).flatMap Server.wire ++ part ∧
      (part ≠ [] →
        ((∃ r left a, (after E out n).pc = .send r left a) ∨ (after E out n).pc = .over .err ∨
          (after E out n).pc = .over (.panic .buildUnwrap)) ∧
        ∃ k r left a, k ≤ n ∧ (after E out k).pc = .send r left a ∧ repliesOf (after E out k).trace = repliesOf (after E out n).trace ∧
          (Sendable r → part <+: Server.wire r)) := by
  by_cases hb : (after E out n).pc = .over .err ∨ (after E out n).pc = .over (.panic .buildUnwrap)
  · obtain ⟨k, hk⟩ : ∃ k, k < n ∧ ¬ Ended (after E out k).pc ∧ after E out (k + 1) = after E out n := by
      induction n with
      | zero => rcases hb with hb | hb <;> exact absurd hb (speak_not_over _ _ _ _ _)
      | succ n ih =>
        by_cases he : Ended (after E out n).pc
        · have hs : after E out (n + 1) = after E out n := ended_step _ he
          rw [hs] at hb ⊢
          obtain ⟨k, h1, h2⟩ := ih hb
          exact ⟨k, by omega, h2⟩
        · exact ⟨n, by omega, he, rfl⟩
    obtain ⟨hk, he, hs⟩ := hk
    have hb' := hb
    rw [← hs] at hb'
    obtain ⟨r, left, a, hp⟩ := only_sends he hb'
    obtain ⟨h1, part, h2, h3⟩ := due_broken (E := E) (t := k + 1) (due_after out k) hp (fun r left a h => by
      rcases hb' with hb | hb <;> rw [show (step E (k + 1) (after E out k)).pc = _ from hb] at h <;> cases h) hb'
    rw [show step E (k + 1) (after E out k) = after E out n from hs] at h1 h2
    exact ⟨part, by rw [← outputOf_flat]; exact h2, fun _ => ⟨.inr hb, k, r, left, a, by omega, hp, h1.symm, h3⟩⟩
  · obtain ⟨part, h1, h2⟩ := wire_there hb
    refine ⟨part, h1, fun hp => ?_⟩
    obtain ⟨r, left, a, h3, h4⟩ := h2 hp
    exact ⟨.inl ⟨r, left, a, h3⟩, n, r, left, a, Nat.le_refl _, h3, rfl, h4⟩

/-- C125. The connection is polled at most once at a time, and only while all replies given are on the wire, and nothing else. -/
theorem c125_polls (E : Environment L) (out : List Bytes) (n : Nat) :
    listened (after E out n) ≤ listened (after E out (n + 1)) ∧ listened (after E out (n + 1)) ≤ listened (after E out n) + 1 ∧
    (listened (after E out (n + 1)) ≠ listened (after E out n) →
      (after E out n).out = out ++ (repliesOf (after E out n).trace).flatMap Server.wire ∧
      ((∃ b, (after E out n).pc = .read b) ∨ ∃ h d, (after E out n).pc = .polling h d)) := by
  refine ⟨(step_listened _ _).1, (step_listened _ _).2, fun h => ?_⟩
  have hp := polls_where h
  refine ⟨?_, hp⟩
  obtain ⟨part, h1, h2⟩ := wire_there (E := E) (out := out) (n := n) (by
    rintro (h | h) <;> rcases hp with ⟨b, hp⟩ | ⟨hh, d, hp⟩ <;> rw [hp] at h <;> cases h)
  by_cases hpart : part = []
  · rw [h1, hpart, List.append_nil]
  · obtain ⟨r, left, a, h3, _⟩ := h2 hpart
    rcases hp with ⟨b, hp⟩ | ⟨hh, d, hp⟩ <;> rw [hp] at h3 <;> cases h3

/-- C125. The session unwinds only if the environment panics; then nothing of what is due is written, and nothing happens any more, nor does
it once the session is over. -/
theorem c125_over (E : Environment L) (out : List Bytes) :
    ((Env.init E out).pc = .unwound → E.say .welcomeBanner 0 = none ∧ (Env.init E out).out = out) ∧
    (∀ n, (after E out (n + 1)).pc = .unwound → (after E out n).pc ≠ .unwound →
      PanicsAt E (n + 1) ∧ (after E out (n + 1)).out = (after E out n).out) ∧
    (∀ n k, ((after E out n).pc = .unwound ∨ ∃ r, (after E out n).pc = .over r) → after E out (n + k) = after E out n) := by
  refine ⟨fun h => ?_, fun n h hn => unwinds h hn, fun n k h => after_ended (by rcases h with h | ⟨r, h⟩ <;> rw [h] <;> trivial) k⟩
  unfold Env.init speak at h ⊢
  cases hs : E.say .welcomeBanner 0 with
  | none => exact ⟨rfl, rfl⟩
  | some r =>
    rw [hs] at h
    exfalso
    dsimp only at h
    obtain ⟨r', left, hr⟩ := reply_sends (L := L) r .next
    rw [hr] at h
    cases h

/-- C125. The session panics of itself only in three cases: it is to send a reply that cannot be sent; the mail handler calls
`complete()` though the stream has not just reported its end; the mail handler returns, and `complete()` was not the last thing it did. -/
theorem c125_panics (E : Environment L) (out : List Bytes) (n : Nat) (p : Panic) (hn : (after E out n).pc = .over (.panic p)) :
    ∃ k, k < n ∧
      ((∃ r left a, (after E out k).pc = .send r left a ∧ ¬ Sendable r) ∨
      (∃ h d, (after E out k).pc = .handle h d ∧ E.handleMail (k + 1) = .ready .complete ∧ h.getLast? ≠ some (.polled (.ready none))) ∨
      (∃ h d dec, (after E out k).pc = .handle h d ∧ E.handleMail (k + 1) = .ready (.done dec) ∧
        ∀ b, h.getLast? ≠ some (.completed b))) := by
  induction n with
  | zero => exact absurd hn (speak_not_over _ _ _ _ _)
  | succ n ih =>
    by_cases he : Ended (after E out n).pc
    · have hs : after E out (n + 1) = after E out n := ended_step _ he
      rw [hs] at hn
      obtain ⟨k, h1, h2⟩ := ih hn
      exact ⟨k, by omega, h2⟩
    · exact ⟨n, by omega, panic_step (due_after out n) (sound_after out n) he hn⟩

/-- C125. The session ends, if what it awaits is answered at some time, its input is finite, and no mail handler works for ever. -/
theorem c125_ends (E : Environment L) (out : List Bytes) (hR : Responsive E) (N : Nat) (he : ∀ i, N ≤ i → E.source i = .ready none)
    (hH : ∀ n, ∃ m, n ≤ m ∧ ¬ HandlerWorks (after E out m)) :
    ∃ n, (after E out n).pc = .unwound ∨ ∃ r, (after E out n).pc = .over r := by
  obtain ⟨n, hn⟩ := ends hR he hH
  refine ⟨n, ?_⟩
  cases hx : (after E out n).pc <;> rw [hx] at hn <;> first | exact hn.elim | exact .inl rfl | exact .inr ⟨_, rfl⟩

/-- C125. A handler that polls its stream gets an answer, if the input is finite. -/
theorem c125_answered (E : Environment L) (out : List Bytes) (N : Nat) (he : ∀ i, N ≤ i → E.source i = .ready none) (n : Nat)
    (h : List HObs) (d : DS) (hp : (after E out n).pc = .polling h d) :
    ∃ k a d', (after E out (n + k)).pc = .handle (h ++ [.polled a]) d' := by
  have key : ∀ c n d, (after E out n).pc = .polling h d → stock E.source N (after E out n) ≤ c →
      ∃ k a d', (after E out (n + k)).pc = .handle (h ++ [.polled a]) d' := by
    intro c
    induction c with
    | zero =>
      intro n d hp hc
      rcases polling_step (n + 1) hp with ⟨a, d', h1⟩ | ⟨d', h1⟩
      · exact ⟨1, a, d', h1⟩
      · have := (stock_step he (n + 1) (after E out n)).2.2 h d hp ⟨d', h1⟩
        omega
    | succ c ih =>
      intro n d hp hc
      rcases polling_step (n + 1) hp with ⟨a, d', h1⟩ | ⟨d', h1⟩
      · exact ⟨1, a, d', h1⟩
      · have := (stock_step he (n + 1) (after E out n)).2.2 h d hp ⟨d', h1⟩
        obtain ⟨k, a, e, h2⟩ := ih (n + 1) d' h1 (by
          show stock E.source N (step E (n + 1) (after E out n)) ≤ c
          omega)
        exact ⟨1 + k, a, e, by rw [← Nat.add_assoc]; exact h2⟩
  exact key _ n d hp (Nat.le_refl _)

/-! ### Examples -/

/-- The input of the example: one mail and two commands. -/
def busyInput : Bytes := b!"MAIL FROM:<a@b>\r\nRCPT TO:<c@d>\r\nDATA\r\nhello\r\n.\r\noops\r\nQUIT\r\n"

/-- An environment that is busy with other things: it answers now and then, goes by the time, changes the envelope as it likes, says
something different each time, and panics in the end. -/
def busy : Environment exampleIp where
  source i := match i with | 1 => .ready (some busyInput) | 0 => .pending | _ => .ready none
  write t := if t % 3 = 0 then .pending else .ok
  newMail t := if t % 4 = 0 then .ready () else .pending
  filterFrom t := if t % 5 = 0 then .ready (.accept, none) else .pending
  filterTo t := (⟨none, List.replicate (t % 7) ⟨[], none⟩⟩, if t % 7 = 2 then .ready (.accept, ⟨[120], none⟩) else .pending)
  filterData t := if t % 4 = 1 then .ready (.accept, ⟨none, [⟨[121], none⟩]⟩) else .pending
  handleMail t := if t % 2 = 0 then .pending else if t < 30 then .ready .poll else if t < 32 then .ready .complete else .ready (.done .accept)
  say h t := if 30 ≤ t ∧ h = .commandUnimplemented then none else some (⟨250⟩, List.replicate t (120 : UInt8))

/-- C125: its session takes the mail, and dies of the last command. The hypotheses of `c125_same`, `c125_transfer` and `c125_answered`
hold. -/
theorem c125_example :
    (after busy [] 45).pc matches .unwound ∧ listened (after busy [] 45) = 2 ∧ StaysEnded busy.source 45 ∧
    ((after busy [] 45).trace.filter isDeed).length = 11 ∧
    (repliesOf (after busy [] 45).trace).map (·.2.length) = [0, 5, 16, 21, 33, 36] ∧ (after busy [] 45).out.length = 5 ∧
    ((after busy [] 45).trace.map fun | .handleMail m => m.to.length | .filterTo _ _ _ m _ => m.to.length | _ => 0).sum = 3 ∧
    (∃ h d, (after busy [] 26).pc = .polling h d) := by
  refine ⟨by decide +kernel, by decide +kernel, ?_, by decide +kernel, by decide +kernel, by decide +kernel, by decide +kernel, ?_⟩
  · intro i j hij hj hi
    match j with
    | 0 => omega
    | 1 => rw [show i = 0 by omega] at hi; cases hi
    | j + 2 => rfl
  · have h : (match (after busy [] 26).pc with | .polling .. => true | _ => false) = true := by decide +kernel
    revert h
    cases (after busy [] 26).pc <;> intro h <;> first | exact ⟨_, _, rfl⟩ | cases h

/-- C125: the hypotheses of `c125_ends` hold of it. -/
theorem c125_example_ends : Responsive busy ∧ (∀ i, 2 ≤ i → busy.source i = .ready none) ∧
    ∀ n, ∃ m, n ≤ m ∧ ¬ HandlerWorks (after busy [] m) := by
  refine ⟨⟨fun n => ⟨3 * n + 1, by omega, ?_⟩, fun n => ⟨4 * n, by omega, ?_⟩, fun n => ⟨5 * n, by omega, ?_⟩,
    fun n => ⟨7 * n + 2, by omega, ?_⟩, fun n => ⟨4 * n + 1, by omega, ?_⟩⟩, ?_, ?_⟩
  · simp only [busy]; rw [if_neg (by omega)]; simp
  · simp only [busy]; rw [if_pos (by omega)]; simp
  · simp only [busy]; rw [if_pos (by omega)]; simp
  · simp only [busy]; rw [if_pos (by omega)]; simp
  · simp only [busy]; rw [if_pos (by omega)]; simp
  · intro i hi
    match i with
    | i + 2 => rfl
  · intro n
    refine ⟨45 + n, by omega, ?_⟩
    have h : (after busy [] 45).pc = .unwound := by
      have h := c125_example.1
      revert h
      cases (after busy [] 45).pc <;> intro h <;> first | rfl | cases h
    rw [after_ended (by rw [h]; trivial)]
    rintro (⟨_, _, h'⟩ | ⟨_, _, h'⟩) <;> rw [h] at h' <;> cases h'

/-- C125: a writer that fails within a reply of two lines. The first of them is on the wire. -/
theorem c125_example_broken :
    let E : Environment exampleIp := { busy with
      write := fun t => if t = 1 then .ok else .err false
      say := fun _ _ => some (⟨220⟩, List.replicate 700 (120 : UInt8)) }
    (after E [] 2).pc matches .over .err ∧ (after E [] 2).out.length = 1 ∧ repliesOf (after E [] 2).trace = [] := by
  decide +kernel

/-- C125: handlers that return or complete too early. -/
theorem c125_example_hasty :
    (after { busy with handleMail := fun _ => .ready (.done .accept) } [] 45).pc matches .over (.panic .notCompleted) ∧
    (after { busy with handleMail := fun _ => .ready .complete } [] 45).pc matches .over (.panic .notFinished) ∧
    (after { busy with say := fun _ _ => some (⟨220⟩, [13]) } [] 45).pc matches .over (.panic .buildUnwrap) := by
  decide +kernel

end Verif
