import Verif.Spec.Wording
import Verif.Proofs.Task
import Verif.Proofs.Hooks
/-
Configurations whose reply methods have effects (C124).
-/
namespace Verif.Wording
open Server Spec
variable {L : IpLib} {S U : Type} {said : Hook → Reply → Prop} {E : Wordy L S U} {pick : Nat → S → S} {words : Hook → Reply} {P : S → S → Prop}

theorem story_snoc {t t' : List (Ev L)} {e e' : Ev L} (h : Story said words t t') (k : Retold said words e e') :
    Story said words (t ++ [e]) (t' ++ [e']) := by
  induction h with
  | nil => exact .cons k .nil
  | cons h1 _ ih => exact .cons h1 ih

theorem returns_append (t t' : List (Ev L)) : returns (t ++ t') = returns t + returns t' := by
  simp [returns]

theorem story_returns {t t' : List (Ev L)} (h : Story said words t t') : returns t = returns t' := by
  induction h with
  | nil => rfl
  | cons h1 _ ih =>
    have e1 : ∀ (e : Ev L) t, returns (e :: t) = returns [e] + returns t := fun e t => returns_append [e] t
    cases h1 with
    | same e => rw [e1, ih, ← e1]
    | reply r r' => rw [e1, ih, e1 (.reply r')]; rfl

/-! ### The configuration at a callback is a function of the number of callbacks that have returned -/

theorem speak_trace (h : Hook) (a : Task.After L) (w : World L S U) : (speak E h a w).2.trace = w.trace ∧
    (speak E h a w).2.writer = w.writer := by
  unfold speak; split <;> exact ⟨rfl, rfl⟩

theorem dispatch_trace (w : World L S U) (l : Bytes) : (dispatch E w l).2.trace = w.trace ∧ (dispatch E w l).2.writer = w.writer := by
  unfold dispatch
  split <;> (try split) <;> (try split) <;> first | exact speak_trace _ _ _ | exact ⟨rfl, rfl⟩

/-- `y` has everything on record and on the wire that `x` has. -/
def Grows (x y : State L S U) : Prop := x.2.trace <+: y.2.trace ∧ x.2.writer.out <+: y.2.writer.out

theorem Grows.refl (x : State L S U) : Grows x x := ⟨List.prefix_refl _, List.prefix_refl _⟩

theorem Grows.trans {x y z : State L S U} (h1 : Grows x y) (h2 : Grows y z) : Grows x z := ⟨h1.1.trans h2.1, h1.2.trans h2.2⟩

theorem grows_speak {x : State L S U} (h : Hook) (a : Task.After L) {w : World L S U} {e : Ev L} (ht : w.trace = x.2.trace ++ [e])
    (hw : w.writer = x.2.writer) : Grows x (speak E h a w) := by
  obtain ⟨h1, h2⟩ := speak_trace (E := E) h a w
  exact ⟨by rw [h1, ht]; exact List.prefix_append _ _, by rw [h2, hw]; exact List.prefix_refl _⟩

theorem grows_step (x : State L S U) : Grows x (step E x) := by
  obtain ⟨pc, w⟩ := x
  cases pc with
  | unwound => exact .refl _
  | «at» pc =>
  cases pc with
  | read buf =>
    simp only [step]
    split
    · exact ⟨List.prefix_refl _, List.prefix_refl _⟩
    · split
      · split
        · rename_i s' _
          obtain ⟨h1, h2⟩ := dispatch_trace (E := E) { w with reader := s', trace := w.trace ++ [.line _] } _
          exact ⟨by rw [h1]; exact List.prefix_append _ _, by rw [h2]; exact List.prefix_refl _⟩
        · exact .refl _
      · exact ⟨List.prefix_refl _, List.prefix_refl _⟩
    · split
      · exact ⟨List.prefix_refl _, List.prefix_refl _⟩
      · exact .refl _
  | send r left a => exact Task.grows_step (C := E.callbacks) (.send r left a, w)
  | newMail f => exact Task.grows_step (C := E.callbacks) (.newMail f, w)
  | filterFrom f =>
    simp only [step]; split
    · exact grows_speak _ _ rfl rfl
    · exact ⟨List.prefix_append _ _, List.prefix_refl _⟩
  | filterTo t m =>
    simp only [step]; split
    · exact grows_speak _ _ rfl rfl
    · exact ⟨List.prefix_append _ _, List.prefix_refl _⟩
  | filterData m =>
    simp only [step]; split
    · exact grows_speak _ _ rfl rfl
    · exact ⟨List.prefix_append _ _, List.prefix_refl _⟩
  | handle act h d =>
    simp only [step]
    split
    · exact .refl _
    · split
      · exact .refl _
      · exact .refl _
    · split
      · split
        · exact grows_speak _ _ rfl rfl
        · exact ⟨List.prefix_append _ _, List.prefix_refl _⟩
      · exact .refl _
  | over r => exact .refl _

theorem returns_prefix {t t' : List (Ev L)} (h : t <+: t') : returns t ≤ returns t' := by
  obtain ⟨r, rfl⟩ := h
  rw [returns_append]; omega

theorem returns_step (x : State L S U) : returns x.2.trace ≤ returns (step E x).2.trace := returns_prefix (grows_step x).1

theorem returns_after (incoming : List (SrcEv Bytes)) (outgoing : BSink) (s : S) (u : U) (n k : Nat) :
    returns (after E incoming outgoing s u n).2.trace ≤ returns (after E incoming outgoing s u (n + k)).2.trace := by
  induction k with
  | zero => exact Nat.le_refl _
  | succ k ih => exact Nat.le_trans ih (returns_step _)

/-- The session is over. -/
def Ended : PC L S U → Prop
  | .at (.over _) | .unwound => True
  | _ => False

/-- What can be the case once a callback was called with `c`, `k` others having returned. -/
def Since (k : Nat) (c : S) (x : State L S U) : Prop :=
  k < returns x.2.trace ∨ Ended x.1 ∨ (returns x.2.trace = k ∧ x.2.cfg = c ∧ ∃ act h d, x.1 = .at (.handle act h d))

theorem ended_step {x : State L S U} (h : Ended x.1) : step E x = x := by
  obtain ⟨pc, w⟩ := x
  cases pc with
  | unwound => rfl
  | «at» p => cases p <;> first | rfl | exact h.elim

theorem more_speak {t : List (Ev L)} {e : Ev L} (he : isReturn e = true) (h : Hook) (a : Task.After L) {w : World L S U}
    (ht : w.trace = t ++ [e]) : returns t < returns (speak E h a w).2.trace := by
  rw [(speak_trace h a w).1, ht, returns_append]
  simp [returns, he]

theorem more {t : List (Ev L)} {e : Ev L} (he : isReturn e = true) : returns t < returns (t ++ [e]) := by
  rw [returns_append]
  simp [returns, he]

theorem since_first {x : State L S U} (h : AtCallback x.1) : Since (returns x.2.trace) x.2.cfg (step E x) := by
  obtain ⟨pc, w⟩ := x
  cases pc with
  | unwound => exact h.elim
  | «at» pc =>
  cases pc with
  | newMail f => exact .inl (more rfl)
  | filterFrom f =>
    left; simp only [step]; split
    · exact more_speak (e := .filterFrom _ _ _) rfl _ _ rfl
    · exact more rfl
  | filterTo t m =>
    left; simp only [step]; split
    · exact more_speak (e := .filterTo _ _ _ _ _) rfl _ _ rfl
    · exact more rfl
  | filterData m =>
    left; simp only [step]; split
    · exact more_speak (e := .filterData _ _ _) rfl _ _ rfl
    · exact more rfl
  | handle act hi d =>
    simp only [step]
    split
    · exact .inr (.inr ⟨rfl, rfl, _, _, _, rfl⟩)
    · split
      · exact .inr (.inl trivial)
      · exact .inr (.inr ⟨rfl, rfl, _, _, _, rfl⟩)
    · split
      · left
        split
        · exact more_speak (e := .handled _) rfl _ _ rfl
        · exact more rfl
      · exact .inr (.inl trivial)
  | read _ => exact h.elim
  | send _ _ _ => exact h.elim
  | over _ => exact h.elim

theorem since_step {k : Nat} {c : S} {x : State L S U} (h : Since k c x) : Since k c (step E x) := by
  rcases h with h | h | ⟨h1, h2, act, hi, d, h3⟩
  · exact .inl (Nat.lt_of_lt_of_le h (returns_step x))
  · rw [ended_step h]; exact .inr (.inl h)
  · have := since_first (E := E) (x := x) (by rw [h3]; trivial)
    rw [h1, h2] at this
    exact this

theorem since_after (incoming : List (SrcEv Bytes)) (outgoing : BSink) (s : S) (u : U) (n k : Nat)
    (h : AtCallback (after E incoming outgoing s u n).1) :
    Since (returns (after E incoming outgoing s u n).2.trace) (after E incoming outgoing s u n).2.cfg
      (after E incoming outgoing s u (n + k + 1)) := by
  induction k with
  | zero => exact since_first h
  | succ k ih => exact since_step ih

theorem cfg_same (incoming : List (SrcEv Bytes)) (outgoing : BSink) (s : S) (u : U) (n m : Nat)
    (hn : AtCallback (after E incoming outgoing s u n).1) (hm : AtCallback (after E incoming outgoing s u m).1)
    (he : returns (after E incoming outgoing s u n).2.trace = returns (after E incoming outgoing s u m).2.trace) :
    (after E incoming outgoing s u n).2.cfg = (after E incoming outgoing s u m).2.cfg := by
  have key : ∀ n m, n < m → AtCallback (after E incoming outgoing s u n).1 → AtCallback (after E incoming outgoing s u m).1 →
      returns (after E incoming outgoing s u n).2.trace = returns (after E incoming outgoing s u m).2.trace →
      (after E incoming outgoing s u n).2.cfg = (after E incoming outgoing s u m).2.cfg := by
    intro n m hlt hn hm he
    obtain ⟨k, rfl⟩ : ∃ k, m = n + k + 1 := ⟨m - n - 1, by omega⟩
    rcases since_after incoming outgoing s u n k hn with h | h | ⟨_, h, _⟩
    · omega
    · exfalso
      revert h hm
      generalize (after E incoming outgoing s u (n + k + 1)).1 = p
      intro h1 h2
      cases p with
      | unwound => exact h1
      | «at» p => cases p <;> first | exact h1 | exact h2
    · exact h.symm
  rcases Nat.lt_trichotomy n m with h | h | h
  · exact key n m h hn hm he
  · rw [h]
  · exact (key m n h hm hn he.symm).symm

open Classical in
theorem cfg_exists (E : Wordy L S U) (incoming : List (SrcEv Bytes)) (outgoing : BSink) (s : S) (u : U) : ∃ g : Nat → S, ∀ n,
    AtCallback (after E incoming outgoing s u n).1 →
      (after E incoming outgoing s u n).2.cfg = g (returns (after E incoming outgoing s u n).2.trace) := by
  refine ⟨fun k => if h : ∃ n, AtCallback (after E incoming outgoing s u n).1 ∧ returns (after E incoming outgoing s u n).2.trace = k
    then (after E incoming outgoing s u h.choose).2.cfg else s, fun n hn => ?_⟩
  have h : ∃ m, AtCallback (after E incoming outgoing s u m).1 ∧
    returns (after E incoming outgoing s u m).2.trace = returns (after E incoming outgoing s u n).2.trace := ⟨n, hn, rfl⟩
  simp only [dif_pos h]
  exact cfg_same _ _ _ _ _ _ hn h.choose_spec.1 h.choose_spec.2.symm

/-! ### The two sessions -/

/-- The places that correspond to each other, `k` callbacks having returned. -/
inductive Live (E : Wordy L S U) (words : Hook → Reply) (k : Nat) : PC L S U → Task.PC L (Nat × S) U → Prop
  | read (b : Bytes) : Live E words k (.at (.read b)) (.read b)
  | refuse (r : Refusal) (left : List Bytes) (a : Task.After L) :
    Live E words k (.at (.send (r.code, r.msg) left a)) (.send (r.code, r.msg) left a)
  | hook (h : Hook) (s : S) (r : Reply) (left : List Bytes) (a : Task.After L) : (E.say h s).1 = some r →
    Live E words k (.at (.send r left a)) (Task.reply (words h) a)
  | newMail (f : Option (Email L)) : Live E words k (.at (.newMail f)) (.newMail f)
  | filterFrom (f : Option (Email L)) : Live E words k (.at (.filterFrom f)) (.filterFrom f)
  | filterTo (t : Email L) (m : MailMeta L) : Live E words k (.at (.filterTo t m)) (.filterTo t m)
  | filterData (m : MailMeta L) : Live E words k (.at (.filterData m)) (.filterData m)
  | handle (act : List HObs → HAct S U) (h : List HObs) (d : DStream) :
    Live E words k (.at (.handle act h d)) (.handle (fun h => HAct.leave (k + 1) (act h)) h d)
  | over (r : Res Unit) (hr : r ≠ .err) : Live E words k (.at (.over r)) (.over r)
  | failed (r : Reply) (left : List Bytes) (a : Task.After L) : Live E words k (.at (.over .err)) (.send r left a)
  | unsendable (r : Reply) (left : List Bytes) (a : Task.After L) : Live E words k (.at (.over (.panic .buildUnwrap))) (.send r left a)
  | unwound (r : Reply) (left : List Bytes) (a : Task.After L) : Live E words k .unwound (.send r left a)

/-- The worlds that correspond to each other. -/
structure Near (E : Wordy L S U) (words : Hook → Reply) (P : S → S → Prop) (w : World L S U) (w' : World L (Nat × S) U) : Prop where
  conn : w.conn = w'.conn
  mail : w.mail = w'.mail
  reader : w.reader = w'.reader
  plan : w'.writer.plan = []
  cfg : w'.cfg.1 = returns w'.trace
  sync : P w.cfg w'.cfg.2
  story : Story (saidBy E) words w.trace w'.trace

/-- States that correspond to each other. -/
def Rel (E : Wordy L S U) (words : Hook → Reply) (P : S → S → Prop) (x : State L S U) (y : Task.State L (Nat × S) U) : Prop :=
  Live E words y.2.cfg.1 x.1 y.1 ∧ (Near E words P x.2 y.2 ∨ x.1 = .at (.over .err) ∧
    ∃ w : World L S U, Near E words P w y.2 ∧ x.2.trace = w.trace ++ [.writeError] ∧ x.2.conn = w.conn ∧ x.2.mail = w.mail ∧
      x.2.reader = w.reader ∧ x.2.cfg = w.cfg)

theorem rel_point {x : State L S U} {y : Task.State L (Nat × S) U} (h : Rel E words P x y) : SameMoment E words x y := by
  obtain ⟨pc, w⟩ := x
  obtain ⟨pc', w'⟩ := y
  obtain ⟨h1, h2⟩ := h
  refine ⟨?_, ?_⟩
  · dsimp only at h1 ⊢
    cases h1 with
    | hook h s r left a hs =>
      obtain ⟨cs, _, hr⟩ := Task.reply_cases (S := Nat × S) (U := U) (words h) a
      rw [hr]
      exact ⟨.said h r ⟨s, hs⟩, rfl⟩
    | refuse r left a => exact ⟨.refusal r, rfl⟩
    | over r hr =>
      cases r with
      | err => exact absurd rfl hr
      | ok _ => rfl
      | panic p => cases p <;> rfl
      | running => rfl
    | read | newMail | filterFrom | filterData => rfl
    | filterTo | handle => exact ⟨rfl, rfl⟩
    | failed | unsendable | unwound => trivial
  · rcases h2 with h | ⟨h, w0, hn, h3, h4, h5, h6, _⟩
    · exact ⟨h.conn, h.mail, h.reader, w.trace, h.story, .inl rfl⟩
    · exact ⟨h4.trans hn.conn, h5.trans hn.mail, h6.trans hn.reader, w0.trace, hn.story, .inr ⟨h, h3⟩⟩

theorem rel_speak (hP : ∀ h s c, P s c → P (E.say h s).2 c) (h : Hook) (a : Task.After L) {w : World L S U} {w' : World L (Nat × S) U} (hw : Near E words P w w') :
    Rel E words P (speak E h a w) (Task.reply (words h) a, w') := by
  have hsync := hP h w.cfg _ hw.sync
  unfold speak
  rcases hs : E.say h w.cfg with ⟨r, s⟩
  rw [hs] at hsync
  obtain ⟨cs', _, hr'⟩ := Task.reply_cases (S := Nat × S) (U := U) (words h) a
  cases r with
  | none =>
    rw [hr']
    exact ⟨.unwound _ _ _, .inl ⟨hw.1, hw.2, hw.3, hw.4, hw.5, hsync, hw.7⟩⟩
  | some r =>
    obtain ⟨cs, _, hr⟩ := Task.reply_cases (S := S) (U := U) r a
    dsimp only
    rw [hr]
    exact ⟨.hook h w.cfg r cs a (by rw [hs]), .inl ⟨hw.1, hw.2, hw.3, hw.4, hw.5, hsync, hw.7⟩⟩

theorem rel_refuse (r : Refusal) (a : Task.After L) {w : World L S U} {w' : World L (Nat × S) U} (hw : Near E words P w w') :
    Rel E words P (.at (Task.reply (r.code, r.msg) a), w) (Task.reply (r.code, r.msg) a, w') := by
  obtain ⟨cs, hcs, hr⟩ := Task.reply_cases (S := S) (U := U) (r.code, r.msg) a
  obtain ⟨cs', hcs', hr'⟩ := Task.reply_cases (S := Nat × S) (U := U) (r.code, r.msg) a
  rw [hcs] at hcs'
  cases hcs'
  rw [hr, hr']
  exact ⟨.refuse r cs a, .inl hw⟩

theorem rel_dispatch (hP : ∀ h s c, P s c → P (E.say h s).2 c) (l : Bytes) {w : World L S U} {w' : World L (Nat × S) U} (hw : Near E words P w w') :
    Rel E words P (dispatch E w l) (Task.dispatch (replay E pick words) w' l) := by
  have hmail := hw.mail
  have hnone : Near E words P { w with mail := none } { w' with mail := none } := ⟨hw.1, rfl, hw.3, hw.4, hw.5, hw.6, hw.7⟩
  unfold dispatch Task.dispatch
  rw [hmail]
  cases (Command.parse l : Except ParseErr (Command L)) with
  | error e => exact rel_speak hP .commandUnrecognized _ hw
  | ok c =>
    cases c
    case mail f p =>
      dsimp only
      split
      · exact rel_speak hP .alreadyInMail _ hw
      · exact ⟨.newMail _, .inl hw⟩
    case rcpt t p =>
      dsimp only
      cases w'.mail with
      | some m => exact ⟨.filterTo _ _, .inl hw⟩
      | none => exact rel_speak hP .rcptBeforeMail _ hw
    case data =>
      dsimp only
      cases w'.mail with
      | some m =>
        dsimp only
        split
        · exact rel_speak hP .dataBeforeRcpt _ hnone
        · exact ⟨.filterData _, .inl hnone⟩
      | none => exact rel_speak hP .dataBeforeMail _ hw
    all_goals exact rel_speak hP .commandUnimplemented _ hw

theorem rel_resume (a : Task.After L) {w : World L S U} {w' : World L (Nat × S) U} (hw : Near E words P w w')
    (hg : AtCallback (here (Task.resume E.callbacks w a)).1 → ∀ c, P w.cfg c → w.cfg = pick (returns w'.trace) c) :
    Rel E words P (here (Task.resume E.callbacks w a)) (Task.resume (replay E pick words) w' a) := by
  cases a with
  | next => exact ⟨.read _, .inl hw⟩
  | setMail m => exact ⟨.read _, .inl ⟨hw.1, rfl, hw.3, hw.4, hw.5, hw.6, hw.7⟩⟩
  | handle m =>
    have hc : w.cfg = pick w'.cfg.1 w'.cfg.2 := by rw [hw.cfg]; exact hg trivial _ hw.sync
    refine ⟨?_, .inl ⟨hw.1, hw.2, hw.3, hw.4, ?_, hw.6, story_snoc hw.7 (.same _ rfl)⟩⟩
    · simp only [here, Task.resume, hc, hw.conn, hw.reader]
      exact .handle _ _ _
    · show w'.cfg.1 = returns (w'.trace ++ [_])
      rw [returns_append, hw.cfg]; rfl

/-- A reply that can be sent is sent if the writer does not fail. -/
theorem send_whole {C : Config L (Nat × S) U} {r : Reply} (hr : Sendable r) (a : Task.After L) (w : World L (Nat × S) U) (hw : w.writer.plan = []) :
    ∃ k out, 1 ≤ k ∧ Task.steps C k (Task.reply r a, w) = Task.resume C { w with writer := ⟨out, []⟩, trace := w.trace ++ [.reply r] } a := by
  obtain ⟨k, hk1, hk⟩ := Task.send_reply (C := C) r a w
  obtain ⟨cs, h1, h2, _⟩ := sendable_chunks hr
  obtain ⟨out, ho⟩ := sendChunks_quiet h2 w hw
  refine ⟨k, out, hk1, ?_⟩
  rw [hk]
  unfold Server.sendReply
  simp only [h1]
  rw [SM.bind_ok ho]
  rfl

theorem near_reply {w : World L S U} {w' : World L (Nat × S) U} (hw : Near E words P w w') {r r' : Reply} (hr : Reworded (saidBy E) words r r')
    (wr wr' : BSink) (hp : wr'.plan = []) :
    Near E words P { w with writer := wr, trace := w.trace ++ [.reply r] } { w' with writer := wr', trace := w'.trace ++ [.reply r'] } :=
  ⟨hw.1, hw.2, hw.3, hp, by show w'.cfg.1 = returns (w'.trace ++ _); rw [returns_append, hw.cfg]; rfl, hw.6, story_snoc hw.7 (.reply _ _ hr)⟩

theorem near_event {w : World L S U} {w' : World L (Nat × S) U} (hw : Near E words P w w') {e : Ev L} (he : isReturn e = true)
    (hn : isDeed e = true) (hr : ∀ s, P s s) (s : S) (u : U) (m m' : Option (MailMeta L)) (hm : m = m') (rd rd' : Prep Bytes) (hrd : rd = rd') :
    Near E words P { w with cfg := s, conn := u, mail := m, reader := rd, trace := w.trace ++ [e] }
      { w' with cfg := (w'.cfg.1 + 1, s), conn := u, mail := m', reader := rd', trace := w'.trace ++ [e] } :=
  ⟨rfl, hm, hrd, hw.4, by
    show w'.cfg.1 + 1 = returns (w'.trace ++ [e])
    rw [returns_append, hw.cfg]; simp [returns, he], hr s, story_snoc hw.7 (.same _ hn)⟩

theorem flush_quiet {w : World L (Nat × S) U} (h : w.writer.plan = []) : Server.flush w = (.ok (), w) := by
  unfold Server.flush; rw [h]

theorem writeLine_quiet (l : ReplyLine) {w : World L (Nat × S) U} (h : w.writer.plan = []) :
    Server.writeLine l w = (.ok (), { w with writer := ⟨w.writer.out ++ [l.sendTo], []⟩ }) := by
  unfold Server.writeLine
  have h0 : ¬ l.byteLen < l.sendTo.length := by rw [c19_byte_len]; omega
  rw [if_neg h0]
  simp only [BSink.send, h, if_true]

/-- How many answers of the writer are due. -/
def waits : PC L S U → Nat
  | .at (.send _ left _) => left.length + 1
  | _ => 0

theorem rel_step (hwords : ∀ h, Sendable (words h)) (hP : ∀ h s c, P s c → P (E.say h s).2 c) (hrefl : ∀ s, P s s) {x : State L S U} {y : Task.State L (Nat × S) U} (hr : Rel E words P x y)
    (hg : AtCallback x.1 → ∀ c, P x.2.cfg c → x.2.cfg = pick (returns x.2.trace) c)
    (hg' : AtCallback (step E x).1 → ∀ c, P (step E x).2.cfg c → (step E x).2.cfg = pick (returns (step E x).2.trace) c) :
    ∃ k, (1 ≤ k ∨ Ended (step E x).1 ∨ waits (step E x).1 < waits x.1) ∧
      Rel E words P (step E x) (Task.steps (replay E pick words) k y) := by
  obtain ⟨pc, w⟩ := x
  obtain ⟨pc', w'⟩ := y
  obtain ⟨hl, hD⟩ := hr
  dsimp only at hl hD hg
  have live : (pc ≠ .at (.over .err)) → Near E words P w w' := by
    intro h
    rcases hD with hw | ⟨hw, _⟩
    · exact hw
    · exact absurd hw h
  cases hl with
  | read b =>
    have hw := live (by simp)
    refine ⟨1, .inl (Nat.le_refl 1), ?_⟩
    rw [Task.steps_one]
    simp only [step, Task.step, hw.reader]
    rcases hp : w'.reader.pollNext with ⟨p, s⟩
    cases p with
    | pending => exact ⟨.read b, .inl ⟨hw.1, hw.2, rfl, hw.4, hw.5, hw.6, hw.7⟩⟩
    | ready o =>
      cases o with
      | none =>
        dsimp only
        cases s.prepend b with
        | none => exact ⟨.over _ (by simp), .inl hw⟩
        | some s' => exact ⟨.over _ (by simp), .inl ⟨hw.1, hw.2, rfl, hw.4, hw.5, hw.6, hw.7⟩⟩
      | some pkt =>
        dsimp only
        cases findCrlf (b ++ pkt) with
        | none => exact ⟨.read _, .inl ⟨hw.1, hw.2, rfl, hw.4, hw.5, hw.6, hw.7⟩⟩
        | some pos =>
          dsimp only
          cases s.prepend ((b ++ pkt).drop (pos + 2)) with
          | none => exact ⟨.over _ (by simp), .inl hw⟩
          | some s' =>
            exact rel_dispatch hP _ (w := { w with reader := s', trace := w.trace ++ [.line _] })
              (w' := { w' with reader := s', trace := w'.trace ++ [.line _] })
              ⟨hw.1, hw.2, rfl, hw.4, by show w'.cfg.1 = returns (w'.trace ++ _); rw [returns_append, hw.cfg]; rfl, hw.6,
                story_snoc hw.7 (.same _ rfl)⟩
  | refuse r left a =>
    have hw := live (by simp)
    cases left with
    | nil =>
      rcases flush_cases w with ⟨wr, h, ho⟩ | ⟨wr, h, ho⟩
      · refine ⟨1, .inl (Nat.le_refl 1), ?_⟩
        rw [Task.steps_one]
        simp only [step, Task.step, h, flush_quiet hw.plan] at hg' ⊢
        have hn := near_reply hw (.refusal r) wr w'.writer hw.plan
        refine rel_resume a hn fun hc c hPc => ?_
        have := hg' hc c (by cases a <;> exact hPc)
        cases a with
        | next => exact hc.elim
        | setMail => exact hc.elim
        | handle m =>
          rw [← story_returns hn.story]
          refine Eq.trans (b := _) this ?_
          show pick (returns ((w.trace ++ [_]) ++ [_])) c = pick (returns (w.trace ++ [_])) c
          rw [returns_append (w.trace ++ [_])]; rfl
      · refine ⟨0, .inr (.inl (by simp only [step, Task.step, h]; trivial)), ?_⟩
        simp only [step, Task.step, h]
        exact ⟨.failed _ _ _, .inr ⟨rfl, w, hw, rfl, rfl, rfl, rfl, rfl⟩⟩
    | cons t ts =>
      cases hb : ReplyLine.build r.code (if ts.isEmpty then .yes else .no) t with
      | error e =>
        refine ⟨1, .inl (Nat.le_refl 1), ?_⟩
        rw [Task.steps_one]
        simp only [step, Task.step, hb]
        exact ⟨.over _ (by simp), .inl hw⟩
      | ok l =>
        rcases writeLine_cases l w with ⟨wr, h, ho⟩ | ⟨wr, h, ho⟩
        · refine ⟨1, .inl (Nat.le_refl 1), ?_⟩
          rw [Task.steps_one]
          simp only [step, Task.step, hb, h, writeLine_quiet l hw.plan]
          exact ⟨.refuse r ts a, .inl ⟨hw.1, hw.2, hw.3, rfl, hw.5, hw.6, hw.7⟩⟩
        · refine ⟨0, .inr (.inl (by simp only [step, Task.step, hb, h]; trivial)), ?_⟩
          simp only [step, Task.step, hb, h]
          exact ⟨.failed _ _ _, .inr ⟨rfl, w, hw, rfl, rfl, rfl, rfl, rfl⟩⟩
  | hook h s r left a hs =>
    have hw := live (by simp)
    obtain ⟨cs', _, hr'⟩ := Task.reply_cases (S := Nat × S) (U := U) (words h) a
    cases left with
    | nil =>
      rcases flush_cases w with ⟨wr, hf, ho⟩ | ⟨wr, hf, ho⟩
      · obtain ⟨k, out, hk1, hk⟩ := send_whole (C := replay E pick words) (hwords h) a w' hw.plan
        refine ⟨k, .inl hk1, ?_⟩
        rw [hk]
        simp only [step, Task.step, hf] at hg' ⊢
        have hn := near_reply hw (.said h r ⟨s, hs⟩) wr ⟨out, []⟩ rfl
        refine rel_resume a hn fun hc c hPc => ?_
        have := hg' hc c (by cases a <;> exact hPc)
        cases a with
        | next => exact hc.elim
        | setMail => exact hc.elim
        | handle m =>
          rw [← story_returns hn.story]
          refine Eq.trans (b := _) this ?_
          show pick (returns ((w.trace ++ [_]) ++ [_])) c = pick (returns (w.trace ++ [_])) c
          rw [returns_append (w.trace ++ [_])]; rfl
      · refine ⟨0, .inr (.inl (by simp only [step, Task.step, hf]; trivial)), ?_⟩
        simp only [step, Task.step, hf]
        rw [hr']
        exact ⟨.failed _ _ _, .inr ⟨rfl, w, hw, rfl, rfl, rfl, rfl, rfl⟩⟩
    | cons t ts =>
      refine ⟨0, ?_⟩
      dsimp only [Task.steps]
      cases hb : ReplyLine.build r.1 (if ts.isEmpty then .yes else .no) t with
      | error e =>
        simp only [step, Task.step, hb]
        rw [hr']
        exact ⟨.inr (.inl trivial), .unsendable _ _ _, .inl hw⟩
      | ok l =>
        rcases writeLine_cases l w with ⟨wr, hf, ho⟩ | ⟨wr, hf, ho⟩
        · simp only [step, Task.step, hb, hf]
          exact ⟨.inr (.inr (Nat.lt_succ_self _)), .hook h s r ts a hs, .inl ⟨hw.1, hw.2, hw.3, hw.4, hw.5, hw.6, hw.7⟩⟩
        · simp only [step, Task.step, hb, hf]
          rw [hr']
          exact ⟨.inr (.inl trivial), .failed _ _ _, .inr ⟨rfl, w, hw, rfl, rfl, rfl, rfl, rfl⟩⟩
  | newMail f =>
    have hw := live (by simp)
    have hc : w.cfg = pick w'.cfg.1 w'.cfg.2 := by rw [hw.cfg, ← story_returns hw.story]; exact hg trivial _ hw.sync
    refine ⟨1, .inl (Nat.le_refl 1), ?_⟩
    rw [Task.steps_one]
    simp only [step, here, Task.step, hc, replay]
    exact ⟨.filterFrom f, .inl
      ⟨hw.1, hw.2, hw.3, hw.4, by show w'.cfg.1 + 1 = returns (w'.trace ++ [_]); rw [returns_append, hw.cfg]; rfl, hrefl _,
        story_snoc hw.7 (.same _ rfl)⟩⟩
  | filterFrom f =>
    have hw := live (by simp)
    have hc : w.cfg = pick w'.cfg.1 w'.cfg.2 := by rw [hw.cfg, ← story_returns hw.story]; exact hg trivial _ hw.sync
    refine ⟨1, .inl (Nat.le_refl 1), ?_⟩
    rw [Task.steps_one]
    simp only [step, Task.step, hc, hw.conn, replay]
    rcases E.callbacks.filterFrom (pick w'.cfg.1 w'.cfg.2) w'.conn f with ⟨d, f', s, u⟩
    cases d with
    | accept => exact rel_speak hP .mailOkay _ (near_event hw rfl rfl hrefl s u _ _ hw.mail _ _ hw.reader)
    | reject r => exact rel_refuse r _ (near_event hw rfl rfl hrefl s u _ _ hw.mail _ _ hw.reader)
  | filterTo t m =>
    have hw := live (by simp)
    have hc : w.cfg = pick w'.cfg.1 w'.cfg.2 := by rw [hw.cfg, ← story_returns hw.story]; exact hg trivial _ hw.sync
    refine ⟨1, .inl (Nat.le_refl 1), ?_⟩
    rw [Task.steps_one]
    simp only [step, Task.step, hc, hw.conn, replay]
    rcases E.callbacks.filterTo (pick w'.cfg.1 w'.cfg.2) w'.conn t m with ⟨d, t', m', s, u⟩
    cases d with
    | accept => exact rel_speak hP .rcptOkay _ (near_event hw rfl rfl hrefl s u _ _ rfl _ _ hw.reader)
    | reject r => exact rel_refuse r _ (near_event hw rfl rfl hrefl s u _ _ rfl _ _ hw.reader)
  | filterData m =>
    have hw := live (by simp)
    have hc : w.cfg = pick w'.cfg.1 w'.cfg.2 := by rw [hw.cfg, ← story_returns hw.story]; exact hg trivial _ hw.sync
    refine ⟨1, .inl (Nat.le_refl 1), ?_⟩
    rw [Task.steps_one]
    simp only [step, Task.step, hc, hw.conn, replay]
    rcases E.callbacks.filterData (pick w'.cfg.1 w'.cfg.2) w'.conn m with ⟨d, m', s, u⟩
    cases d with
    | accept => exact rel_speak hP .dataOkay _ (near_event hw rfl rfl hrefl s u _ _ hw.mail _ _ hw.reader)
    | reject r => exact rel_refuse r _ (near_event hw rfl rfl hrefl s u _ _ hw.mail _ _ hw.reader)
  | handle act h d =>
    have hw := live (by simp)
    refine ⟨1, .inl (Nat.le_refl 1), ?_⟩
    rw [Task.steps_one]
    simp only [step, Task.step]
    cases act h with
    | poll => exact ⟨.handle _ _ _, .inl hw⟩
    | complete =>
      simp only [HAct.leave]
      cases d.complete with
      | error p => exact ⟨.over _ (by simp), .inl hw⟩
      | ok o => exact ⟨.handle _ _ _, .inl hw⟩
    | done dec s u =>
      simp only [HAct.leave]
      split
      · cases dec with
        | accept => exact rel_speak hP .mailAccepted _ (near_event hw rfl rfl hrefl s u _ _ hw.mail _ _ rfl)
        | reject r => exact rel_refuse r _ (near_event hw rfl rfl hrefl s u _ _ hw.mail _ _ rfl)
      · exact ⟨.over _ (by simp), .inl hw⟩
  | over r hr => exact ⟨0, .inr (.inl trivial), .over r hr, hD⟩
  | failed r left a => exact ⟨0, .inr (.inl trivial), .failed r left a, hD⟩
  | unsendable r left a => exact ⟨0, .inr (.inl trivial), .unsendable r left a, hD⟩
  | unwound r left a => exact ⟨0, .inr (.inl trivial), .unwound r left a, hD⟩

theorem rel_after (hwords : ∀ h, Sendable (words h)) (hP : ∀ h s c, P s c → P (E.say h s).2 c)
    (hrefl : ∀ s, P s s) (incoming : List (SrcEv Bytes)) (outgoing : BSink) (s : S) (u : U)
    (hg : ∀ n, AtCallback (after E incoming outgoing s u n).1 → ∀ c, P (after E incoming outgoing s u n).2.cfg c →
      (after E incoming outgoing s u n).2.cfg = pick (returns (after E incoming outgoing s u n).2.trace) c) (n : Nat) :
    ∃ m, Rel E words P (after E incoming outgoing s u n) (Task.after (replay E pick words) incoming ⟨[], []⟩ (0, s) u m) := by
  induction n with
  | zero => exact ⟨0, rel_speak hP .welcomeBanner _ ⟨rfl, rfl, rfl, rfl, rfl, hrefl s, .nil⟩⟩
  | succ n ih =>
    obtain ⟨m, hm⟩ := ih
    obtain ⟨k, _, hk⟩ := rel_step hwords hP hrefl hm (hg n) (hg (n + 1))
    refine ⟨m + k, ?_⟩
    unfold Task.after at hk ⊢
    rw [Task.steps_add]
    exact hk

theorem rel_far (hwords : ∀ h, Sendable (words h)) (hP : ∀ h s c, P s c → P (E.say h s).2 c)
    (hrefl : ∀ s, P s s) (incoming : List (SrcEv Bytes)) (outgoing : BSink) (s : S) (u : U)
    (hg : ∀ n, AtCallback (after E incoming outgoing s u n).1 → ∀ c, P (after E incoming outgoing s u n).2.cfg c →
      (after E incoming outgoing s u n).2.cfg = pick (returns (after E incoming outgoing s u n).2.trace) c) (m : Nat) :
    ∃ n, Ended (after E incoming outgoing s u n).1 ∨
      ∃ j, m ≤ j ∧ Rel E words P (after E incoming outgoing s u n) (Task.after (replay E pick words) incoming ⟨[], []⟩ (0, s) u j) := by
  induction m with
  | zero =>
    obtain ⟨j, hj⟩ := rel_after hwords hP hrefl incoming outgoing s u hg 0
    exact ⟨0, .inr ⟨j, Nat.zero_le _, hj⟩⟩
  | succ m ih =>
    obtain ⟨n, ih | ⟨j, hj, hr⟩⟩ := ih
    · exact ⟨n, .inl ih⟩
    · have key : ∀ c n, waits (after E incoming outgoing s u n).1 ≤ c →
          Rel E words P (after E incoming outgoing s u n) (Task.after (replay E pick words) incoming ⟨[], []⟩ (0, s) u j) →
          ∃ n, Ended (after E incoming outgoing s u n).1 ∨
            ∃ j, m + 1 ≤ j ∧ Rel E words P (after E incoming outgoing s u n) (Task.after (replay E pick words) incoming ⟨[], []⟩ (0, s) u j) := by
        intro c
        induction c with
        | zero =>
          intro n hc hr
          obtain ⟨k, h | h | h, hk⟩ := rel_step hwords hP hrefl hr (hg n) (hg (n + 1))
          · refine ⟨n + 1, .inr ⟨j + k, by omega, ?_⟩⟩
            unfold Task.after at hk ⊢
            rw [Task.steps_add]; exact hk
          · exact ⟨n + 1, .inl h⟩
          · omega
        | succ c ihc =>
          intro n hc hr
          obtain ⟨k, h | h | h, hk⟩ := rel_step hwords hP hrefl hr (hg n) (hg (n + 1))
          · refine ⟨n + 1, .inr ⟨j + k, by omega, ?_⟩⟩
            unfold Task.after at hk ⊢
            rw [Task.steps_add]; exact hk
          · exact ⟨n + 1, .inl h⟩
          · by_cases hk0 : 1 ≤ k
            · refine ⟨n + 1, .inr ⟨j + k, by omega, ?_⟩⟩
              unfold Task.after at hk ⊢
              rw [Task.steps_add]; exact hk
            · have : k = 0 := by omega
              subst this
              exact ihc (n + 1) (by show waits (step E _).1 ≤ c; omega) hk
      exact key _ n (Nat.le_refl _) hr

/-! ### What is on the wire -/

/-- The invariant, `o` being what the writer had taken before `interact`. -/
def Inv (o : List Bytes) : State L S U → Prop
  | (.at p, w) => Task.Inv o (p, w)
  | (.unwound, w) => Task.Settled o w

theorem inv_speak {o : List Bytes} (h : Hook) (a : Task.After L) {w : World L S U} (hs : Task.Settled o w) (hh : ¬ Task.Handling w) :
    Inv o (speak E h a w) := by
  unfold speak
  split
  · exact Task.inv_reply _ a hs hh
  · exact hs

theorem inv_dispatch {o : List Bytes} {w : World L S U} (h : Task.Settled o w) (hh : ¬ Task.Handling w) (l : Bytes) :
    Inv o (dispatch E w l) := by
  unfold dispatch
  split
  · split
    · exact inv_speak _ _ h hh
    · exact ⟨h, hh⟩
  · split
    · exact ⟨h, hh⟩
    · exact inv_speak _ _ h hh
  · split
    · split
      · exact inv_speak _ _ h hh
      · exact ⟨h, hh⟩
    · exact inv_speak _ _ h hh
  · exact inv_speak _ _ h hh
  · exact inv_speak _ _ h hh

theorem inv_step {o : List Bytes} (x : State L S U) (h : Inv o x) : Inv o (step E x) := by
  obtain ⟨pc, w⟩ := x
  cases pc with
  | unwound => exact h
  | «at» pc =>
  cases pc with
  | read buf =>
    obtain ⟨h, evs, r, hr⟩ := h
    simp only [step]
    split
    · exact ⟨h, evs, r, hr⟩
    · split
      · split
        · rename_i s' _
          exact inv_dispatch (w := { w with reader := s', trace := w.trace ++ [.line _] })
            (Task.settled_add (w := w) (e := .line _) h (fun _ h => by cases h) rfl rfl)
            (Task.not_handling (e := .line _) rfl fun _ h => by cases h) _
        · exact fun _ => h
      · exact ⟨h, evs, r, hr⟩
    · split
      · exact fun _ => h
      · exact fun _ => h
  | send r left a => exact Task.inv_step (C := E.callbacks) (.send r left a, w) h
  | newMail f => exact Task.inv_step (C := E.callbacks) (.newMail f, w) h
  | filterFrom f =>
    simp only [step]
    split
    · exact inv_speak _ _ (Task.settled_add h.1 (e := .filterFrom _ _ _) (fun _ h => by cases h) rfl rfl)
        (Task.not_handling (e := .filterFrom _ _ _) rfl fun _ h => by cases h)
    · exact Task.inv_reply _ .next (Task.settled_add h.1 (e := .filterFrom _ _ _) (fun _ h => by cases h) rfl rfl)
        (Task.not_handling (e := .filterFrom _ _ _) rfl fun _ h => by cases h)
  | filterTo t m =>
    simp only [step]
    split
    · exact inv_speak _ _ (Task.settled_add h.1 (e := .filterTo _ _ _ _ _) (fun _ h => by cases h) rfl rfl)
        (Task.not_handling (e := .filterTo _ _ _ _ _) rfl fun _ h => by cases h)
    · exact Task.inv_reply _ .next (Task.settled_add h.1 (e := .filterTo _ _ _ _ _) (fun _ h => by cases h) rfl rfl)
        (Task.not_handling (e := .filterTo _ _ _ _ _) rfl fun _ h => by cases h)
  | filterData m =>
    simp only [step]
    split
    · exact inv_speak _ _ (Task.settled_add h.1 (e := .filterData _ _ _) (fun _ h => by cases h) rfl rfl)
        (Task.not_handling (e := .filterData _ _ _) rfl fun _ h => by cases h)
    · rename_i m' _ _ _
      exact Task.inv_reply _ (.setMail (some m')) (Task.settled_add h.1 (e := .filterData _ _ _) (fun _ h => by cases h) rfl rfl)
        (Task.not_handling (e := .filterData _ _ _) rfl fun _ h => by cases h)
  | handle act hi d =>
    simp only [step]
    split
    · exact h
    · split
      · exact fun _ => h.1
      · exact h
    · split
      · split
        · exact inv_speak _ _ (Task.settled_add h.1 (e := .handled _) (fun _ h => by cases h) rfl rfl)
            (Task.not_handling (e := .handled _) rfl fun _ h => by cases h)
        · exact Task.inv_reply _ .next (Task.settled_add h.1 (e := .handled _) (fun _ h => by cases h) rfl rfl)
            (Task.not_handling (e := .handled _) rfl fun _ h => by cases h)
      · exact fun _ => h.1
  | over r => exact h

theorem inv_after (incoming : List (SrcEv Bytes)) (outgoing : BSink) (s : S) (u : U) (n : Nat) :
    Inv outgoing.out (after E incoming outgoing s u n) := by
  induction n with
  | zero =>
    refine inv_speak _ _ ?_ ?_
    · show outgoing.out = outgoing.out ++ []
      rw [List.append_nil]
    · rintro ⟨evs, m, h⟩
      exact absurd h (by simp [start])
  | succ n ih => exact inv_step _ ih

end Verif.Wording
